import Verif.Props.Naming
import Verif.Props.Index
import Verif.Props.Write

/-! # C14 and C15 in a session: what is found after any calls, failing ones too -/

namespace Tedium
open SegSpec WriteSpec

/-! ## The properties of an object are kept in order -/

def PropsSorted (objs : SMap ObjectData) : Prop :=
  ∀ p o, objs.get? p = some o → SMap.Sorted o.properties

theorem PropsSorted.insert {objs : SMap ObjectData} (h : PropsSorted objs) (e : ObjectMetaData) :
    PropsSorted (objs.insert e.path (updatedObject (objs.get? e.path) e)) := by
  intro p o ho
  rw [SMap.get?_insert] at ho
  split at ho
  · cases ho
    cases hg : objs.get? e.path with
    | none => exact sorted_insertProps _ _ SMap.sorted_nil
    | some o' => exact sorted_insertProps _ _ (h _ _ hg)
  · exact h p o ho

theorem PropsSorted.fold (kept : List ObjectMetaData) : ∀ {objs : SMap ObjectData}, PropsSorted objs →
    PropsSorted (kept.foldl (fun objs e => objs.insert e.path (updatedObject (objs.get? e.path) e)) objs) := by
  induction kept with
  | nil => exact fun h => h
  | cons e es ih => exact fun h => ih (h.insert e)

theorem PropsSorted.addSegment {ix : Index} (h : PropsSorted ix.objects) (s : Segment) :
    PropsSorted (ix.addSegment s).2.objects := by
  intro p o ho
  obtain ⟨ls, hls⟩ := addSegment_objects ix s p
  obtain ⟨kept, _, heq⟩ := afterObjects_objects ix s
  rw [hls, heq, Option.map_eq_some_iff] at ho
  obtain ⟨o', ho', rfl⟩ := ho
  exact PropsSorted.fold kept h p o' ho'

theorem Reach.props {ix : Index} (h : Reach ix) : PropsSorted ix.objects := by
  induction h with
  | new => intro p o ho; cases ho
  | add s _ ih => exact ih.addSegment s

/-! ## Objects are not lost -/

theorem fold_insert_keeps (kept : List ObjectMetaData) : ∀ (objs : SMap ObjectData) (p : Text),
    (objs.get? p ≠ none ∨ ∃ e ∈ kept, e.path = p) →
    (kept.foldl (fun objs e => objs.insert e.path (updatedObject (objs.get? e.path) e)) objs).get? p ≠ none := by
  induction kept with
  | nil =>
    intro objs p h
    rcases h with h | ⟨e, he, _⟩
    · exact h
    · cases he
  | cons x xs ih =>
    intro objs p h
    refine ih _ p ?_
    by_cases hx : x.path = p
    · left
      rw [SMap.get?_insert, if_pos hx]
      simp
    · rcases h with h | ⟨e, he, hp⟩
      · left
        rw [SMap.get?_insert, if_neg hx]
        exact h
      · rcases List.mem_cons.mp he with rfl | he
        · exact absurd hp hx
        · exact Or.inr ⟨e, he, hp⟩

theorem addSegment_keeps {ix : Index} (s : Segment) {p : Text} (h : ix.objects.get? p ≠ none) :
    (ix.addSegment s).2.objects.get? p ≠ none := by
  obtain ⟨ls, hls⟩ := addSegment_objects ix s p
  obtain ⟨kept, _, heq⟩ := afterObjects_objects ix s
  rw [hls, heq, ne_eq, Option.map_eq_none_iff]
  exact fold_insert_keeps kept _ p (Or.inl h)

theorem entryStep_ok_objects {ix : Index} (hi : Inv ix) (e : ObjectMetaData) (h : (entryStep ix e).1 = .ok ()) :
    (entryStep ix e).2.objects = ix.objects.insert e.path (updatedObject (ix.objects.get? e.path) e) := by
  by_cases he : e.rawDataIndex = .none
  · have hs : entryStep ix e = ix.updateMetaObject e := by
      unfold entryStep; rw [he]
    rw [hs] at h ⊢
    rcases updateMetaObject_cases ix e with ⟨hh, _⟩ | ⟨o, _, _, _, hh⟩ | ⟨_, _, hh⟩
    · rw [hh]
    · rw [hh] at h; cases h
    · rw [hh] at h; cases h
  · have hs : entryStep ix e = ix.updateOrActivateDataObject e := by
      unfold entryStep; split
      · rename_i hn; exact absurd hn he
      · rfl
    rw [hs] at h ⊢
    rcases updateOrActivate_cases hi e he with ⟨_, hh⟩ | ⟨_, m, _, hh⟩ | ⟨_, _, _, hh⟩
    · rw [hh]
    · rw [hh]
    · rw [hh] at h; cases h

theorem addObjects_ok_has (es : List ObjectMetaData) : ∀ {ix : Index}, Inv ix → (ix.addObjects es).1 = .ok () →
    ∀ p, ((ix.addObjects es).2.objects.get? p ≠ none ↔ ix.objects.get? p ≠ none ∨ ∃ e ∈ es, e.path = p) := by
  induction es with
  | nil =>
    intro ix _ _ p
    show ix.objects.get? p ≠ none ↔ _
    simp
  | cons e es ih =>
    intro ix hi h p
    rw [addObjects_cons] at h ⊢
    have hobj := entryStep_ok_objects hi e
    have hinv : Inv (entryStep ix e).2 := by
      unfold entryStep
      split
      · rename_i hn; exact hi.updateMetaObject e (Or.inl hn)
      · rename_i hn; exact hi.updateOrActivate e (fun hh => hn hh)
    revert h hobj hinv
    cases entryStep ix e with
    | mk r ix1 =>
      intro h hobj hinv
      cases r with
      | error _ => cases h
      | ok u =>
        dsimp only at h hobj hinv ⊢
        rw [ih hinv h p, hobj rfl, SMap.get?_insert]
        by_cases hp : e.path = p
        · rw [if_pos hp]
          simp [hp]
        · rw [if_neg hp]
          simp [hp]

/-! ## What a call finds -/

/-- **C14, all of them.** In every session, `read_all_properties` gives `None` exactly where `read_property` reports
    a missing object. Otherwise it lists each name once, in ascending order, with the value `read_property` gives. -/
theorem all_properties_agree {al : Alloc} {t : TdmsFile} (ht : Session al t) (path : PropertyPath) :
    (t.readAllProperties path = none ↔ ∀ n, t.readProperty path n = R.err (.missingObject path.path)) ∧
    ∀ ps, t.readAllProperties path = some ps →
      ps.Pairwise (fun a b => textCmp a.1 b.1 = .lt) ∧
      ∀ n v, (n, v) ∈ ps ↔ t.readProperty path n = .ok (some v) := by
  unfold TdmsFile.readAllProperties Index.getObjectProperties TdmsFile.readProperty Index.getObjectProperty
  cases ho : t.index.objects.get? path.path with
  | none => exact ⟨⟨fun _ _ => rfl, fun _ => rfl⟩, fun ps h => by cases h⟩
  | some o =>
    refine ⟨⟨fun h => (by cases h), fun h => (by cases h [])⟩, ?_⟩
    intro ps h
    cases h
    have hs := ht.reach.props _ _ ho
    refine ⟨hs, fun n v => ?_⟩
    rw [SMap.mem_iff_get? hs]
    exact ⟨fun h => congrArg Except.ok h, fun h => Except.ok.inj h⟩

/-- **C14, all of them, after any calls.** Make any calls in a session, also failing ones. Then
    `read_all_properties` lists each name once, in ascending order, with the last value the calls gave it, or with
    the value it had if they gave it none. Properties that the calls did not write, and that were not there, are not
    in the list. -/
theorem all_properties_history {al : Alloc} {t : TdmsFile} (ht : Session al t) (ops : List Op)
    (path : PropertyPath) {ps : List (Text × PropertyValue)}
    (h : (runOps al t ops).readAllProperties path = some ps) :
    ps.Pairwise (fun a b => textCmp a.1 b.1 = .lt) ∧
    ∀ n v, (n, v) ∈ ps ↔
      (lastValue (ops.flatMap (Op.propsFor path.path)) n).or (foundValue (t.readProperty path n)) = some v := by
  obtain ⟨h1, h2⟩ := (all_properties_agree (ht.runOps ops) path).2 ps h
  refine ⟨h1, fun n v => ?_⟩
  rw [h2, ← last_write_wins]
  cases (runOps al t ops).readProperty path n with
  | error e => exact ⟨fun h => (by cases h), fun h => (by cases h)⟩
  | ok o => exact ⟨fun h => Except.ok.inj h, fun h => congrArg Except.ok h⟩

/-- **C15, in every state.** With `Has` for "`read_all_properties` finds the object": `read_property` reports a
    missing object, `channel_length` gives `None` and reads report a missing object exactly when it is not there.
    `read_property` gives `None` exactly when it is there without that property. -/
theorem missing_in_session (t : TdmsFile) (p : PropertyPath) (c : ChannelPath) (n : Text) :
    (t.readProperty p n = R.err (.missingObject p.path) ↔ ¬ t.Has p.path) ∧
    (t.readProperty p n = .ok none ↔ ∃ ps, t.readAllProperties p = some ps ∧ SMap.get? n ps = none) ∧
    (t.channelLength c = .ok none ↔ ¬ t.Has c.path) ∧
    ∀ (α : Type) (S : Storage α) (start : Nat) (out : List α),
      (¬ t.Has c.path → t.readChannelFrom S c start out = R.err (.missingObject c.path)) ∧
      (¬ t.Has c.path → t.readChannelsFrom S [c] start [out] = R.err (.missingObject c.path)) := by
  have hget : ∀ q, ¬ t.Has q ↔ t.index.objects.get? q = none := by
    intro q; rw [has_get]; exact Classical.not_not
  refine ⟨?_, ?_, ?_, ?_⟩
  · rw [hget]
    unfold TdmsFile.readProperty Index.getObjectProperty
    cases t.index.objects.get? p.path with
    | none => simp
    | some o => exact ⟨fun h => (by cases h), fun h => (by cases h)⟩
  · unfold TdmsFile.readProperty Index.getObjectProperty TdmsFile.readAllProperties Index.getObjectProperties
    cases t.index.objects.get? p.path with
    | none => exact ⟨fun h => (by cases h), fun ⟨ps, h, _⟩ => (by cases h)⟩
    | some o =>
      constructor
      · intro h; exact ⟨o.properties, rfl, Except.ok.inj h⟩
      · rintro ⟨ps, h, hn⟩; cases h; exact congrArg Except.ok hn
  · rw [hget]
    unfold TdmsFile.channelLength Index.channelLength
    cases t.index.objects.get? c.path with
    | none => simp
    | some o =>
      dsimp only
      constructor
      · intro h; split at h <;> cases h
      · intro h; cases h
  · intro α S start out
    constructor
    · intro hl
      unfold TdmsFile.readChannelFrom Index.getChannelDataPositions
      rw [(hget _).mp hl]; rfl
    · intro hl
      unfold TdmsFile.readChannelsFrom TdmsFile.lookupPositions Index.getChannelDataPositions
      rw [(hget _).mp hl]; rfl

/-! ## Which objects there are after a call -/

/-- **C15, objects stay.** No call, failing or not, removes an object. -/
theorem objects_stay (al : Alloc) (t : TdmsFile) (ops : List Op) {p : Text} (h : t.Has p) : (runOps al t ops).Has p := by
  induction ops generalizing t with
  | nil => exact h
  | cons op ops ih =>
    refine ih (op.run al t).2 ?_
    rw [has_get] at h ⊢
    rcases Op.run_index al t op with hh | ⟨s, hh⟩
    · rw [hh]; exact h
    · rw [hh]; exact addSegment_keeps s h

/-- **C15, property writes.** After a property write, whatever its result, the objects are those before and the one
    written to, even if no property was given. -/
theorem property_write_objects {al : Alloc} {t : TdmsFile} (ht : Session al t) (e : Endian) (path : PropertyPath)
    (ps : List (Text × PropertyValue)) (p : Text) :
    (t.writeProperties e path ps).2.Has p ↔ t.Has p ∨ p = path.path := by
  constructor
  · exact fun h => call_objects (al := al) (op := .props e path ps) h
  · rw [has_get, has_get]
    intro h
    unfold TdmsFile.writeProperties writeSegment
    dsimp only
    generalize hs : ({ toc := _, nextSegmentOffset := _, rawDataOffset := _, metaData := _ } : Segment) = s
    have hes : entriesOf s = [⟨path.path, ps, .none⟩] := by rw [← hs]; rfl
    obtain ⟨ls, hls⟩ := addSegment_objects t.index s p
    rw [hls, ne_eq, Option.map_eq_none_iff]
    have hinv : Inv (if s.toc.containsNewObjectList then t.index.deactivateAllObjects else t.index) := by
      split
      · exact ht.reach.inv.deactivate
      · exact ht.reach.inv
    have hok : (afterObjects t.index s).1 = .ok () := by
      unfold afterObjects
      rw [hes, addObjects_cons]
      generalize (if s.toc.containsNewObjectList then t.index.deactivateAllObjects else t.index) = ix
      have : (entryStep ix ⟨path.path, ps, .none⟩).1 = .ok () := by
        show (ix.updateMetaObject _).1 = _
        rcases updateMetaObject_cases ix ⟨path.path, ps, .none⟩ with ⟨hh, _⟩ | ⟨o, _, _, hh, _⟩ | ⟨_, hh, _⟩
        · rw [hh]
        · cases hh
        · cases hh
      revert this
      cases entryStep ix ⟨path.path, ps, .none⟩ with
      | mk r ix1 => intro hr; dsimp only at hr; subst hr; rfl
    unfold afterObjects at hok ⊢
    rw [← ne_eq, addObjects_ok_has _ hinv hok p, hes]
    rcases h with h | h
    · left; split <;> exact h
    · exact Or.inr ⟨_, List.mem_singleton.mpr rfl, h.symm⟩

/-- **C15, data writes.** After a successful data write the objects are those before and, if the call repeats the
    description of the channels, the channels of the call. -/
theorem data_write_objects {al : Alloc} {t : TdmsFile} (ht : Session al t) {α : Type} (S : Storage α) (e : Endian)
    (chs : List ChannelPath) (vals : List α) (layout : DataLayout)
    (hok : (t.writeChannels S e chs vals layout).1 = .ok ()) (p : Text) :
    (t.writeChannels S e chs vals layout).2.Has p ↔
      t.Has p ∨ (Diverges (t.index.activeObjects.map (·.path)) (chs.map ChannelPath.path) ∧
        p ∈ chs.map ChannelPath.path) := by
  have hne : chs ≠ [] ∧ chs.length ∣ vals.length := by
    unfold TdmsFile.writeChannels at hok
    split at hok
    · cases hok
    · split at hok
      · cases hok
      · rename_i h1 h2
        refine ⟨by intro hh; subst hh; simp at h1, ?_⟩
        exact Nat.dvd_of_mod_eq_zero (by simpa using h2)
  obtain ⟨s, bs, hw, _, _, _, hes, _⟩ := writeChannels_segment S e t chs vals layout hne.1 hne.2
  rw [hw] at hok ⊢
  have hk : ∃ n, (t.index.addSegment s).1 = .ok n := by
    dsimp only at hok
    cases hr : (t.index.addSegment s).1 with
    | error _ => rw [hr] at hok; cases hok
    | ok n => exact ⟨n, rfl⟩
  obtain ⟨n, hn⟩ := hk
  have hao := addSegment_ok_afterObjects hn
  have hinv : Inv (if s.toc.containsNewObjectList then t.index.deactivateAllObjects else t.index) := by
    split
    · exact ht.reach.inv.deactivate
    · exact ht.reach.inv
  rw [has_get, has_get]
  obtain ⟨ls, hls⟩ := addSegment_objects t.index s p
  rw [hls, ne_eq, Option.map_eq_none_iff]
  unfold afterObjects at hao ⊢
  rw [← ne_eq, addObjects_ok_has _ hinv hao p]
  have hsame : (if s.toc.containsNewObjectList then t.index.deactivateAllObjects else t.index).objects
      = t.index.objects := by split <;> rfl
  rw [hsame]
  have hmem : (∃ x ∈ entriesOf s, x.path = p) ↔ p ∈ (entriesOf s).map (·.path) := by
    rw [List.mem_map]
  rw [hmem, hes]
  split
  · rename_i hd; simp [hd]
  · rename_i hd; simp [hd]

/-- A history with a failing call, properties given twice, and an object with none. -/
def propertyOps : List Op :=
  [.props .little (.group "g".toList) [("u".toList, .i32 1), ("b".toList, .i32 2)],
   writeU16 ["a"] [1, 2, 3],
   .write .little .u16 [chan "a", chan "b"] (vals16 [1]) .contigious,
   .props .big (.group "g".toList) [("u".toList, .i32 7)],
   .props .big (.group "h".toList) []]

theorem properties_example :
    (session propertyOps).readAllProperties (.group "g".toList) = some [("b".toList, .i32 2), ("u".toList, .i32 7)] ∧
    (session propertyOps).readAllProperties (.group "h".toList) = some [] ∧
    (session propertyOps).Has (chan "a").path ∧ ¬ (session propertyOps).Has (chan "b").path ∧
    (session propertyOps).readProperty (.group "h".toList) "u".toList = .ok none := by
  unfold TdmsFile.Has
  decide +kernel

end Tedium
