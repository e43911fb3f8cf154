import Verif.Proofs.WriteStep
import Verif.Proofs.Mono
import Verif.Proofs.Session

/-! # Helper lemmas: what a call leaves alone, in any state -/

namespace Tedium
open SegSpec WriteSpec

theorem addLocations_other (di n : Nat) (as : List ActiveObject) : ∀ (ci : Nat) (objs : SMap ObjectData) (p : Text),
    p ∉ as.map (·.path) → (Index.addLocations di n ci objs as).2.get? p = objs.get? p := by
  induction as with
  | nil => intro ci objs p _; rfl
  | cons a as ih =>
    intro ci objs p hp
    rw [List.map_cons, List.mem_cons, not_or] at hp
    unfold Index.addLocations
    split
    · split
      · rfl
      · rw [ih _ _ _ hp.2, SMap.get?_insert, if_neg (fun h => hp.1 h.symm)]
    · rfl

theorem insertDataBlock_other (ix : Index) (b : DataBlock) (p : Text) (hp : p ∉ ix.activeObjects.map (·.path)) :
    (ix.insertDataBlock b).2.objects.get? p = ix.objects.get? p := by
  unfold Index.insertDataBlock
  split
  · rfl
  · exact addLocations_other _ _ _ _ _ _ hp

theorem addRawData_other (ix : Index) (s : Segment) (p : Text)
    (hp : s.toc.containsRawData = true → p ∉ ix.activeObjects.map (·.path)) :
    (ix.addRawData s).2.objects.get? p = ix.objects.get? p := by
  unfold Index.addRawData
  split
  · rename_i hr
    split
    · rfl
    · split
      · rfl
      · split
        · rfl
        · exact insertDataBlock_other _ _ _ (hp hr)
  · rfl

theorem addRawData_blocks (ix : Index) (s : Segment) : ∃ bs, (ix.addRawData s).2.dataBlocks = ix.dataBlocks ++ bs := by
  have triv : ∃ bs, ix.dataBlocks = ix.dataBlocks ++ bs := ⟨[], (List.append_nil _).symm⟩
  unfold Index.addRawData
  split
  · split
    · exact triv
    · split
      · exact triv
      · split
        · exact triv
        · unfold Index.insertDataBlock
          split
          · exact triv
          · exact ⟨_, rfl⟩
  · exact triv

theorem addSegment_blocks (ix : Index) (s : Segment) : ∃ bs, (ix.addSegment s).2.dataBlocks = ix.dataBlocks ++ bs := by
  rw [addSegment_eq]
  have hf := (afterObjects_frame ix s).2
  revert hf
  cases afterObjects ix s with
  | mk r ix1 =>
    intro hf
    cases r with
    | error e => exact ⟨[], by rw [List.append_nil]; exact hf⟩
    | ok u =>
      dsimp only at hf ⊢
      obtain ⟨bs, hb⟩ := addRawData_blocks ix1 s
      revert hb
      cases ix1.addRawData s with
      | mk r2 ix2 =>
        intro hb
        dsimp only at hb
        rw [hf] at hb
        cases r2 with
        | error e => exact ⟨bs, hb⟩
        | ok u2 =>
          dsimp only
          rw [advance_eq]
          split <;> exact ⟨bs, hb⟩

theorem addSegment_other (ix : Index) (s : Segment) (p : Text)
    (hp : s.toc.containsRawData = true → p ∉ (afterObjects ix s).2.activeObjects.map (·.path)) :
    (ix.addSegment s).2.objects.get? p = (afterObjects ix s).2.objects.get? p := by
  rw [addSegment_eq]
  revert hp
  cases afterObjects ix s with
  | mk r ix1 =>
    intro hp
    cases r with
    | error e => rfl
    | ok u =>
      dsimp only at hp ⊢
      have ho := addRawData_other ix1 s p hp
      revert ho
      cases ix1.addRawData s with
      | mk r2 ix2 =>
        intro ho
        cases r2 with
        | error e => exact ho
        | ok u2 =>
          dsimp only at ho ⊢
          rw [advance_objects]
          exact ho

theorem entryStep_active (ix : Index) (e : ObjectMetaData) :
    ∀ p ∈ (entryStep ix e).2.activeObjects.map (·.path), p ∈ ix.activeObjects.map (·.path) ∨ p = e.path := by
  have hmeta : (ix.updateMetaObject e).2.activeObjects = ix.activeObjects := (updateMetaObject_frame ix e).2.2
  have hdata : ∀ p ∈ (ix.updateOrActivateDataObject e).2.activeObjects.map (·.path),
      p ∈ ix.activeObjects.map (·.path) ∨ p = e.path := by
    unfold Index.updateOrActivateDataObject
    split
    · intro p hp
      left
      have : ∀ r : R Unit × Index, r.2.activeObjects = Index.updateActive e ix.activeObjects →
          p ∈ r.2.activeObjects.map (·.path) → p ∈ ix.activeObjects.map (·.path) := by
        intro r hr h
        rw [hr, updateActive_paths] at h
        exact h
      refine this _ ?_ hp
      dsimp only
      split <;> rfl
    · revert hmeta
      cases ix.updateMetaObject e with
      | mk r ix1 =>
        intro hmeta
        dsimp only at hmeta
        cases r with
        | error _ => intro p hp; left; rw [← hmeta]; exact hp
        | ok _ =>
          dsimp only
          split
          · intro p hp; left; rw [← hmeta]; exact hp
          · intro p hp
            dsimp only at hp
            rw [List.map_append, List.mem_append, hmeta] at hp
            rcases hp with hp | hp
            · exact Or.inl hp
            · right
              rw [List.map_cons, List.map_nil] at hp
              exact List.mem_singleton.mp hp
  unfold entryStep
  cases e.rawDataIndex with
  | none => intro p hp; left; dsimp only at hp; rw [hmeta] at hp; exact hp
  | matchPrevious => exact hdata
  | rawData m => exact hdata

theorem addObjects_active (es : List ObjectMetaData) : ∀ (ix : Index),
    ∀ p ∈ (ix.addObjects es).2.activeObjects.map (·.path), p ∈ ix.activeObjects.map (·.path) ∨ p ∈ es.map (·.path) := by
  induction es with
  | nil => intro ix p hp; exact Or.inl hp
  | cons e es ih =>
    intro ix p hp
    rw [addObjects_cons] at hp
    have hs := entryStep_active ix e
    revert hp hs
    cases entryStep ix e with
    | mk r ix1 =>
      intro hp hs
      cases r with
      | error _ =>
        rcases hs p hp with h | h
        · exact Or.inl h
        · exact Or.inr (by rw [h]; exact List.mem_cons_self)
      | ok _ =>
        rcases ih _ p hp with h | h
        · rcases hs p h with h | h
          · exact Or.inl h
          · exact Or.inr (by rw [h]; exact List.mem_cons_self)
        · exact Or.inr (List.mem_cons_of_mem _ h)

theorem afterObjects_active (ix : Index) (s : Segment) (p : Text)
    (hp : p ∈ (afterObjects ix s).2.activeObjects.map (·.path)) :
    (s.toc.containsNewObjectList = false ∧ p ∈ ix.activeObjects.map (·.path)) ∨ p ∈ (entriesOf s).map (·.path) := by
  unfold afterObjects at hp
  rcases addObjects_active _ _ p hp with h | h
  · left
    split at h
    · cases h
    · rename_i hn
      exact ⟨by simpa using hn, h⟩
  · exact Or.inr h

theorem fold_other (kept : List ObjectMetaData) : ∀ (objs : SMap ObjectData) (p : Text), p ∉ kept.map (·.path) →
    (kept.foldl (fun objs e => objs.insert e.path (updatedObject (objs.get? e.path) e)) objs).get? p = objs.get? p := by
  induction kept with
  | nil => intros; rfl
  | cons e es ih =>
    intro objs p hp
    rw [List.map_cons, List.mem_cons, not_or] at hp
    rw [List.foldl_cons, ih _ _ hp.2, SMap.get?_insert, if_neg (fun h => hp.1 h.symm)]

theorem fold_same (kept : List ObjectMetaData) (h : ∀ e ∈ kept, e.properties = []) :
    ∀ (objs : SMap ObjectData) (p : Text) (o : ObjectData), objs.get? p = some o →
    ∃ o', (kept.foldl (fun objs e => objs.insert e.path (updatedObject (objs.get? e.path) e)) objs).get? p = some o' ∧
      o'.properties = o.properties := by
  induction kept with
  | nil => intro objs p o ho; exact ⟨o, ho, rfl⟩
  | cons e es ih =>
    intro objs p o ho
    rw [List.foldl_cons]
    have hes : ∀ x ∈ es, x.properties = [] := fun x hx => h x (List.mem_cons_of_mem _ hx)
    by_cases hp : e.path = p
    · obtain ⟨o', h1, h2⟩ := ih hes (objs.insert e.path (updatedObject (objs.get? e.path) e)) p
        (updatedObject (objs.get? e.path) e) (by rw [SMap.get?_insert, if_pos hp])
      refine ⟨o', h1, h2.trans ?_⟩
      rw [hp, ho]
      unfold updatedObject
      dsimp only
      rw [h e List.mem_cons_self]
      rfl
    · exact ih hes _ p o (by rw [SMap.get?_insert, if_neg hp]; exact ho)

theorem afterObjects_other (ix : Index) (s : Segment) (p : Text) (hp : p ∉ (entriesOf s).map (·.path)) :
    (afterObjects ix s).2.objects.get? p = ix.objects.get? p := by
  obtain ⟨kept, ⟨pre, hpre, hk⟩, heq⟩ := afterObjects_objects ix s
  rw [heq, fold_other]
  intro h
  obtain ⟨e, he, rfl⟩ := List.mem_map.mp h
  exact hp (List.mem_map_of_mem (hpre.subset (hk.subset he)))

/-! ## The active list after a successful write -/

theorem addObjects_fresh (es : List ObjectMetaData) : ∀ {ix : Index}, Inv ix → (∀ e ∈ es, e.rawDataIndex ≠ .none) →
    (es.map (·.path)).Nodup → (∀ e ∈ es, e.path ∉ ix.activeObjects.map (·.path)) → (ix.addObjects es).1 = .ok () →
    (ix.addObjects es).2.activeObjects.map (·.path) = ix.activeObjects.map (·.path) ++ es.map (·.path) := by
  induction es with
  | nil => intro ix _ _ _ _ _; exact (List.append_nil _).symm
  | cons e es ih =>
    intro ix hi hd hn hf hok
    rw [List.map_cons, List.nodup_cons] at hn
    have hstep : entryStep ix e = ix.updateOrActivateDataObject e := by
      unfold entryStep
      have := hd e List.mem_cons_self
      cases hr : e.rawDataIndex <;> first | rfl | exact absurd hr this
    rw [addObjects_cons, hstep] at hok ⊢
    have hinv := hi.updateOrActivate e (hd e List.mem_cons_self)
    rcases updateOrActivate_cases hi e (hd e List.mem_cons_self) with ⟨hm, _⟩ | ⟨_, m, _, heq⟩ | ⟨_, _, _, heq⟩
    · exact absurd hm (hf e List.mem_cons_self)
    · rw [heq] at hok hinv ⊢
      dsimp only at hok hinv ⊢
      have hact : ((ix.activeObjects ++ [(⟨e.path, m.numberOfValues⟩ : ActiveObject)]).map (·.path))
          = ix.activeObjects.map (·.path) ++ [e.path] := by
        rw [List.map_append]; rfl
      rw [ih hinv (fun x hx => hd x (List.mem_cons_of_mem _ hx)) hn.2 (by
        intro x hx
        dsimp only
        rw [hact]
        intro h
        rcases List.mem_append.mp h with h | h
        · exact hf x (List.mem_cons_of_mem _ hx) h
        · apply hn.1
          rw [← List.mem_singleton.mp h]
          exact List.mem_map_of_mem hx) hok]
      dsimp only
      rw [hact, List.append_assoc]
      rfl
    · rw [heq] at hok
      cases hok

theorem addRawData_active (ix : Index) (s : Segment) : (ix.addRawData s).2.activeObjects = ix.activeObjects := by
  unfold Index.addRawData
  split
  · split
    · rfl
    · split
      · rfl
      · split
        · rfl
        · unfold Index.insertDataBlock
          split <;> rfl
  · rfl

theorem addSegment_active (ix : Index) (s : Segment) :
    (ix.addSegment s).2.activeObjects = (afterObjects ix s).2.activeObjects := by
  rw [addSegment_eq]
  cases afterObjects ix s with
  | mk r ix1 =>
    cases r with
    | error e => rfl
    | ok u =>
      dsimp only
      have ha := addRawData_active ix1 s
      revert ha
      cases ix1.addRawData s with
      | mk r2 ix2 =>
        intro ha
        cases r2 with
        | error e => exact ha
        | ok u2 =>
          dsimp only at ha ⊢
          rw [advance_eq]
          split <;> exact ha

theorem addSegment_ok_afterObjects {ix : Index} {s : Segment} {n : Nat} (h : (ix.addSegment s).1 = .ok n) :
    (afterObjects ix s).1 = .ok () := by
  rw [addSegment_eq] at h
  revert h
  cases afterObjects ix s with
  | mk r ix1 =>
    intro h
    cases r with
    | error e => cases h
    | ok u => rfl

/-- A data write adds one segment, whose metadata section depends on whether the channel list diverges from
    the current one. -/
theorem writeChannels_segment_flags {α : Type} (S : Storage α) (e : Endian) (t : TdmsFile) (chs : List ChannelPath)
    (vals : List α) (layout : DataLayout) (hne : chs ≠ []) (hd : chs.length ∣ vals.length) :
    ∃ s bs, t.writeChannels S e chs vals layout =
        ((t.index.addSegment s).1.map (fun _ => ()), ⟨(t.index.addSegment s).2, t.bytes ++ bs⟩) ∧
      s.toc.containsRawData = true ∧
      s.toc.containsNewObjectList
        = decide (Diverges (t.index.activeObjects.map (·.path)) (chs.map ChannelPath.path)) ∧
      (∀ o ∈ entriesOf s, o.properties = [] ∧
        (o.rawDataIndex = .matchPrevious ∨
          o.rawDataIndex = .rawData (writtenFormat S (vals.length / chs.length)))) ∧
      (entriesOf s).map (·.path) =
        (if Diverges (t.index.activeObjects.map (·.path)) (chs.map ChannelPath.path) then chs.map ChannelPath.path else []) ∧
      (s.metaData = none ↔ ¬ Diverges (t.index.activeObjects.map (·.path)) (chs.map ChannelPath.path)) ∧
      s.rawDataOffset = MetaData.optSize s.metaData ∧
      s.nextSegmentOffset = MetaData.optSize s.metaData + S.memSize * vals.length ∧
      bs.length = 28 + MetaData.optSize s.metaData + (vals.flatMap (S.write e)).length ∧
      ∃ toc, (s, bs) = writeSegment e toc s.metaData (some (TdmsFile.sliceData S e vals)) ∧
        toc.dataIsInterleaved = decide (layout = .interleaved) ∧ toc.containsDaqmxRawData = false := by
  unfold TdmsFile.writeChannels
  rw [if_neg (fun h => hne (List.length_eq_zero_iff.mp h)), if_neg (by
    intro h; exact h (Nat.mod_eq_zero_of_dvd hd))]
  have hobj : ((chs.map ChannelPath.path).zip (TdmsFile.dataStructure S vals chs.length)).map (·.1)
      = chs.map ChannelPath.path := by
    rw [List.map_fst_zip]
    unfold TdmsFile.dataStructure
    simp
  have hfmt : ∀ x ∈ (chs.map ChannelPath.path).zip (TdmsFile.dataStructure S vals chs.length),
      x.2 = writtenFormat S (vals.length / chs.length) := by
    intro x hx
    exact List.eq_of_mem_replicate (List.of_mem_zip (a := x.1) (b := x.2) hx).2
  have hlive := liveMatches_eq t.index.activeObjects
    ((chs.map ChannelPath.path).zip (TdmsFile.dataStructure S vals chs.length))
  rw [hobj] at hlive
  generalize hz : (chs.map ChannelPath.path).zip (TdmsFile.dataStructure S vals chs.length) = z at *
  obtain ⟨hdr, hbytes, hhdr⟩ := writeSegment_header e
    { containsNewObjectList := !(t.index.checkWriteValues z).1, dataIsInterleaved := decide (layout = .interleaved) }
    (if (t.index.checkWriteValues z).1 = true then none
      else some { objects := (t.index.checkWriteValues z).2.map (fun (p, i) =>
        ({ path := p, properties := [], rawDataIndex := i } : ObjectMetaData)) })
    (some (TdmsFile.sliceData S e vals))
  have hcw : (t.index.checkWriteValues z).1 = Index.liveMatches t.index.activeObjects z := rfl
  refine ⟨(writeSegment e
    { containsNewObjectList := !(t.index.checkWriteValues z).1, dataIsInterleaved := decide (layout = .interleaved) }
    (if (t.index.checkWriteValues z).1 = true then none
      else some { objects := (t.index.checkWriteValues z).2.map (fun (p, i) =>
        ({ path := p, properties := [], rawDataIndex := i } : ObjectMetaData)) })
    (some (TdmsFile.sliceData S e vals))).1, _, rfl, rfl, ?_, ?_, ?_, ?_, rfl, rfl, ?_, _, rfl, rfl, rfl⟩
  · show (!(t.index.checkWriteValues z).1) = _
    rw [hcw]
    cases hm : Index.liveMatches t.index.activeObjects z with
    | false => rw [decide_eq_true (hlive.mp hm)]; rfl
    | true =>
      rw [decide_eq_false (fun h => by rw [hlive.mpr h] at hm; cases hm)]; rfl
  · intro o ho
    unfold entriesOf at ho
    change o ∈ (match ((if (t.index.checkWriteValues z).1 = true then none else _) : Option MetaData) with
      | some m => m.objects | none => []) at ho
    split at ho
    · rename_i m hm
      split at hm
      · cases hm
      · cases hm
        obtain ⟨y, hy, rfl⟩ := List.mem_map.mp ho
        refine ⟨rfl, ?_⟩
        unfold Index.checkWriteValues at hy
        obtain ⟨x, hx, rfl⟩ := List.mem_map.mp hy
        show Index.rawIndexFor t.index x.1 x.2 = .matchPrevious ∨ Index.rawIndexFor t.index x.1 x.2 = _
        rw [hfmt x hx]
        unfold Index.rawIndexFor
        split
        · split
          · exact Or.inl rfl
          · exact Or.inr rfl
        · exact Or.inr rfl
    · cases ho
  · unfold entriesOf
    show List.map _ (match ((if (t.index.checkWriteValues z).1 = true then none else _) : Option MetaData) with
      | some m => m.objects | none => []) = _
    rw [hcw]
    cases hm : Index.liveMatches t.index.activeObjects z with
    | false =>
      rw [if_neg (by simp), if_pos (hlive.mp hm), ← hobj]
      dsimp only
      unfold Index.checkWriteValues
      rw [List.map_map, List.map_map]
      rfl
    | true =>
      rw [if_pos rfl, if_neg (fun h => by rw [hlive.mpr h] at hm; cases hm)]
      rfl
  · show (if (t.index.checkWriteValues z).1 = true then none else some _) = none ↔ _
    rw [hcw, ← hlive]
    cases hm : Index.liveMatches t.index.activeObjects z <;> simp
  · refine (congrArg List.length hbytes).trans ?_
    rw [List.length_append, hhdr]
    rfl

theorem writeChannels_segment {α : Type} (S : Storage α) (e : Endian) (t : TdmsFile) (chs : List ChannelPath)
    (vals : List α) (layout : DataLayout) (hne : chs ≠ []) (hd : chs.length ∣ vals.length) :
    ∃ s bs, t.writeChannels S e chs vals layout =
        ((t.index.addSegment s).1.map (fun _ => ()), ⟨(t.index.addSegment s).2, t.bytes ++ bs⟩) ∧
      s.toc.containsRawData = true ∧
      s.toc.containsNewObjectList
        = decide (Diverges (t.index.activeObjects.map (·.path)) (chs.map ChannelPath.path)) ∧
      (∀ o ∈ entriesOf s, o.properties = [] ∧
        (o.rawDataIndex = .matchPrevious ∨
          o.rawDataIndex = .rawData (writtenFormat S (vals.length / chs.length)))) ∧
      (entriesOf s).map (·.path) =
        (if Diverges (t.index.activeObjects.map (·.path)) (chs.map ChannelPath.path) then chs.map ChannelPath.path else []) ∧
      (s.metaData = none ↔ ¬ Diverges (t.index.activeObjects.map (·.path)) (chs.map ChannelPath.path)) ∧
      s.rawDataOffset = MetaData.optSize s.metaData ∧
      s.nextSegmentOffset = MetaData.optSize s.metaData + S.memSize * vals.length ∧
      bs.length = 28 + MetaData.optSize s.metaData + (vals.flatMap (S.write e)).length ∧
      ∃ toc, (s, bs) = writeSegment e toc s.metaData (some (TdmsFile.sliceData S e vals)) := by
  obtain ⟨s, bs, h1, h2, h3, h4, h5, h6, h7, h8, h9, toc, h10, _⟩ :=
    writeChannels_segment_flags S e t chs vals layout hne hd
  exact ⟨s, bs, h1, h2, h3, h4, h5, h6, h7, h8, h9, toc, h10⟩

/-- A property write does not change the active list. -/
theorem writeProperties_active (t : TdmsFile) (e : Endian) (path : PropertyPath) (ps : List (Text × PropertyValue)) :
    (t.writeProperties e path ps).2.index.activeObjects = t.index.activeObjects := by
  show (t.index.addSegment (propertySegment e path ps).1).2.activeObjects = _
  rw [addSegment_active]
  unfold afterObjects
  rw [if_neg (fun h => by cases h)]
  show (t.index.addObjects [({ path := path.path, properties := ps, rawDataIndex := .none } : ObjectMetaData)]).2.activeObjects = _
  rw [addObjects_cons]
  have h : (entryStep t.index { path := path.path, properties := ps, rawDataIndex := .none }).2.activeObjects
      = t.index.activeObjects :=
    (updateMetaObject_frame t.index { path := path.path, properties := ps, rawDataIndex := .none }).2.2
  revert h
  cases entryStep t.index { path := path.path, properties := ps, rawDataIndex := .none } with
  | mk r ix =>
    intro h
    cases r <;> exact h

/-- The active list after a successful data write to distinct channels. -/
theorem writeChannels_active {α : Type} (S : Storage α) (e : Endian) (t : TdmsFile) (hi : Inv t.index)
    (chs : List ChannelPath) (vals : List α) (layout : DataLayout) (hn : (chs.map ChannelPath.path).Nodup)
    (hok : (t.writeChannels S e chs vals layout).1 = .ok ()) :
    (t.writeChannels S e chs vals layout).2.index.activeObjects.map (·.path) =
      if Diverges (t.index.activeObjects.map (·.path)) (chs.map ChannelPath.path) then chs.map ChannelPath.path
      else t.index.activeObjects.map (·.path) := by
  have harg : chs ≠ [] ∧ chs.length ∣ vals.length := by
    unfold TdmsFile.writeChannels at hok
    split at hok
    · cases hok
    · rename_i h
      split at hok
      · cases hok
      · rename_i h'
        exact ⟨fun hh => h (by rw [hh]; rfl), Nat.dvd_of_mod_eq_zero (Decidable.byContradiction h')⟩
  obtain ⟨s, bs, heq, _, hnew, hent, hpaths, _⟩ := writeChannels_segment S e t chs vals layout harg.1 harg.2
  rw [heq] at hok ⊢
  have hao : (afterObjects t.index s).1 = .ok () := by
    cases hh : (t.index.addSegment s).1 with
    | ok n => exact addSegment_ok_afterObjects hh
    | error e => dsimp only at hok; rw [hh] at hok; cases hok
  dsimp only
  rw [addSegment_active]
  unfold afterObjects at hao ⊢
  by_cases hd : Diverges (t.index.activeObjects.map (·.path)) (chs.map ChannelPath.path)
  · rw [hnew, decide_eq_true hd, if_pos rfl] at hao ⊢
    rw [if_pos hd] at hpaths ⊢
    rw [addObjects_fresh _ hi.deactivate (fun o ho h => by
      rcases (hent o ho).2 with h' | h' <;> rw [h'] at h <;> cases h) (by rw [hpaths]; exact hn)
      (fun _ _ h => by cases h) hao, hpaths]
    rfl
  · rw [hnew, decide_eq_false hd, if_neg (by simp)] at hao ⊢
    rw [if_neg hd] at hpaths ⊢
    rw [List.map_eq_nil_iff.mp hpaths]
    rfl

end Tedium
