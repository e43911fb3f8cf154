import Verif.Spec.Several
import Verif.Proofs.Watcher
import Verif.Props.IndexEnd
import Verif.Props.Duplex

/-! # Helper lemmas: several handles on one file -/

namespace Tedium
open SegSpec WriteSpec PlanSpec

namespace Library

/-- The format of an object, in a map. -/
def formatIn (objects : SMap ObjectData) (p : Text) : Option RawDataMeta := (objects.get? p).bind (·.latestDataFormat)

/-- Two indices from which a call writes the same: `a` may know less of the file than `b`. -/
structure Alike (a b : Index) : Prop where
  active : a.activeObjects = b.activeObjects
  format : ∀ p, formatIn a.objects p = formatIn b.objects p
  next : a.nextSegmentStart ≤ b.nextSegmentStart

theorem Alike.refl (a : Index) : Alike a a := ⟨rfl, fun _ => rfl, Nat.le_refl _⟩

theorem formatIn_updated (objects : SMap ObjectData) (e : ObjectMetaData) (p : Text) :
    formatIn (objects.insert e.path (updatedObject (objects.get? e.path) e)) p =
      if e.path = p then (declares e).or (formatIn objects p) else formatIn objects p := by
  unfold formatIn
  rw [SMap.get?_insert]
  by_cases h : e.path = p
  · rw [if_pos h, if_pos h, ← h]
    cases objects.get? e.path with
    | none => exact (Option.or_none).symm
    | some o => rfl
  · rw [if_neg h, if_neg h]

theorem updated_latest (objects : SMap ObjectData) (e : ObjectMetaData) :
    (updatedObject (objects.get? e.path) e).latestDataFormat = (declares e).or (formatIn objects e.path) := by
  have := formatIn_updated objects e e.path
  rw [if_pos rfl] at this
  rw [← this]
  unfold formatIn
  rw [SMap.get?_insert, if_pos rfl]
  rfl

theorem alike_objects : ∀ (es : List ObjectMetaData) {a b b' : Index}, Inv a → Inv b → Alike a b →
    b.addObjects es = (.ok (), b') → ∃ a', a.addObjects es = (.ok (), a') ∧ Alike a' b'
  | [], a, b, b', _, _, h, hb => by
    obtain rfl : b = b' := congrArg Prod.snd hb
    exact ⟨a, rfl, h⟩
  | e :: es, a, b, b', hia, hib, h, hb => by
    have hfmt : ∀ p, formatIn (a.objects.insert e.path (updatedObject (a.objects.get? e.path) e)) p =
        formatIn (b.objects.insert e.path (updatedObject (b.objects.get? e.path) e)) p := by
      intro p
      rw [formatIn_updated, formatIn_updated, h.format p]
    unfold Index.addObjects at hb ⊢
    by_cases he : e.rawDataIndex = .none
    · simp only [he] at hb ⊢
      have hia' := hia.updateMetaObject e (Or.inl he)
      have hib' := hib.updateMetaObject e (Or.inl he)
      rcases updateMetaObject_cases a e with ⟨ha1, _⟩ | ⟨o, ho, _, hmp, heq⟩ | ⟨_, hmp, heq⟩
      · rcases updateMetaObject_cases b e with ⟨hb1, _⟩ | ⟨o, ho, _, hmp, heq⟩ | ⟨_, hmp, heq⟩
        · rw [ha1] at hia' ⊢
          rw [hb1] at hib' hb
          exact alike_objects es hia' hib' ⟨h.active, hfmt, h.next⟩ hb
        · rw [he] at hmp; cases hmp
        · rw [he] at hmp; cases hmp
      · rw [he] at hmp; cases hmp
      · rw [he] at hmp; cases hmp
    · have hia' := hia.updateOrActivate e he
      have hib' := hib.updateOrActivate e he
      simp only at hb ⊢
      rcases updateOrActivate_cases hib e he with ⟨hm, heq⟩ | ⟨hnm, m, hfm, heq⟩ | ⟨hnm, _, _, heq⟩
      · rcases updateOrActivate_cases hia e he with ⟨hm', heq'⟩ | ⟨hnm', m', hfm', heq'⟩ | ⟨hnm', _, _, heq'⟩
        · rw [heq] at hib' hb
          rw [heq'] at hia' ⊢
          exact alike_objects es hia' hib' ⟨by dsimp only; rw [h.active], hfmt, h.next⟩ hb
        · rw [h.active] at hnm'; exact absurd hm hnm'
        · rw [h.active] at hnm'; exact absurd hm hnm'
      · rcases updateOrActivate_cases hia e he with ⟨hm', heq'⟩ | ⟨hnm', m', hfm', heq'⟩ | ⟨hnm', hmp, hno, heq'⟩
        · rw [h.active] at hm'; exact absurd hm' hnm
        · rw [heq] at hib' hb
          rw [heq'] at hia' ⊢
          refine alike_objects es hia' hib' ⟨?_, hfmt, h.next⟩ hb
          rw [updated_latest, h.format, ← updated_latest, hfm] at hfm'
          rw [h.active, Option.some.inj hfm']
        · have h1 : formatIn b.objects e.path = none := by rw [← h.format]; exact hno
          rw [updated_latest, h1] at hfm
          unfold declares at hfm
          rw [hmp] at hfm
          cases hfm
      · rw [heq] at hb
        cases hb

theorem addLocations_ok (di n : Nat) : ∀ (as : List ActiveObject) (ci : Nat) (objs : SMap ObjectData),
    (∀ a ∈ as, ∃ o, objs.get? a.path = some o) → (∀ a ∈ as, a.numberOfSamples * n < u64Lim) →
    (Index.addLocations di n ci objs as).1 = .ok ()
  | [], _, _, _, _ => rfl
  | a :: as, ci, objs, hob, hlt => by
    obtain ⟨o, ho⟩ := hob a List.mem_cons_self
    unfold Index.addLocations
    rw [if_pos (hlt a List.mem_cons_self), ho]
    refine addLocations_ok di n as _ _ (fun b hb => ?_) (fun b hb => hlt b (List.mem_cons_of_mem _ hb))
    obtain ⟨o', ho'⟩ := hob b (List.mem_cons_of_mem _ hb)
    rw [SMap.get?_insert]
    split
    · exact ⟨_, rfl⟩
    · exact ⟨o', ho'⟩

theorem addLocations_format {di n : Nat} {as : List ActiveObject} {ci : Nat} {objs : SMap ObjectData} (hnd : (as.map (·.path)).Nodup)
    (hob : ∀ a ∈ as, ∃ o, objs.get? a.path = some o) (p : Text) :
    formatIn (Index.addLocations di n ci objs as).2 p = formatIn objs p := by
  obtain ⟨_, _, h3, h4⟩ := addLocations_spec di n as ci objs hnd hob
  unfold formatIn
  by_cases hp : p ∈ as.map (·.path)
  · obtain ⟨a, ha, rfl⟩ := List.mem_map.mp hp
    obtain ⟨j, hj⟩ := List.mem_iff_getElem?.mp ha
    obtain ⟨o, ho, hor, _⟩ := h4 j a hj
    rcases hor with hh | hh
    · rw [hh, ho]
    · rw [hh, ho]; rfl
  · rw [h3 p hp]

theorem fromSegment_start {s : Segment} {st st' : Nat} {ms : List RawDataMeta} {blk : DataBlock}
    (h : DataBlock.fromSegment s st ms = .ok blk) (hle : st' ≤ st) :
    ∃ blk', DataBlock.fromSegment s st' ms = .ok blk' ∧ blk'.numberOfChunks = blk.numberOfChunks := by
  unfold DataBlock.fromSegment at h ⊢
  dsimp only at h ⊢
  split at h
  · cases h
  · rename_i c1
    rw [if_neg c1]
    split at h
    · cases h
    · rename_i c2
      rw [if_neg c2]
      split at h
      · cases h
      · rename_i c3
        rw [if_neg c3]
        split at h
        · rename_i c4
          rw [if_pos (Nat.lt_of_le_of_lt (Nat.add_le_add_left hle _) c4)]
          refine ⟨_, rfl, ?_⟩
          rw [← Except.ok.inj h]
          rfl
        · cases h

theorem _root_.Tedium.Inv.present {ix : Index} (h : Inv ix) : ∀ a ∈ ix.activeObjects, ∃ o, ix.objects.get? a.path = some o := by
  intro a ha
  obtain ⟨o, _, ho, _⟩ := h.active a ha
  exact ⟨o, ho⟩

theorem alike_rawData {a b b' : Index} (s : Segment) (hia : Inv a) (hib : Inv b) (h : Alike a b)
    (hb : b.addRawData s = (.ok (), b')) : ∃ a', a.addRawData s = (.ok (), a') ∧ Alike a' b' := by
  unfold Index.addRawData at hb ⊢
  by_cases hr : s.toc.containsRawData = true
  · rw [if_pos hr] at hb ⊢
    obtain ⟨ms, h1, _, h3, _⟩ := activeRawDataMeta_ok hib.active
    obtain ⟨ms', h1', _, h3', _⟩ := activeRawDataMeta_ok hia.active
    have hms : ms' = ms := by
      rw [h3, h3', h.active]
      have : (fun x : ActiveObject => (a.objects.get? x.path).bind (·.latestDataFormat)) =
          fun x => (b.objects.get? x.path).bind (·.latestDataFormat) := funext fun x => h.format x.path
      rw [this]
    rw [h1] at hb
    rw [h1', hms]
    dsimp only at hb ⊢
    split at hb
    · cases hb
    · rename_i hne
      rw [if_neg hne]
      cases hf : DataBlock.fromSegment s b.nextSegmentStart ms with
      | error e => rw [hf] at hb; cases hb
      | ok blk =>
        rw [hf] at hb
        obtain ⟨blk', hf', hchunks⟩ := fromSegment_start hf h.next
        rw [hf']
        dsimp only at hb ⊢
        unfold Index.insertDataBlock at hb ⊢
        rw [hchunks]
        cases hn : blk.numberOfChunks with
        | error e => rw [hn] at hb; cases hb
        | ok n =>
          rw [hn] at hb
          dsimp only at hb ⊢
          obtain ⟨hb1, hb2⟩ := Prod.mk.inj hb
          obtain ⟨_, _, _, h4⟩ := addLocations_spec b.dataBlocks.length n b.activeObjects 0 b.objects hib.nodup hib.present
          have hok := addLocations_ok a.dataBlocks.length n a.activeObjects 0 a.objects hia.present (fun x hx => by
            rw [h.active] at hx
            obtain ⟨j, hj⟩ := List.mem_iff_getElem?.mp hx
            obtain ⟨_, _, _, h5⟩ := h4 j x hj
            exact (h5 hb1).2)
          refine ⟨_, Prod.ext hok rfl, ?_⟩
          rw [← hb2]
          refine ⟨h.active, fun p => ?_, h.next⟩
          dsimp only
          rw [addLocations_format hia.nodup hia.present, addLocations_format hib.nodup hib.present]
          exact h.format p
  · rw [if_neg hr] at hb ⊢
    obtain rfl : b = b' := congrArg Prod.snd hb
    exact ⟨a, rfl, h⟩

/-- Adding a segment that can be added to the index that knows more. -/
theorem alike_segment {a b b' : Index} {s : Segment} {n : Nat} (hia : Inv a) (hib : Inv b) (h : Alike a b)
    (hb : b.addSegment s = (.ok n, b')) : ∃ m a', a.addSegment s = (.ok m, a') ∧ Alike a' b' := by
  rw [addSegment_eq] at hb ⊢
  have hoa := (hia.afterObjects s).1
  have hob := (hib.afterObjects s).1
  have key : ∀ b1, afterObjects b s = (.ok (), b1) → ∃ a1, afterObjects a s = (.ok (), a1) ∧ Alike a1 b1 := by
    unfold afterObjects
    intro b1 h1
    by_cases c : s.toc.containsNewObjectList = true
    · rw [if_pos c] at h1 ⊢
      exact alike_objects _ hia.deactivate hib.deactivate ⟨rfl, h.format, h.next⟩ h1
    · rw [if_neg c] at h1 ⊢
      exact alike_objects _ hia hib h h1
  revert hb key hob
  cases afterObjects b s with
  | mk r b1 =>
    intro hb hob key
    cases r with
    | error e => cases hb
    | ok u =>
      obtain ⟨a1, ha1, hal⟩ := key b1 rfl
      rw [ha1] at hoa ⊢
      dsimp only at hb hoa hob ⊢
      cases hr : b1.addRawData s with
      | mk r b2 =>
        rw [hr] at hb
        cases r with
        | error e => cases hb
        | ok u =>
          obtain ⟨a2, ha2, hal2⟩ := alike_rawData s hoa hob hal hr
          rw [ha2]
          dsimp only at hb ⊢
          rw [advance_eq] at hb ⊢
          split at hb
          · rename_i hlt
            have hn := hal2.next
            rw [if_pos (by omega)]
            obtain ⟨_, hb2⟩ := Prod.mk.inj hb
            refine ⟨_, _, rfl, ?_⟩
            rw [← hb2]
            exact ⟨hal2.active, hal2.format, by dsimp only; omega⟩
          · cases hb

/-! ## Calls -/

/-- The index with the properties added. -/
def withProps (ix : Index) (path : Text) (ps : List (Text × PropertyValue)) : Index :=
  { ix with objects := ix.objects.insert path (updatedObject (ix.objects.get? path) ⟨path, ps, .none⟩) }

theorem property_addSegment (ix : Index) (e : Endian) (path : PropertyPath) (ps : List (Text × PropertyValue)) :
    ix.addSegment (propertySegment e path ps).1 = (withProps ix path.path ps).advance (propertySegment e path ps).1 := by
  have h : afterObjects ix (propertySegment e path ps).1 = (.ok (), withProps ix path.path ps) := by
    show (match ix.updateMetaObject ⟨path.path, ps, .none⟩ with
      | (.error e, ix) => ((.error e, ix) : R Unit × Index)
      | (.ok (), ix) => ix.addObjects []) = _
    rcases updateMetaObject_cases ix ⟨path.path, ps, .none⟩ with ⟨h1, _⟩ | ⟨o, _, _, hmp, _⟩ | ⟨_, hmp, _⟩
    · rw [h1]; rfl
    · cases hmp
    · cases hmp
  rw [addSegment_eq, h]
  rfl

/-- A call that writes properties, with any handle. -/
theorem props_follow {al : Alloc} {a b : Index} {bytes : Bytes} {e : Endian} {path : PropertyPath} {ps : List (Text × PropertyValue)}
    (hle : a.nextSegmentStart ≤ b.nextSegmentStart) (hok : ((Op.props e path ps).run al ⟨b, bytes⟩).1 = .ok ()) :
    ((Op.props e path ps).run al ⟨a, bytes⟩).1 = .ok () ∧
    ((Op.props e path ps).run al ⟨a, bytes⟩).2.bytes = ((Op.props e path ps).run al ⟨b, bytes⟩).2.bytes ∧
    ((Op.props e path ps).run al ⟨a, bytes⟩).2.index.nextSegmentStart ≤
      ((Op.props e path ps).run al ⟨b, bytes⟩).2.index.nextSegmentStart ∧
    Alike b ((Op.props e path ps).run al ⟨b, bytes⟩).2.index := by
  change ((b.addSegment (propertySegment e path ps).1).1.map fun _ => ()) = .ok () at hok
  show ((a.addSegment (propertySegment e path ps).1).1.map fun _ => ()) = .ok () ∧
    bytes ++ (propertySegment e path ps).2 = bytes ++ (propertySegment e path ps).2 ∧
    (a.addSegment (propertySegment e path ps).1).2.nextSegmentStart ≤ (b.addSegment (propertySegment e path ps).1).2.nextSegmentStart ∧
    Alike b (b.addSegment (propertySegment e path ps).1).2
  rw [property_addSegment] at hok ⊢
  rw [property_addSegment]
  rw [advance_eq] at hok ⊢
  rw [advance_eq]
  unfold withProps at hok ⊢
  dsimp only at hok ⊢
  split at hok
  · rename_i hlt
    rw [if_pos hlt, if_pos (by omega)]
    refine ⟨rfl, rfl, by dsimp only; omega, rfl, fun p => ?_, by dsimp only; omega⟩
    have := formatIn_updated b.objects ⟨path.path, ps, .none⟩ p
    dsimp only at this ⊢
    rw [this]
    split <;> rfl
  · cases hok

/-- The segment that a call writes depends only on what the handle writes from. -/
theorem alike_write {al : Alloc} {a b : Index} {bytes : Bytes} (hia : Inv a) (hib : Inv b) (h : Alike a b) (op : Op)
    (hok : (op.run al ⟨b, bytes⟩).1 = .ok ()) :
    (op.run al ⟨a, bytes⟩).1 = .ok () ∧ (op.run al ⟨a, bytes⟩).2.bytes = (op.run al ⟨b, bytes⟩).2.bytes ∧
    Alike (op.run al ⟨a, bytes⟩).2.index (op.run al ⟨b, bytes⟩).2.index := by
  have key : ∀ (s : Segment), ((b.addSegment s).1.map fun _ => ()) = .ok () →
      ((a.addSegment s).1.map fun _ => ()) = .ok () ∧ Alike (a.addSegment s).2 (b.addSegment s).2 := by
    intro s hs
    obtain ⟨n, hn⟩ := addSegment_map_ok hs
    obtain ⟨m, a', h1, h2⟩ := alike_segment (b' := (b.addSegment s).2) hia hib h (Prod.ext hn rfl)
    rw [h1]
    exact ⟨rfl, h2⟩
  cases op with
  | props e path ps =>
    obtain ⟨h1, h2⟩ := key (propertySegment e path ps).1 hok
    exact ⟨h1, rfl, h2⟩
  | write e ty chs vals layout =>
    change (TdmsFile.writeChannels (ty.storage al) e ⟨b, bytes⟩ chs vals layout).1 = _ at hok
    show (TdmsFile.writeChannels (ty.storage al) e ⟨a, bytes⟩ chs vals layout).1 = _ ∧
      (TdmsFile.writeChannels (ty.storage al) e ⟨a, bytes⟩ chs vals layout).2.bytes =
        (TdmsFile.writeChannels (ty.storage al) e ⟨b, bytes⟩ chs vals layout).2.bytes ∧
      Alike (TdmsFile.writeChannels (ty.storage al) e ⟨a, bytes⟩ chs vals layout).2.index
        (TdmsFile.writeChannels (ty.storage al) e ⟨b, bytes⟩ chs vals layout).2.index
    have hcheck : ∀ objs, a.checkWriteValues objs = b.checkWriteValues objs := by
      intro objs
      unfold Index.checkWriteValues
      rw [h.active]
      congr 1
      refine List.map_congr_left fun x _ => ?_
      obtain ⟨p, f⟩ := x
      unfold Index.rawIndexFor
      have := h.format p
      dsimp only
      unfold formatIn at this
      rw [this]
    unfold TdmsFile.writeChannels at hok ⊢
    dsimp only at hok ⊢
    by_cases c1 : chs.length = 0
    · rw [if_pos c1] at hok; cases hok
    · by_cases c2 : vals.length % chs.length ≠ 0
      · rw [if_neg c1, if_pos c2] at hok; cases hok
      · rw [if_neg c1, if_neg c2] at hok ⊢
        rw [if_neg c1, if_neg c2, hcheck]
        dsimp only at hok ⊢
        obtain ⟨h1, h2⟩ := key _ hok
        exact ⟨h1, rfl, h2⟩

/-! ## The handles -/

theorem runOps_reach (al : Alloc) : ∀ (ops : List Op) {t : TdmsFile}, Reach t.index → Reach (runOps al t ops).index
  | [], _, h => h
  | op :: ops, _, h => runOps_reach al ops (Op.run_reach h op)

/-- What holds after the calls `ops`. -/
structure Shares (al : Alloc) (ops : List Op) (seen : Nat → Option Nat) (fresh : Nat → Prop) (s : Shared) : Prop where
  sound : Sound al ops
  bytes : s.bytes = (runOps al ⟨Index.new, []⟩ ops).bytes
  reach : ∀ h, Reach (s.handles h)
  below : ∀ h, (s.handles h).nextSegmentStart ≤ (runOps al ⟨Index.new, []⟩ ops).index.nextSegmentStart
  sees : ∀ h n, seen h = some n → n ≤ ops.length ∧ s.handles h = (runOps al ⟨Index.new, []⟩ (ops.take n)).index
  alike : ∀ h, fresh h → Alike (s.handles h) (runOps al ⟨Index.new, []⟩ ops).index

theorem change_same {α : Type} (f : Nat → α) (h : Nat) (x : α) : change f h x h = x := if_pos rfl

theorem change_other {α : Type} (f : Nat → α) {g h : Nat} (x : α) (hg : g ≠ h) : change f h x g = f g := if_neg hg

section
variable {al : Alloc} {ops : List Op} {seen : Nat → Option Nat} {fresh : Nat → Prop} {s : Shared}

theorem Shares.call (hS : Shares al ops seen fresh s) (h : Nat) {op : Op} (hs : Sound al (ops ++ [op]))
    (hf : WritesData op → fresh h) :
    ((Deed.call h op).run al s).1 = .ok .done ∧
    Shares al (ops ++ [op]) (change seen h (seenAfter ops (seen h))) (fun g => fresh g ∧ (WritesData op → g = h))
      ((Deed.call h op).run al s).2 := by
  obtain ⟨hd, bytes⟩ := s
  obtain rfl : bytes = _ := hS.bytes
  have hrun : runOps al ⟨Index.new, []⟩ (ops ++ [op]) = (op.run al (runOps al ⟨Index.new, []⟩ ops)).2 := by
    rw [runOps_append]; rfl
  have hok : (op.run al (runOps al ⟨Index.new, []⟩ ops)).1 = .ok () := (holds_history al _ hs.compatible hs.size).1 ops op [] rfl
  have hib : Reach (runOps al ⟨Index.new, []⟩ ops).index := runOps_reach al ops .new
  have hia := hS.reach h
  -- what the call does with this handle
  have key : (op.run al ⟨hd h, (runOps al ⟨Index.new, []⟩ ops).bytes⟩).1 = .ok () ∧
      (op.run al ⟨hd h, (runOps al ⟨Index.new, []⟩ ops).bytes⟩).2.bytes = (runOps al ⟨Index.new, []⟩ (ops ++ [op])).bytes ∧
      (op.run al ⟨hd h, (runOps al ⟨Index.new, []⟩ ops).bytes⟩).2.index.nextSegmentStart ≤
        (runOps al ⟨Index.new, []⟩ (ops ++ [op])).index.nextSegmentStart ∧
      (runOps al ⟨Index.new, []⟩ ops).index.nextSegmentStart ≤ (runOps al ⟨Index.new, []⟩ (ops ++ [op])).index.nextSegmentStart ∧
      (fresh h → Alike (op.run al ⟨hd h, (runOps al ⟨Index.new, []⟩ ops).bytes⟩).2.index
        (runOps al ⟨Index.new, []⟩ (ops ++ [op])).index) ∧
      (¬ WritesData op → Alike (runOps al ⟨Index.new, []⟩ ops).index (runOps al ⟨Index.new, []⟩ (ops ++ [op])).index) := by
    rw [hrun]
    have hnext : (runOps al ⟨Index.new, []⟩ ops).index.nextSegmentStart ≤
        (op.run al (runOps al ⟨Index.new, []⟩ ops)).2.index.nextSegmentStart := by
      obtain ⟨_, segs, H⟩ := holds_history al _ hs.compatible hs.size
      obtain ⟨_, segs', H'⟩ := holds_history al _ hS.sound.compatible hS.sound.size
      have n1 := (replay_refines H.exact'.refines).next.trans H.exact'.ends
      have n2 := (replay_refines H'.exact'.refines).next.trans H'.exact'.ends
      rw [hrun] at n1
      rw [n1, n2]
      exact (Op.run_bytes al _ op).length_le
    have hal : fresh h → _ := fun hfr => alike_write (al := al) (bytes := (runOps al ⟨Index.new, []⟩ ops).bytes) hia.inv hib.inv
      (hS.alike h hfr) op hok
    cases op with
    | write e ty chs vals layout =>
      obtain ⟨h1, h2, h3⟩ := hal (hf trivial)
      exact ⟨h1, h2, h3.next, hnext, fun _ => h3, fun hn => absurd trivial hn⟩
    | props e path ps =>
      obtain ⟨h1, h2, h3, h4⟩ := props_follow (al := al) (bytes := (runOps al ⟨Index.new, []⟩ ops).bytes) (hS.below h) hok
      exact ⟨h1, h2, h3, hnext, fun hfr => (hal hfr).2.2, fun _ => h4⟩
  obtain ⟨k1, k2, k3, k4, k5, k6⟩ := key
  show (op.run al ⟨hd h, (runOps al ⟨Index.new, []⟩ ops).bytes⟩).1.map (fun _ => Reply.done) = _ ∧
    Shares al _ _ _ ⟨change hd h (op.run al ⟨hd h, (runOps al ⟨Index.new, []⟩ ops).bytes⟩).2.index,
      (op.run al ⟨hd h, (runOps al ⟨Index.new, []⟩ ops).bytes⟩).2.bytes⟩
  rw [k1]
  refine ⟨rfl, hs, k2, fun g => ?_, fun g => ?_, fun g n hg => ?_, fun g hg => ?_⟩
  · dsimp only
    by_cases hgh : g = h
    · subst hgh; rw [change_same]; exact Op.run_reach hia op
    · rw [change_other _ _ hgh]; exact hS.reach g
  · dsimp only
    by_cases hgh : g = h
    · subst hgh; rw [change_same]; exact k3
    · rw [change_other _ _ hgh]; exact Nat.le_trans (hS.below g) k4
  · dsimp only
    by_cases hgh : g = h
    · subst hgh
      rw [change_same] at hg ⊢
      unfold seenAfter at hg
      split at hg
      · rename_i hall
        obtain rfl := Option.some.inj hg
        have := (hS.sees g _ hall).2
        rw [List.take_length] at this
        dsimp only at this
        refine ⟨by rw [List.length_append]; exact Nat.le_refl _, ?_⟩
        rw [this, List.take_of_length_le (by rw [List.length_append]; exact Nat.le_refl _), hrun]
      · cases hg
    · rw [change_other _ _ hgh] at hg ⊢
      obtain ⟨h1, h2⟩ := hS.sees g n hg
      exact ⟨by rw [List.length_append]; omega, by rw [List.take_append_of_le_length h1]; exact h2⟩
  · dsimp only
    by_cases hgh : g = h
    · subst hgh; rw [change_same]; exact k5 hg.1
    · rw [change_other _ _ hgh]
      have hA := hS.alike g hg.1
      have hB := k6 (fun hw => hgh (hg.2 hw))
      exact ⟨hA.active.trans hB.active, fun p => (hA.format p).trans (hB.format p), Nat.le_trans hA.next hB.next⟩

theorem Shares.reopen (hal : Generous al) (hS : Shares al ops seen fresh s) (h : Nat) :
    ((Deed.reopen h).run al s).1 = .ok .done ∧
    Shares al ops (change seen h (some ops.length)) (fun g => fresh g ∨ g = h) ((Deed.reopen h).run al s).2 := by
  obtain ⟨hd, bytes⟩ := s
  obtain rfl : bytes = _ := hS.bytes
  have hnew : TdmsFile.new al (runOps al ⟨Index.new, []⟩ ops).bytes = .ok (runOps al ⟨Index.new, []⟩ ops) := by
    have := cut_opens hal hS.sound (k := ops.length) List.prefix_rfl (Nat.le_refl _)
      (fun j hj => ⟨fun _ => hj, fun _ => by
        conv => rhs; rw [← List.take_append_drop j ops, runOps_append]
        exact runOps_bytes al _ _⟩)
      (by unfold bytesAfter; rw [List.take_length]; omega)
    rwa [List.take_length] at this
  have hrun : (Deed.reopen h).run al ⟨hd, (runOps al ⟨Index.new, []⟩ ops).bytes⟩ =
      (.ok .done, ⟨change hd h (runOps al ⟨Index.new, []⟩ ops).index, (runOps al ⟨Index.new, []⟩ ops).bytes⟩) := by
    unfold Deed.run
    dsimp only
    rw [hnew]
  rw [hrun]
  refine ⟨rfl, hS.sound, rfl, fun g => ?_, fun g => ?_, fun g n hg => ?_, fun g hg => ?_⟩
  all_goals dsimp only
  all_goals by_cases hgh : g = h
  · subst hgh; rw [change_same]; exact runOps_reach al ops .new
  · rw [change_other _ _ hgh]; exact hS.reach g
  · subst hgh; rw [change_same]; exact Nat.le_refl _
  · rw [change_other _ _ hgh]; exact hS.below g
  · subst hgh
    rw [change_same] at hg ⊢
    obtain rfl := Option.some.inj hg
    exact ⟨Nat.le_refl _, by rw [List.take_length]⟩
  · rw [change_other _ _ hgh] at hg ⊢; exact hS.sees g n hg
  · subst hgh; rw [change_same]; exact Alike.refl _
  · rw [change_other _ _ hgh]; exact hS.alike g (hg.resolve_right hgh)

theorem agrees_from (hal : Generous al) : ∀ (deeds : List Deed) (ops : List Op) (seen : Nat → Option Nat) (fresh : Nat → Prop)
    (s : Shared), Shares al ops seen fresh s → Orderly al ops fresh deeds → Agrees al ops seen (deedReplies al s deeds)
  | [], _, _, _, _, _, _ => trivial
  | .call h op :: deeds, ops, seen, fresh, s, hS, ho => by
    cases hacc : Accepted op with
    | true =>
      obtain ⟨hs, hf, hrest⟩ := ho.1 hacc
      obtain ⟨h1, h2⟩ := hS.call h hs hf
      refine ⟨?_, fun _ => agrees_from hal deeds _ _ _ _ h2 hrest, fun hn => by rw [hacc] at hn; cases hn⟩
      rw [h1]
      cases op with
      | props => rfl
      | write e ty chs vals layout =>
        unfold Accepted at hacc
        rw [Bool.and_eq_true, Bool.not_eq_true', List.isEmpty_eq_false_iff, beq_iff_eq] at hacc
        unfold Store.call
        dsimp only
        rw [if_neg (fun hh => hacc.1 (List.length_eq_zero_iff.mp hh)), if_neg (fun hh => hh hacc.2)]
    | false =>
      obtain ⟨h1, _, h3⟩ := refused_call (al := al) (storeOf ops) ⟨s.handles h, s.bytes⟩ hacc
      refine ⟨h1, fun (hn : Accepted op = true) => (by rw [hacc] at hn; cases hn), fun _ => ?_⟩
      have hsame : ((Deed.call h op).run al s).2 = s := by
        show Shared.mk (change s.handles h (op.run al ⟨s.handles h, s.bytes⟩).2.index) (op.run al ⟨s.handles h, s.bytes⟩).2.bytes = s
        rw [h3]
        dsimp only
        have : change s.handles h (s.handles h) = s.handles := by
          funext g
          unfold change
          split
          · rename_i hg; rw [hg]
          · rfl
        rw [this]
      show Agrees al ops seen (deedReplies al ((Deed.call h op).run al s).2 deeds)
      rw [hsame]
      exact agrees_from hal deeds _ _ _ _ hS (ho.2 hacc)
  | .ask h q :: deeds, ops, seen, fresh, s, hS, ho => by
    refine ⟨fun n hn => ?_, agrees_from hal deeds _ _ _ _ hS ho.2⟩
    obtain ⟨h1, h2⟩ := hS.sees h n hn
    refine (hS.sound.take n).answers (t := ⟨s.handles h, s.bytes⟩) h2 ?_ ?_ q (ho.1.take n)
    · show _ <+: s.bytes
      rw [hS.bytes]
      conv => rhs; rw [← List.take_append_drop n ops, runOps_append]
      exact runOps_bytes al _ _
    · show s.bytes.length < _
      rw [hS.bytes]
      exact hS.sound.size
  | .reopen h :: deeds, ops, seen, fresh, s, hS, ho => by
    obtain ⟨h1, h2⟩ := hS.reopen hal h
    exact ⟨h1, agrees_from hal deeds _ _ _ _ h2 ho⟩

end
end Library
end Tedium
