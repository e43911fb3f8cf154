import Verif.Proofs.Open

/-! # Helper lemmas: sessions -/

namespace Tedium
open SegSpec

/-- A write either changes nothing or adds one segment. -/
theorem writeChannels_index {α : Type} (S : Storage α) (e : Endian) (t : TdmsFile)
    (channels : List ChannelPath) (vals : List α) (layout : DataLayout) :
    (t.writeChannels S e channels vals layout).2 = t ∨
    ∃ s, (t.writeChannels S e channels vals layout).2.index = (t.index.addSegment s).2 := by
  unfold TdmsFile.writeChannels
  split
  · exact Or.inl rfl
  · split
    · exact Or.inl rfl
    · exact Or.inr ⟨_, rfl⟩

theorem writeProperties_index (e : Endian) (t : TdmsFile) (path : PropertyPath)
    (properties : List (Text × PropertyValue)) :
    ∃ s, (t.writeProperties e path properties).2.index = (t.index.addSegment s).2 := by
  unfold TdmsFile.writeProperties
  exact ⟨_, rfl⟩

theorem Op.run_index (al : Alloc) (t : TdmsFile) (op : Op) :
    (op.run al t).2 = t ∨ ∃ s, (op.run al t).2.index = (t.index.addSegment s).2 := by
  cases op with
  | write e ty channels vals layout => exact writeChannels_index ..
  | props e path properties => exact Or.inr (writeProperties_index ..)

theorem Reach.replay {segs : List Segment} {ix ix' : Index} (h : Reach ix)
    (hr : replay ix segs = .ok ix') : Reach ix' := by
  induction segs generalizing ix with
  | nil => cases hr; exact h
  | cons s ss ih =>
    unfold SegSpec.replay at hr
    split at hr
    · cases hr
    · rename_i n ix2 heq
      have := Reach.add s h
      rw [heq] at this
      exact ih this hr

theorem Session.reach {al : Alloc} {t : TdmsFile} (h : Session al t) : Reach t.index := by
  induction h with
  | opened ho =>
    obtain ⟨_, segs, _, hr⟩ := Tedium.opened ho
    exact Reach.new.replay hr
  | call op _ ih =>
    rcases Op.run_index al _ op with h | ⟨s, h⟩
    · rw [h]; exact ih
    · rw [h]; exact .add s ih

theorem Session.runOps {al : Alloc} {t : TdmsFile} (h : Session al t) (ops : List Op) :
    Session al (Tedium.runOps al t ops) := by
  induction ops generalizing t with
  | nil => exact h
  | cons op ops ih => exact ih (.call op h)

theorem Session.created {al : Alloc} {t : TdmsFile} (h : TdmsFile.create al = .ok t) : Session al t :=
  .opened h

end Tedium
