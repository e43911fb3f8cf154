import Verif.Spec.SeveralOn
import Verif.Proofs.Several
import Verif.Proofs.WatcherOn

/-! # Helper lemmas: several handles on one file which had content before -/

namespace Tedium
open SegSpec WriteSpec PlanSpec

namespace Library

theorem Existing.reach {al : Alloc} {fs : List FileSegment} {t : TdmsFile} {ty : Text → STy} {last : Last} (he : Existing al fs t ty last) :
    Reach t.index := Session.reach (.opened he.opened)

/-- What holds after the calls `ops`. -/
structure SharesOn (al : Alloc) (t0 : TdmsFile) (s0 : Store) (last : Last) (ops : List Op) (seen : Nat → Option Nat) (fresh : Nat → Prop) (s : Shared) : Prop where
  sound : SoundOn al t0 s0 last ops
  bytes : s.bytes = (runOps al t0 ops).bytes
  reach : ∀ h, Reach (s.handles h)
  below : ∀ h, (s.handles h).nextSegmentStart ≤ (runOps al t0 ops).index.nextSegmentStart
  sees : ∀ h n, seen h = some n → n ≤ ops.length ∧ s.handles h = (runOps al t0 (ops.take n)).index
  alike : ∀ h, fresh h → Alike (s.handles h) (runOps al t0 ops).index

section
variable {al : Alloc} {fs : List FileSegment} {t0 : TdmsFile} {ty : Text → STy} {last : Last} {ops : List Op} {seen : Nat → Option Nat} {fresh : Nat → Prop} {s : Shared}

local notation "S0" => storeIn ty (TdmsFile.bytes t0) (List.map FileSegment.segment fs)

theorem SharesOn.call (hS : SharesOn al t0 S0 last ops seen fresh s) (he : Existing al fs t0 ty last) (h : Nat) {op : Op} (hs : SoundOn al t0 S0 last (ops ++ [op]))
    (hf : WritesData op → fresh h) :
    ((Deed.call h op).run al s).1 = .ok .done ∧
    SharesOn al t0 S0 last (ops ++ [op]) (change seen h (seenAfter ops (seen h))) (fun g => fresh g ∧ (WritesData op → g = h))
      ((Deed.call h op).run al s).2 := by
  obtain ⟨hd, bytes⟩ := s
  obtain rfl : bytes = _ := hS.bytes
  have hrun : runOps al t0 (ops ++ [op]) = (op.run al (runOps al t0 ops)).2 := by
    rw [runOps_append]; rfl
  have hok : (op.run al (runOps al t0 ops)).1 = .ok () := (hs.models he).1 ops op [] rfl
  have hib : Reach (runOps al t0 ops).index := runOps_reach al ops he.reach
  have hia := hS.reach h
  -- what the call does with this handle
  have key : (op.run al ⟨hd h, (runOps al t0 ops).bytes⟩).1 = .ok () ∧
      (op.run al ⟨hd h, (runOps al t0 ops).bytes⟩).2.bytes = (runOps al t0 (ops ++ [op])).bytes ∧
      (op.run al ⟨hd h, (runOps al t0 ops).bytes⟩).2.index.nextSegmentStart ≤
        (runOps al t0 (ops ++ [op])).index.nextSegmentStart ∧
      (runOps al t0 ops).index.nextSegmentStart ≤ (runOps al t0 (ops ++ [op])).index.nextSegmentStart ∧
      (fresh h → Alike (op.run al ⟨hd h, (runOps al t0 ops).bytes⟩).2.index
        (runOps al t0 (ops ++ [op])).index) ∧
      (¬ WritesData op → Alike (runOps al t0 ops).index (runOps al t0 (ops ++ [op])).index) := by
    rw [hrun]
    have hnext : (runOps al t0 ops).index.nextSegmentStart ≤
        (op.run al (runOps al t0 ops)).2.index.nextSegmentStart := by
      obtain ⟨_, segs, H, _⟩ := hs.models he
      obtain ⟨_, segs', H', _⟩ := hS.sound.models he
      have n1 := (replay_refines H.exact'.refines).next.trans H.exact'.ends
      have n2 := (replay_refines H'.exact'.refines).next.trans H'.exact'.ends
      rw [hrun] at n1
      rw [n1, n2]
      exact (Op.run_bytes al _ op).length_le
    have hal : fresh h → _ := fun hfr => alike_write (al := al) (bytes := (runOps al t0 ops).bytes) hia.inv hib.inv
      (hS.alike h hfr) op hok
    cases op with
    | write e ty chs vals layout =>
      obtain ⟨h1, h2, h3⟩ := hal (hf trivial)
      exact ⟨h1, h2, h3.next, hnext, fun _ => h3, fun hn => absurd trivial hn⟩
    | props e path ps =>
      obtain ⟨h1, h2, h3, h4⟩ := props_follow (al := al) (bytes := (runOps al t0 ops).bytes) (hS.below h) hok
      exact ⟨h1, h2, h3, hnext, fun hfr => (hal hfr).2.2, fun _ => h4⟩
  obtain ⟨k1, k2, k3, k4, k5, k6⟩ := key
  show (op.run al ⟨hd h, (runOps al t0 ops).bytes⟩).1.map (fun _ => Reply.done) = _ ∧
    SharesOn al t0 S0 last _ _ _ ⟨change hd h (op.run al ⟨hd h, (runOps al t0 ops).bytes⟩).2.index,
      (op.run al ⟨hd h, (runOps al t0 ops).bytes⟩).2.bytes⟩
  rw [k1]
  refine ⟨rfl, hs, k2, fun g => ?_, fun g => ?_, fun g n hg => ?_, fun g hg => ?_⟩
  · dsimp only
    by_cases hgh : g = h
    · subst hgh; rw [change_same]; exact Op.run_reach hia op
    · rw [change_other _ _ hgh]; exact hS.reach g
  · dsimp only
    by_cases hgh : g = h
    · subst hgh; rw [change_same]; exact k3
    · rw [change_other _ _ hgh]; exact Nat.le_trans (hS.below g) k4
  · dsimp only
    by_cases hgh : g = h
    · subst hgh
      rw [change_same] at hg ⊢
      unfold seenAfter at hg
      split at hg
      · rename_i hall
        obtain rfl := Option.some.inj hg
        have := (hS.sees g _ hall).2
        rw [List.take_length] at this
        dsimp only at this
        refine ⟨by rw [List.length_append]; exact Nat.le_refl _, ?_⟩
        rw [this, List.take_of_length_le (by rw [List.length_append]; exact Nat.le_refl _), hrun]
      · cases hg
    · rw [change_other _ _ hgh] at hg ⊢
      obtain ⟨h1, h2⟩ := hS.sees g n hg
      exact ⟨by rw [List.length_append]; omega, by rw [List.take_append_of_le_length h1]; exact h2⟩
  · dsimp only
    by_cases hgh : g = h
    · subst hgh; rw [change_same]; exact k5 hg.1
    · rw [change_other _ _ hgh]
      have hA := hS.alike g hg.1
      have hB := k6 (fun hw => hgh (hg.2 hw))
      exact ⟨hA.active.trans hB.active, fun p => (hA.format p).trans (hB.format p), Nat.le_trans hA.next hB.next⟩

theorem SharesOn.reopen (hS : SharesOn al t0 S0 last ops seen fresh s) (he : Existing al fs t0 ty last) (h : Nat) :
    ((Deed.reopen h).run al s).1 = .ok .done ∧
    SharesOn al t0 S0 last ops (change seen h (some ops.length)) (fun g => fresh g ∨ g = h) ((Deed.reopen h).run al s).2 := by
  obtain ⟨hd, bytes⟩ := s
  obtain rfl : bytes = _ := hS.bytes
  have hnew : TdmsFile.new al (runOps al t0 ops).bytes = .ok (runOps al t0 ops) := by
    have := he.cut_opens hS.sound (k := ops.length) List.prefix_rfl (Nat.le_refl _)
      (fun j hj => ⟨fun _ => hj, fun _ => by
        conv => rhs; rw [← List.take_append_drop j ops, runOps_append]
        exact runOps_bytes al _ _⟩)
      (by unfold bytesAt; rw [List.take_length]; omega)
    rwa [List.take_length] at this
  have hrun : (Deed.reopen h).run al ⟨hd, (runOps al t0 ops).bytes⟩ =
      (.ok .done, ⟨change hd h (runOps al t0 ops).index, (runOps al t0 ops).bytes⟩) := by
    unfold Deed.run
    dsimp only
    rw [hnew]
  rw [hrun]
  refine ⟨rfl, hS.sound, rfl, fun g => ?_, fun g => ?_, fun g n hg => ?_, fun g hg => ?_⟩
  all_goals dsimp only
  all_goals by_cases hgh : g = h
  · subst hgh; rw [change_same]; exact runOps_reach al ops he.reach
  · rw [change_other _ _ hgh]; exact hS.reach g
  · subst hgh; rw [change_same]; exact Nat.le_refl _
  · rw [change_other _ _ hgh]; exact hS.below g
  · subst hgh
    rw [change_same] at hg ⊢
    obtain rfl := Option.some.inj hg
    exact ⟨Nat.le_refl _, by rw [List.take_length]⟩
  · rw [change_other _ _ hgh] at hg ⊢; exact hS.sees g n hg
  · subst hgh; rw [change_same]; exact Alike.refl _
  · rw [change_other _ _ hgh]; exact hS.alike g (hg.resolve_right hgh)

theorem agrees_from_on (he : Existing al fs t0 ty last) : ∀ (deeds : List Deed) (ops : List Op) (seen : Nat → Option Nat) (fresh : Nat → Prop)
    (s : Shared), SharesOn al t0 S0 last ops seen fresh s → OrderlyOn al (fs.map FileSegment.segment) t0 S0 last ops fresh deeds → AgreesOn al S0 ops seen (deedReplies al s deeds)
  | [], _, _, _, _, _, _ => trivial
  | .call h op :: deeds, ops, seen, fresh, s, hS, ho => by
    cases hacc : Accepted op with
    | true =>
      obtain ⟨hs, hf, hrest⟩ := ho.1 hacc
      obtain ⟨h1, h2⟩ := hS.call he h hs hf
      refine ⟨?_, fun _ => agrees_from_on he deeds _ _ _ _ h2 hrest, fun hn => by rw [hacc] at hn; cases hn⟩
      rw [h1]
      cases op with
      | props => rfl
      | write e ty chs vals layout =>
        unfold Accepted at hacc
        rw [Bool.and_eq_true, Bool.not_eq_true', List.isEmpty_eq_false_iff, beq_iff_eq] at hacc
        unfold Store.call
        dsimp only
        rw [if_neg (fun hh => hacc.1 (List.length_eq_zero_iff.mp hh)), if_neg (fun hh => hh hacc.2)]
    | false =>
      obtain ⟨h1, _, h3⟩ := refused_call (al := al) (storeFrom S0 ops) ⟨s.handles h, s.bytes⟩ hacc
      refine ⟨h1, fun (hn : Accepted op = true) => (by rw [hacc] at hn; cases hn), fun _ => ?_⟩
      have hsame : ((Deed.call h op).run al s).2 = s := by
        show Shared.mk (change s.handles h (op.run al ⟨s.handles h, s.bytes⟩).2.index) (op.run al ⟨s.handles h, s.bytes⟩).2.bytes = s
        rw [h3]
        dsimp only
        have : change s.handles h (s.handles h) = s.handles := by
          funext g
          unfold change
          split
          · rename_i hg; rw [hg]
          · rfl
        rw [this]
      show AgreesOn al S0 ops seen (deedReplies al ((Deed.call h op).run al s).2 deeds)
      rw [hsame]
      exact agrees_from_on he deeds _ _ _ _ hS (ho.2 hacc)
  | .ask h q :: deeds, ops, seen, fresh, s, hS, ho => by
    refine ⟨fun n hn => ?_, agrees_from_on he deeds _ _ _ _ hS ho.2⟩
    obtain ⟨h1, h2⟩ := hS.sees h n hn
    refine (SoundOn.left (b := ops.drop n) (by rw [List.take_append_drop]; exact hS.sound)).answers (t := ⟨s.handles h, s.bytes⟩) he h2 ?_ ?_ q (ho.1.first n)
    · show _ <+: s.bytes
      rw [hS.bytes]
      conv => rhs; rw [← List.take_append_drop n ops, runOps_append]
      exact runOps_bytes al _ _
    · show s.bytes.length < _
      rw [hS.bytes]
      exact hS.sound.size
  | .reopen h :: deeds, ops, seen, fresh, s, hS, ho => by
    obtain ⟨h1, h2⟩ := hS.reopen he h
    exact ⟨h1, agrees_from_on he deeds _ _ _ _ h2 ho⟩

end
end Library
end Tedium
