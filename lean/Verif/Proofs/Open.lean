import Verif.Proofs.Reader
import Verif.Proofs.Evolve
import Verif.Spec.Open

/-! # Opening a file -/

namespace Tedium
open SegSpec

theorem addSegment_next {ix ix' : Index} {s : Segment} {n : Nat} (h : ix.addSegment s = (.ok n, ix')) :
    n = ix.nextSegmentStart + (28 + s.nextSegmentOffset) ∧ ix'.nextSegmentStart = n ∧ n < u64Lim := by
  rw [addSegment_eq] at h
  have hf := afterObjects_frame ix s
  revert h hf
  cases afterObjects ix s with
  | mk r ix1 =>
    intro h hf
    cases r with
    | error e => cases h
    | ok u =>
      dsimp only at h
      have hn := addRawData_next ix1 s
      revert h hn
      cases ix1.addRawData s with
      | mk r2 ix2 =>
        intro h hn
        cases r2 with
        | error e => cases h
        | ok u2 =>
          dsimp only at h hn hf
          rw [advance_eq] at h
          split at h
          · rename_i hc
            have h1 : n = ix2.nextSegmentStart + (s.nextSegmentOffset + leadInBytes) := by cases h; rfl
            have h2 : ix' = { ix2 with nextSegmentStart := ix2.nextSegmentStart + (s.nextSegmentOffset + leadInBytes) } := by
              cases h; rfl
            refine ⟨?_, ?_, ?_⟩
            · rw [h1, hn, hf.1]; unfold leadInBytes; omega
            · rw [h2, h1]
            · rw [h1]; exact hc
          · cases h

/-- The number of segments is bounded by the size of the file. -/
theorem SegSpec.Parses.length {al : Alloc} {f : Bytes} {pos : Nat} {segs : List Segment} {last : Fail}
    (h : Parses al f pos segs last) : segs = [] ∨ pos + 28 * segs.length + 4 ≤ f.length := by
  induction h with
  | done _ => exact Or.inl rfl
  | segment hr _ ih =>
    right
    have := Segment.read_length hr
    rcases ih with ih | ih
    · rw [ih]; simp only [List.length_cons, List.length_nil]; omega
    · simp only [List.length_cons]; omega

theorem SegSpec.Parses.unique {al : Alloc} {f : Bytes} {pos : Nat} {segs segs' : List Segment} {last last' : Fail}
    (h : Parses al f pos segs last) (h' : Parses al f pos segs' last') : segs = segs' ∧ last = last' := by
  induction h generalizing segs' with
  | done hr =>
    cases h' with
    | done hr' => rw [hr] at hr'; cases hr'; exact ⟨rfl, rfl⟩
    | segment hr' _ => rw [hr] at hr'; cases hr'
  | segment hr _ ih =>
    cases h' with
    | done hr' => rw [hr] at hr'; cases hr'
    | segment hr' h2 =>
      rw [hr] at hr'; cases hr'
      obtain ⟨h3, h4⟩ := ih h2
      exact ⟨by rw [h3], h4⟩

theorem SegSpec.Parses.exists_aux (al : Alloc) (f : Bytes) : ∀ (k pos : Nat), f.length - pos ≤ k →
    ∃ segs last, Parses al f pos segs last := by
  intro k
  induction k with
  | zero =>
    intro pos hk
    rcases Segment.read_cases al f pos with ⟨_, h⟩ | ⟨h, _⟩ | ⟨h, _⟩
    · exact ⟨[], _, .done h⟩
    · omega
    · omega
  | succ k ih =>
    intro pos hk
    cases hr : Segment.read al f pos with
    | error e => exact ⟨[], e, .done hr⟩
    | ok sq =>
      obtain ⟨s, q⟩ := sq
      have := Segment.read_length hr
      obtain ⟨segs, last, hp⟩ := ih (pos + (28 + s.nextSegmentOffset)) (by omega)
      exact ⟨s :: segs, last, .segment hr hp⟩

/-- Every byte string has segments, and the way they end. -/
theorem SegSpec.Parses.exists (al : Alloc) (f : Bytes) (pos : Nat) : ∃ segs last, Parses al f pos segs last :=
  Parses.exists_aux al f _ pos (Nat.le_refl _)

theorem SegSpec.Parses.last {al : Alloc} {f : Bytes} {pos : Nat} {segs : List Segment} {last : Fail}
    (h : Parses al f pos segs last) : ∃ t, last = .err t := by
  induction h with
  | @done p l hr =>
    rcases Segment.read_safe al f p with ⟨s, q, h⟩ | ⟨t, h⟩
    · rw [hr] at h; cases h
    · rw [hr] at h; cases h; exact ⟨t, rfl⟩
  | segment _ _ ih => exact ih

/-- The result of opening when the segments are added to an index. -/
def openResult (ix : Index) (segs : List Segment) (last : Fail) : R Index :=
  match replay ix segs with
  | .error e => .error e
  | .ok ix => if last = .err .endOfFile then .ok ix else .error last

theorem openLoop_eq {al : Alloc} {f : Bytes} {pos : Nat} {segs : List Segment} {last : Fail}
    (h : Parses al f pos segs last) : ∀ (fuel : Nat) (ix : Index), segs.length < fuel →
    ix.nextSegmentStart = pos → openLoop al f fuel pos ix = openResult ix segs last := by
  induction h with
  | @done pos last hr =>
    intro fuel ix hf _
    cases fuel with
    | zero => simp at hf
    | succ fuel =>
      unfold openLoop openResult replay
      rw [hr]
      by_cases hl : last = .err .endOfFile
      · subst hl; rfl
      · dsimp only
        rw [if_neg hl]
        split
        · rename_i heq; cases heq; exact absurd rfl hl
        · rename_i heq; cases heq; rfl
        · rename_i heq; cases heq
  | @segment pos q s segs last hr _ ih =>
    intro fuel ix hf hpos
    cases fuel with
    | zero => simp at hf
    | succ fuel =>
      unfold openLoop openResult replay
      rw [hr]
      dsimp only
      cases ha : ix.addSegment s with
      | mk r ix' =>
        cases r with
        | error e => rfl
        | ok n =>
          dsimp only
          obtain ⟨h1, h2, _⟩ := addSegment_next ha
          rw [h1, hpos]
          exact ih fuel ix' (by simp only [List.length_cons] at hf; omega) (by rw [h2, h1, hpos])

theorem buildIndex_eq {al : Alloc} {f : Bytes} {segs : List Segment} {last : Fail}
    (h : Parses al f 0 segs last) : buildIndex al f = openResult Index.new segs last := by
  unfold buildIndex
  apply openLoop_eq h
  · rcases h.length with hl | hl
    · rw [hl]; simp
    · unfold leadInBytes; omega
  · rfl

/-- An opened file is the replay of its segments. -/
theorem opened {al : Alloc} {f : Bytes} {t : TdmsFile} (h : TdmsFile.new al f = .ok t) :
    t.bytes = f ∧ ∃ segs, Parses al f 0 segs (.err .endOfFile) ∧ replay Index.new segs = .ok t.index := by
  obtain ⟨segs, last, hp⟩ := Parses.exists al f 0
  unfold TdmsFile.new at h
  rw [buildIndex_eq hp] at h
  unfold openResult at h
  cases hr : replay Index.new segs with
  | error e => rw [hr] at h; cases h
  | ok ix =>
    rw [hr] at h
    dsimp only at h
    split at h
    · rename_i hl
      subst hl
      cases h
      exact ⟨rfl, segs, hp, hr⟩
    · cases h

theorem opened_refines {al : Alloc} {f : Bytes} {t : TdmsFile} (h : TdmsFile.new al f = .ok t) :
    ∃ segs, Parses al f 0 segs (.err .endOfFile) ∧ Refines segs t.index := by
  obtain ⟨_, segs, hp, hr⟩ := opened h
  exact ⟨segs, hp, replay_refines hr⟩

end Tedium
