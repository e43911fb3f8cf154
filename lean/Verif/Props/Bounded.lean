import Verif.Proofs.Enough
import Verif.Props.Work
import Verif.Proofs.Persist

/-! # How much memory a file needs (C66) -/

namespace Tedium
open SegSpec

theorem parses_enough {al al' : Alloc} {f : Bytes} (h : Enough f.length al) {pos : Nat} {segs : List Segment} {last : Fail}
    (hp : Parses al' f pos segs last) (hl : last = .err .endOfFile) : Parses al f pos segs last := by
  induction hp with
  | done hr =>
    subst hl
    exact .done ((Segment.read_eof_iff al f _).mpr ((Segment.read_eof_iff al' f _).mp hr))
  | segment hr _ ih => exact .segment (Keeps.segment h (Nat.le_refl _) hr) (ih hl)

/-- **C66, memory, what is true of the size** (partial: of files that can be opened). To open a file that can be
    opened at all takes no request for memory for which the file itself would not have room: no string longer than the file,
    no table of objects or properties that do not fit into it. Whoever grants these can open it, with the same
    result. -/
theorem open_memory_bounded_partial (al : Alloc) (f : Bytes) (h : Enough f.length al) (t : TdmsFile) :
    TdmsFile.new al f = .ok t ↔ ∃ al', TdmsFile.new al' f = .ok t := by
  constructor
  · exact fun ht => ⟨al, ht⟩
  · rintro ⟨al', ht⟩
    obtain ⟨hb, segs, hp, hr⟩ := (open_is_replay al' f t).mp ht
    exact (open_is_replay al f t).mpr ⟨hb, segs, parses_enough h hp rfl, hr⟩

/-- Hence an allocation error, where the requests for which the file has room are granted, means that the
    file cannot be opened with any memory. -/
theorem open_memory_error (al : Alloc) (f : Bytes) (h : Enough f.length al) (e : Fail) (he : TdmsFile.new al f = .error e)
    (al' : Alloc) : ∃ e', TdmsFile.new al' f = .error e' := by
  cases hx : TdmsFile.new al' f with
  | error e' => exact ⟨e', rfl⟩
  | ok t =>
    rw [(open_memory_bounded_partial al f h t).mpr ⟨al', hx⟩] at he
    cases he

/-- **C66, memory, reading.** Reading values of any type but strings asks for no memory. -/
theorem read_memory_none (al al' : Alloc) (ty : STy) (hty : ty ≠ .string) (t : TdmsFile) (cs : List ChannelPath) (start : Nat)
    (outs : List (List ty.Val)) :
    t.readChannelsFrom (ty.storage al) cs start outs = t.readChannelsFrom (ty.storage al') cs start outs := by
  cases ty <;> first | rfl | exact absurd rfl hty

/-- An allocator that grants only what a file of `L` bytes has room for. -/
def limitedAlloc (L : Nat) : Alloc
  | .str n => decide (n ≤ L)
  | .vec n => decide (12 * n ≤ L)
  | .props n => decide (8 * n ≤ L)

/-- The file of the work example opens with it; the file that cannot be opened does not. -/
theorem open_memory_bounded_example :
    Enough workFile.length (limitedAlloc workFile.length) ∧
    (∃ t, TdmsFile.new (limitedAlloc workFile.length) workFile = .ok t) ∧
    ∃ e, TdmsFile.new (limitedAlloc workFile.length) manyObjectsFile = .error e := by
  refine ⟨⟨fun n h => decide_eq_true h, fun n h => decide_eq_true h, fun n h => decide_eq_true h⟩, ?_, ?_⟩
  · obtain ⟨t, ht, _⟩ := ok_and (x := TdmsFile.new (limitedAlloc workFile.length) workFile) (P := fun _ => true)
      (by decide +kernel)
    exact ⟨t, ht⟩
  · exact ⟨_, show TdmsFile.new (limitedAlloc workFile.length) manyObjectsFile = .error (.err .vecAllocationFailed) by
      decide +kernel⟩

end Tedium
