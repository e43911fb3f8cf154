import Verif.Spec.Open
import Verif.Spec.History

/-! # Files that differ in their sample data only -/

namespace Tedium.SampleData

/-- The two files have the same bytes from one position up to another (the end of a file counts too). -/
def SameBytes (f g : Bytes) (first last : Nat) : Prop := ∀ i, first ≤ i → i < last → f[i]? = g[i]?

/-- The two files have the same segment headers and metadata sections from a position on: each begins where the
    header before it says, and ends at the end of its metadata. Behind the last one, where no segment begins any
    more, they are the same. Between the sections they may differ. -/
inductive SameHeads (al : Alloc) (f g : Bytes) : (pos : Nat) → Prop
  | done {pos : Nat} {last : Fail} : Segment.read al f pos = .error last → (∀ i, pos ≤ i → f[i]? = g[i]?) →
      SameHeads al f g pos
  | segment {pos q : Nat} {s : Segment} : Segment.read al f pos = .ok (s, q) → SameBytes f g pos q →
      SameHeads al f g (pos + (28 + s.nextSegmentOffset)) → SameHeads al f g pos

/-- The second list of segments is the first with other bytes, as many, after the metadata sections. -/
def Replaced : List FileSegment → List FileSegment → Prop
  | [], [] => True
  | s :: ss, s' :: ss' =>
      (∃ bytes : Bytes, bytes.length = s.rest.length ∧ s' = { s with rest := bytes }) ∧ Replaced ss ss'
  | _, _ => False

/-- The results of calls made one after the other. -/
def results (al : Alloc) (t : TdmsFile) : List Op → List (R Unit)
  | [] => []
  | op :: ops => (op.run al t).1 :: results al (op.run al t).2 ops

end Tedium.SampleData
