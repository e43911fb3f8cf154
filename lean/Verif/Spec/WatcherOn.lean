import Verif.Spec.Watcher
import Verif.Spec.Resumed

/-!
# A program that watches a file which had content before

`Spec/Watcher` for calls on a file that is there already, whoever wrote it. The file, its segments and what it holds are as in
`Spec/Existing`.
-/

namespace Tedium.Library
open SegSpec WriteSpec

/-- What is in the stream, which is at least what was there at the beginning, and what is going to arrive are, together, the bytes of
    the file and of the calls. The pieces may be of any size, and end anywhere. -/
def ShowsOn (al : Alloc) (t : TdmsFile) (ops : List Op) (g : Growing) : Prop :=
  t.bytes.length ≤ g.contents.length ∧ g.contents ++ g.growth.flatten = (runOps al t ops).bytes

/-- `foundFrom`, on a file that exists. -/
def foundFromOn (al : Alloc) (t : TdmsFile) (last : Last) (ops : List Op) (k : Nat) (op : Op) : Nat :=
  bytesAt al t ops (k + 1) - dataBytes al op + takenForMetadata ((ops.take k).foldl Last.after last) op

/-- `found`, on a file that exists. -/
def foundOn (al : Alloc) (t : TdmsFile) (last : Last) (ops : List Op) (n k : Nat) : Option Nat :=
  match ops[k]? with
  | none => some k
  | some op =>
    if n < bytesAt al t ops k + 4 then some k
    else if n < foundFromOn al t last ops k op then none
    else some (k + 1)

/-- `Views`, on a file that exists, which the store `s` describes. -/
def ViewsOn (al : Alloc) (t : TdmsFile) (s : Store) (last : Last) (ops : List Op) : Nat → List (Glance × R Reply × Nat) → Prop
  | _, [] => True
  | i, (.wait, _, _) :: rest => ViewsOn al t s last ops i rest
  | i, (.ask q, r, n) :: rest =>
    (((ops.take i).foldl Store.after s).Answers al q r ∨
      (q.Reads ∧ n < bytesAt al t ops i ∧ r = R.err (.ioError .unexpectedEof))) ∧ ViewsOn al t s last ops i rest
  | i, (.reopen, r, n) :: rest =>
    ∃ k, k ≤ ops.length ∧ (∀ j, j ≤ ops.length → (bytesAt al t ops j ≤ n ↔ j ≤ k)) ∧
      match foundOn al t last ops n k with
      | some i' => r = .ok .done ∧ i ≤ i' ∧ ViewsOn al t s last ops i' rest
      | none => r = R.err (.ioError .unexpectedEof) ∧ ViewsOn al t s last ops i rest

end Tedium.Library
