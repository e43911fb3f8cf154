import Verif.Spec.Several
import Verif.Spec.Resumed

/-!
# Several handles on one file which had content before

`Spec/Several` for a file that is there already, whoever wrote it. The file and what it holds are as in `Spec/Existing`.
-/

namespace Tedium.Library
open SegSpec WriteSpec

/-- A file that each handle has opened. -/
def Shared.opened (t : TdmsFile) : Shared := ⟨fun _ => t.index, t.bytes⟩

/-- `Agrees`, on a file that exists, which the store `s` describes. -/
def AgreesOn (al : Alloc) (s : Store) : List Op → (Nat → Option Nat) → List (Deed × R Reply) → Prop
  | _, _, [] => True
  | ops, seen, (.call h op, r) :: rest =>
    r = ((ops.foldl Store.after s).call op).1 ∧
    (Accepted op = true → AgreesOn al s (ops ++ [op]) (change seen h (seenAfter ops (seen h))) rest) ∧
    (Accepted op = false → AgreesOn al s ops seen rest)
  | ops, seen, (.ask h q, r) :: rest =>
    (∀ n, seen h = some n → ((ops.take n).foldl Store.after s).Answers al q r) ∧ AgreesOn al s ops seen rest
  | ops, seen, (.reopen h, r) :: rest => r = .ok .done ∧ AgreesOn al s ops (change seen h (some ops.length)) rest

/-- `Orderly`, on a file that exists: the calls and the questions are as in C90. -/
def OrderlyOn (al : Alloc) (segs : List Segment) (t : TdmsFile) (s : Store) (last : Last) : List Op → (Nat → Prop) → List Deed → Prop
  | _, _, [] => True
  | ops, fresh, .call h op :: rest =>
    (Accepted op = true → SoundOn al t s last (ops ++ [op]) ∧ (WritesData op → fresh h) ∧
      OrderlyOn al segs t s last (ops ++ [op]) (fun g => fresh g ∧ (WritesData op → g = h)) rest) ∧
    (Accepted op = false → OrderlyOn al segs t s last ops fresh rest)
  | ops, fresh, .ask _ q :: rest => AskableOn segs s ops q ∧ OrderlyOn al segs t s last ops fresh rest
  | ops, fresh, .reopen h :: rest => OrderlyOn al segs t s last ops (fun g => fresh g ∨ g = h) rest

/-- The calls that the handles make and that are not rejected, in order. -/
def deedCalls (deeds : List Deed) : List Op :=
  deeds.filterMap fun
    | .call _ op => if Accepted op then some op else none
    | _ => none

/-- Each handle that writes samples has been opened since another one last wrote samples (`fresh`). -/
def Careful : (Nat → Prop) → List Deed → Prop
  | _, [] => True
  | fresh, .call h op :: rest =>
    (Accepted op = true → (WritesData op → fresh h) ∧ Careful (fun g => fresh g ∧ (WritesData op → g = h)) rest) ∧
    (Accepted op = false → Careful fresh rest)
  | fresh, .ask .. :: rest => Careful fresh rest
  | fresh, .reopen h :: rest => Careful (fun g => fresh g ∨ g = h) rest

end Tedium.Library
