import Verif.Spec.Crashes
import Verif.Spec.Existing

/-!
# The library as a store that survives crashes, on files that exist

`Spec/Crashes` for programs that begin with a file that is there already, whoever wrote it. The file, its segments `segs` and what it holds
(`s`, `last`) are as in `Spec/Existing`.
-/

namespace Tedium.Library
open SegSpec WriteSpec

/-- The calls are as in C90, for a file that is opened again. -/
structure SoundOn (al : Alloc) (t : TdmsFile) (s : Store) (last : Last) (ops : List Op) : Prop where
  compatible : Compatible last ops
  types : ∀ op ∈ ops, ∀ op' ∈ ops, ∀ p, Names p op → Names p op' → typeOf op = typeOf op'
  fileTypes : ∀ op ∈ ops, ∀ p, Names p op → ∀ c, s.content p = some c → typeOf op = some c.1
  size : (runOps al t ops).bytes.length < 2 ^ 63
  fits : ∀ op ∈ ops, OpFits op
  described : Described al last ops

/-- The question is as in C90. -/
def AskableOn (segs : List Segment) (s : Store) (ops : List Op) : Query → Prop
  | .groups => (∀ op ∈ ops, Tidy op) ∧ ∀ p, s.objects p → ∃ o : Obj, o.SlashFree ∧ o.toPath.path = p
  | .channels _ => (∀ op ∈ ops, Tidy op) ∧ ∀ p, s.objects p → ∃ o : Obj, o.SlashFree ∧ o.toPath.path = p
  | .readMany _ cs _ => TogetherOn segs s ops cs
  | _ => True

/-- The number of bytes in the file after the first `k` calls. -/
def bytesAt (al : Alloc) (t : TdmsFile) (ops : List Op) (k : Nat) : Nat := (runOps al t (ops.take k)).bytes.length

/-- `Endures`, on a file that exists. -/
def EnduresOn (al : Alloc) (segs : List Segment) (t : TdmsFile) (s : Store) (last : Last) : List Op → Nat → Bool → List Step → Prop
  | _, _, _, [] => True
  | ops, synced, whole, .command (.call op) :: rest =>
    (Accepted op = true → whole = true ∧ SoundOn al t s last (ops ++ [op]) ∧ EnduresOn al segs t s last (ops ++ [op]) synced whole rest) ∧
    (Accepted op = false → EnduresOn al segs t s last ops synced whole rest)
  | ops, synced, whole, .command (.ask q) :: rest => AskableOn segs s ops q ∧ EnduresOn al segs t s last ops synced whole rest
  | ops, _, whole, .command .reopen :: rest => EnduresOn al segs t s last ops (bytesAt al t ops ops.length) whole rest
  | ops, _, whole, .sync :: rest => EnduresOn al segs t s last ops (bytesAt al t ops ops.length) whole rest
  | ops, synced, _, .crash kept :: rest =>
    synced ≤ kept ∧ ∃ k, k ≤ ops.length ∧ (∀ j, j ≤ ops.length → (bytesAt al t ops j ≤ kept ↔ j ≤ k)) ∧
      kept < bytesAt al t ops k + 4 ∧ EnduresOn al segs t s last (ops.take k) (bytesAt al t ops k) (kept == bytesAt al t ops k) rest

end Tedium.Library
