import Verif.Spec.Library

/-!
# The library as a store that survives crashes

A program whose process can die. What it wrote passes through a write buffer, so a crash leaves any first part of the bytes in
the file, but never less than was there after the last `sync` or when the file was opened (C35). To the user this is a store that can
fall back to an earlier state, but not behind the last `sync`.
-/

namespace Tedium.Library
open SegSpec WriteSpec

/-- A step of such a program: a command, a `sync`, or a crash that leaves the first `kept` bytes, after which the file is opened
    again. -/
inductive Step where
  | command (cmd : Command)
  | sync
  | crash (kept : Nat)

/-- The step, given to the library. -/
def Step.run (al : Alloc) (t : TdmsFile) : Step → R Reply × TdmsFile
  | .command cmd => cmd.run al t
  | .sync => (.ok .done, t)
  | .crash kept => match TdmsFile.new al (t.bytes.take kept) with
    | .ok t' => (.ok .done, t')
    | .error e => (.error e, t)

/-- What the library replies to the steps, one after the other. -/
def stepReplies (al : Alloc) (t : TdmsFile) : List Step → List (Step × R Reply)
  | [] => []
  | step :: steps => (step, (step.run al t).1) :: stepReplies al (step.run al t).2 steps

/-- These are the replies of a store that is `s` now, was `older` at times since the last `sync`, and falls back to one of these states
    in a crash. -/
def Survives (al : Alloc) : Store → List Store → List (Step × R Reply) → Prop
  | _, _, [] => True
  | s, older, (.command (.call op), r) :: rest => r = (s.call op).1 ∧ Survives al (s.call op).2 (s :: older) rest
  | s, older, (.command (.ask q), r) :: rest => s.Answers al q r ∧ Survives al s older rest
  | s, _, (.command .reopen, r) :: rest => r = .ok .done ∧ Survives al s [] rest
  | s, _, (.sync, r) :: rest => r = .ok .done ∧ Survives al s [] rest
  | s, older, (.crash _, r) :: rest => r = .ok .done ∧ ∃ s' ∈ s :: older, Survives al s' [] rest

/-! ## The programs -/

/-- The calls are as in C88, for a file that is opened again. -/
structure Sound (al : Alloc) (ops : List Op) : Prop where
  compatible : Compatible Last.none ops
  types : ∀ op ∈ ops, ∀ op' ∈ ops, ∀ p, Names p op → Names p op' → typeOf op = typeOf op'
  size : (runOps al ⟨Index.new, []⟩ ops).bytes.length < 2 ^ 63
  fits : ∀ op ∈ ops, OpFits op
  described : Described al Last.none ops

/-- The question is as in C88. -/
def Askable (ops : List Op) : Query → Prop
  | .groups => ∀ op ∈ ops, Tidy op
  | .channels _ => ∀ op ∈ ops, Tidy op
  | .readMany _ cs _ => Together ops cs
  | _ => True

/-- The number of bytes that the first `k` calls have written. -/
def bytesAfter (al : Alloc) (ops : List Op) (k : Nat) : Nat := (runOps al ⟨Index.new, []⟩ (ops.take k)).bytes.length

/-- The programs of which the library is known to behave as such a store, when the calls `ops` are in the file or in the buffer,
    `synced` bytes are safe, and `whole` says that nothing follows the calls in the file. A crash leaves `k` calls complete, and less
    than the 4 bytes of a tag of the next one. Nothing is written behind the rest of a call. -/
def Endures (al : Alloc) : List Op → Nat → Bool → List Step → Prop
  | _, _, _, [] => True
  | ops, synced, whole, .command (.call op) :: rest =>
    (Accepted op = true → whole = true ∧ Sound al (ops ++ [op]) ∧ Endures al (ops ++ [op]) synced whole rest) ∧
    (Accepted op = false → Endures al ops synced whole rest)
  | ops, synced, whole, .command (.ask q) :: rest => Askable ops q ∧ Endures al ops synced whole rest
  | ops, _, whole, .command .reopen :: rest => Endures al ops (bytesAfter al ops ops.length) whole rest
  | ops, _, whole, .sync :: rest => Endures al ops (bytesAfter al ops ops.length) whole rest
  | ops, synced, _, .crash kept :: rest =>
    synced ≤ kept ∧ ∃ k, k ≤ ops.length ∧ (∀ j, j ≤ ops.length → (bytesAfter al ops j ≤ kept ↔ j ≤ k)) ∧
      kept < bytesAfter al ops k + 4 ∧ Endures al (ops.take k) (bytesAfter al ops k) (kept == bytesAfter al ops k) rest

end Tedium.Library
