import Verif.Spec.Crashes

/-!
# Several handles on one file

A file can be opened several times, by one program or by several. Each handle has its own index, made when it opened the file and
changed by its own calls; the bytes are shared. A call is one step here: its bytes are in the file before another handle does anything.
(The writer is flushed when it is dropped, `src/file/mod.rs:179-188`.)
-/

namespace Tedium.Library
open SegSpec WriteSpec

/-- The bytes of the file, and the index of each handle. -/
structure Shared where
  handles : Nat → Index
  bytes : Bytes

/-- A new file that each handle has opened. -/
def Shared.new : Shared := ⟨fun _ => Index.new, []⟩

/-- A function with one value changed. -/
def change {α : Type} (f : Nat → α) (h : Nat) (x : α) : Nat → α := fun g => if g = h then x else f g

/-- A handle makes a call, asks a question, or is opened again. -/
inductive Deed where
  | call (h : Nat) (op : Op)
  | ask (h : Nat) (q : Query)
  | reopen (h : Nat)

/-- The deed, done with the library. -/
def Deed.run (al : Alloc) (s : Shared) : Deed → R Reply × Shared
  | .call h op =>
    let (r, t) := op.run al ⟨s.handles h, s.bytes⟩
    (r.map fun _ => .done, ⟨change s.handles h t.index, t.bytes⟩)
  | .ask h q => (q.run al ⟨s.handles h, s.bytes⟩, s)
  | .reopen h => match TdmsFile.new al s.bytes with
    | .ok t => (.ok .done, ⟨change s.handles h t.index, t.bytes⟩)
    | .error e => (.error e, s)

/-- What the library replies to the deeds, one after the other. -/
def deedReplies (al : Alloc) (s : Shared) : List Deed → List (Deed × R Reply)
  | [] => []
  | deed :: deeds => (deed, (deed.run al s).1) :: deedReplies al (deed.run al s).2 deeds

/-- What a handle has seen when it has made a call: this call too, if it had seen all calls before. Otherwise it has no true
    picture of the file. -/
def seenAfter (ops : List Op) (seen : Option Nat) : Option Nat :=
  if seen = some ops.length then some (ops.length + 1) else none

/-- These are the replies of one store that all handles share. The calls `ops` have been made, by any handles. A handle `h` sees the
    first `n` of them if `seen h = some n`: those that were made before it was opened, and its own calls until another handle
    makes one. It sees all calls when it is opened again. -/
def Agrees (al : Alloc) : List Op → (Nat → Option Nat) → List (Deed × R Reply) → Prop
  | _, _, [] => True
  | ops, seen, (.call h op, r) :: rest =>
    r = ((storeOf ops).call op).1 ∧
    (Accepted op = true → Agrees al (ops ++ [op]) (change seen h (seenAfter ops (seen h))) rest) ∧
    (Accepted op = false → Agrees al ops seen rest)
  | ops, seen, (.ask h q, r) :: rest =>
    (∀ n, seen h = some n → (storeOf (ops.take n)).Answers al q r) ∧ Agrees al ops seen rest
  | ops, seen, (.reopen h, r) :: rest => r = .ok .done ∧ Agrees al ops (change seen h (some ops.length)) rest

/-- The call writes samples. -/
def WritesData : Op → Prop
  | .props .. => False
  | .write .. => True

/-- The programs of which the handles are known to share one store: a handle that writes samples has been opened since another handle
    last wrote samples (`fresh`). Properties can be written with any handle. The calls and the questions are as in C88. -/
def Orderly (al : Alloc) : List Op → (Nat → Prop) → List Deed → Prop
  | _, _, [] => True
  | ops, fresh, .call h op :: rest =>
    (Accepted op = true → Sound al (ops ++ [op]) ∧ (WritesData op → fresh h) ∧
      Orderly al (ops ++ [op]) (fun g => fresh g ∧ (WritesData op → g = h)) rest) ∧
    (Accepted op = false → Orderly al ops fresh rest)
  | ops, fresh, .ask _ q :: rest => Askable ops q ∧ Orderly al ops fresh rest
  | ops, fresh, .reopen h :: rest => Orderly al ops (fun g => fresh g ∨ g = h) rest

end Tedium.Library
