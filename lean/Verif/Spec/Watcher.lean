import Verif.Spec.Crashes
import Verif.Spec.Recording

/-!
# A program that watches a file, as one that asks a store

One program makes the calls `ops` on a new file. What it writes arrives in the file piece by piece. Another program has the
same file open, asks questions and opens the file again now and then. It has a store in front of it too: that of the first `i` calls, where `i` never falls.
-/

namespace Tedium.Library
open SegSpec WriteSpec

/-- What the program that watches does: it lets some time pass, asks, or opens the file again. -/
inductive Glance where
  | wait
  | ask (q : Query)
  | reopen

/-- The question, asked of the library with the index `ix`, of a file that grows. Only reads of samples touch the file. -/
def Query.runGrowing (al : Alloc) (capacity : Nat) (ix : Index) (g : Growing) : Query → R Reply × Growing
  | .read ty c start out =>
    match g.readChannelInto al capacity ty ix c start out with
    | (r, buffer, g) => (r.map fun _ => .samples ty buffer, g)
  | .readMany ty cs start =>
    match g.readChannelsInto al capacity ty ix (cs.map (·.1)) start (cs.map (·.2)) with
    | (r, buffers, g) => (r.map fun _ => .samplesMany ty buffers, g)
  | q => (q.run al ⟨ix, g.contents⟩, g)

/-- One step of that program. If the file cannot be opened, it goes on with what it had. -/
def Glance.run (al : Alloc) (capacity : Nat) (ix : Index) (g : Growing) : Glance → R Reply × Index × Growing
  | .wait => (.ok .done, ix, g.grown)
  | .ask q => match q.runGrowing al capacity ix g with
    | (r, g) => (r, ix, g)
  | .reopen => match g.buildIndex al capacity with
    | (.ok ix, g) => (.ok .done, ix, g)
    | (.error e, g) => (.error e, ix, g)

/-- The steps, what the library replies to each, and how many bytes the file has at the end of it. -/
def glimpses (al : Alloc) (capacity : Nat) (ix : Index) (g : Growing) : List Glance → List (Glance × R Reply × Nat)
  | [] => []
  | glance :: rest =>
    match glance.run al capacity ix g with
    | (r, ix, g) => (glance, r, g.contents.length) :: glimpses al capacity ix g rest

/-- The question reads samples. -/
def Query.Reads : Query → Prop
  | .read .. => True
  | .readMany .. => True
  | _ => False

/-- Where a call is found in the file even though it is not complete: behind its metadata. This is where its values begin, or
    four bytes later if it repeats, extends or shortens the list of channels. -/
def foundFrom (al : Alloc) (ops : List Op) (k : Nat) (op : Op) : Nat :=
  bytesAfter al ops (k + 1) - dataBytes al op + takenForMetadata ((ops.take k).foldl Last.after Last.none) op

/-- How many calls opening finds if `k` are complete and the file has `n` bytes: none if it ends in the first part of call `k`. -/
def found (al : Alloc) (ops : List Op) (n k : Nat) : Option Nat :=
  match ops[k]? with
  | none => some k
  | some op =>
    if n < bytesAfter al ops k + 4 then some k
    else if n < foundFrom al ops k op then none
    else some (k + 1)

/-- These are the replies to a program that has the first `i` calls in front of it: the store of these calls gives the
    answers, except that a read can fail if the last of them is not complete. When the file is opened again the
    calls are those that are found then, at least as many as before; if the file cannot be opened it stays as it was. -/
def Views (al : Alloc) (ops : List Op) : Nat → List (Glance × R Reply × Nat) → Prop
  | _, [] => True
  | i, (.wait, _, _) :: rest => Views al ops i rest
  | i, (.ask q, r, n) :: rest =>
    ((storeOf (ops.take i)).Answers al q r ∨
      (q.Reads ∧ n < bytesAfter al ops i ∧ r = R.err (.ioError .unexpectedEof))) ∧ Views al ops i rest
  | i, (.reopen, r, n) :: rest =>
    ∃ k, k ≤ ops.length ∧ (∀ j, j ≤ ops.length → (bytesAfter al ops j ≤ n ↔ j ≤ k)) ∧
      match found al ops n k with
      | some i' => r = .ok .done ∧ i ≤ i' ∧ Views al ops i' rest
      | none => r = R.err (.ioError .unexpectedEof) ∧ Views al ops i rest

end Tedium.Library
