import Verif.Model.File

/-! # What a read of one channel delivers -/

namespace Tedium.ReadSpec

/-- Reading into a buffer of `n` cells stores `vals` at its front and leaves the other cells as they
    were, whatever the buffer held. -/
def Delivers {α : Type} (S : Storage α) (t : TdmsFile) (c : ChannelPath) (start n : Nat) (vals : List α) : Prop :=
  vals.length ≤ n ∧
  ∀ out : List α, out.length = n → t.readChannelFrom S c start out = .ok (vals ++ out.drop vals.length)

/-- Reading into a buffer of `n` cells fails with `e`, whatever the buffer held. -/
def Fails {α : Type} (S : Storage α) (t : TdmsFile) (c : ChannelPath) (start n : Nat) (e : Fail) : Prop :=
  ∀ out : List α, out.length = n → t.readChannelFrom S c start out = .error e

/-! ## Reads of several channels -/

/-- The buffers after storing: a cell with a mark `some v` holds `v`, the others what they held before. -/
def fill {α : Type} (marks : List (List (Option α))) (outs : List (List α)) : List (List α) :=
  List.zipWith (List.zipWith (fun m o => m.getD o)) marks outs

/-- Reading channels into buffers with as many cells as `marks` stores the marked values in the marked cells and
    leaves the other cells as they were, whatever the buffers held. -/
def Stores {α : Type} (S : Storage α) (t : TdmsFile) (cs : List ChannelPath) (start : Nat)
    (marks : List (List (Option α))) : Prop :=
  ∀ outs : List (List α), outs.map List.length = marks.map List.length →
    t.readChannelsFrom S cs start outs = .ok (fill marks outs)

/-! ## Memory -/

/-- The errors for a failed allocation (`src/error.rs`, `…AllocationFailed`). -/
def OutOfMemory (e : Fail) : Prop :=
  e = .err .vecAllocationFailed ∨ e = .err .stringAllocationFailed ∨ e = .err .propertyTableAllocationFailed

end Tedium.ReadSpec
