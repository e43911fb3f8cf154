import Verif.Spec.Meanwhile
import Verif.Spec.Writes
import Verif.Spec.Reads

/-! # A program that writes and a program that watches -/

namespace Tedium
open WriteSpec SegSpec

/-- The calls with which a program fills a new file, within the limits of C31 and C32: the values of each call fit the
    channel list (`Compatible`), a call that repeats or only extends or shortens the list of the one before starts with
    four zero bytes (`Described`), no channel is named twice in a call, lengths fit their fields, and the file stays
    below 2^63 bytes. -/
structure Recording (al : Alloc) (ops : List Op) : Prop where
  compatible : Compatible Last.none ops
  described : Described al Last.none ops
  distinct : ∀ op ∈ ops, Distinct op
  fits : ∀ op ∈ ops, OpFits op
  size : (runOps al ⟨Index.new, []⟩ ops).bytes.length < 2 ^ 63

/-- What is in the stream and what is going to arrive are, together, the bytes that the calls write. The pieces may be of
    any size, and end anywhere. -/
def Growing.Shows (al : Alloc) (ops : List Op) (g : Growing) : Prop :=
  g.contents ++ g.growth.flatten = (runOps al ⟨Index.new, []⟩ ops).bytes

/-- The first `j` calls are complete in the stream. -/
def Growing.Has (al : Alloc) (ops : List Op) (g : Growing) (j : Nat) : Prop :=
  (runOps al ⟨Index.new, []⟩ (ops.take j)).bytes <+: g.contents

end Tedium
