import Verif.Spec.Samples

/-! # Channels of another type than the one asked for -/

namespace Tedium
open SegSpec

/-- There is something to read of the channel, and its type is not the one that is asked for. -/
structure Refused {α : Type} (S : Storage α) (segs : List Segment) (start : Nat) (c : ChannelPath × List α) : Prop where
  room : c.2 ≠ []
  more : start < sampleCount segs c.1.path
  other : ∀ pre ∈ dataPrefixes segs, c.1.path ∈ active pre → ∀ m, layoutOf (entries pre) c.1.path = some m →
    m.dataType ∉ S.supported

end Tedium
