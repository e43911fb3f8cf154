import Verif.Spec.Merge

/-!
# Two files joined byte for byte
-/

namespace Tedium.Library
open SegSpec WriteSpec

/-- Raw data comes only at or after a segment that starts a new list of objects: no segment goes on with a list from before the first one. -/
def Standalone (segs : List Segment) : Prop := ∀ pre ∈ dataPrefixes segs, ∃ s ∈ pre, s.toc.containsNewObjectList = true

/-- The types of the channels of two files: for those with raw data in the second file the types there. -/
def joinedTypes (ty ty' : Text → STy) (segs' : List Segment) (p : Text) : STy :=
  if (dataPrefixes segs').any (fun pre => decide (p ∈ active pre)) then ty' p else ty p

end Tedium.Library
