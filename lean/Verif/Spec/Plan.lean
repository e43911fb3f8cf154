import Verif.Model.File

/-!
# Which blocks a read has to visit

Independent of how the plan is computed: a channel has to be read in a block when one of its
samples there has number `start` or more, and then the samples before number `start` are skipped.
-/

namespace Tedium.PlanSpec

/-- The number of samples of a channel in the blocks before `block`. -/
def samplesBefore (ls : List DataLocation) (block : Nat) : Nat :=
  ((ls.filter (fun l => l.dataBlock < block)).map (·.numberOfSamples)).sum

/-- What has to be read of a channel in a block: which channel of the block, and how many samples to
    skip. `none` if the channel has no sample with number `start` or more there. -/
def visit (start block : Nat) (ls : List DataLocation) : Option ChannelReadPlan :=
  match ls.find? (fun l => l.dataBlock == block) with
  | none => none
  | some l =>
    if 0 < l.numberOfSamples ∧ start < samplesBefore ls block + l.numberOfSamples
    then some { index := l.channelIndex, samplesToSkip := start - samplesBefore ls block }
    else none

/-- The visit of a block, if one of the channels has to be read there. -/
def visitAll (start block : Nat) (positions : List (List DataLocation)) : Option BlockRead :=
  if (positions.map (visit start block)).any Option.isSome
  then some { dataBlock := block, channelIndexes := positions.map (visit start block) }
  else none

/-- The visits of the blocks with numbers below `bound`, in increasing order. -/
def plan (start bound : Nat) (positions : List (List DataLocation)) : List BlockRead :=
  (List.range bound).filterMap (fun block => visitAll start block positions)

end Tedium.PlanSpec
