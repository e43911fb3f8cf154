import Verif.Model.File
import Verif.Spec.Samples

/-! # Blocks that can be read without a panic -/

namespace Tedium

/-- The blocks in which a channel has samples, given by its data locations, are tame: the first channel
    of a contiguous block has values, and the sizes do not overflow 64 bits (`DataBlock.Tame`). -/
def TameAt (t : TdmsFile) (ls : List DataLocation) : Prop :=
  ∀ l ∈ ls, 0 < l.numberOfSamples → ∀ b, t.index.getDataBlock l.dataBlock = some b → b.Tame l.numberOfSamples

/-- The blocks in which a channel has samples have a channel whose type has a size (i.e. not only
    strings). -/
def SizedAt (t : TdmsFile) (ls : List DataLocation) : Prop :=
  ∀ l ∈ ls, 0 < l.numberOfSamples → ∀ b, t.index.getDataBlock l.dataBlock = some b →
    0 < (b.channels.map (fun m => m.numberOfValues * m.dataType.size)).sum

end Tedium
