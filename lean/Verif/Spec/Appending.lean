import Verif.Spec.Writes
import Verif.Spec.History

/-! # Appending to a file -/

namespace Tedium.WriteSpec

/-- Whatever is written to the channel `c` next is what is read from it: the write succeeds, the channel has
    as many samples as values were written, and reading them gives these values. (Ordinary types, and files
    of less than `2^63` bytes. Meant for a channel that the file does not have yet.) -/
def AppendsWell (al : Alloc) (c : ChannelPath) (t : TdmsFile) : Prop :=
  ∀ (e : Endian) (ty : STy) (vals : List ty.Val) (layout : DataLayout), Format.ordinaryTy ty = true → vals ≠ [] →
    (t.writeChannels (ty.storage al) e [c] vals layout).2.bytes.length < 2 ^ 63 →
    (t.writeChannels (ty.storage al) e [c] vals layout).1 = .ok () ∧
    (t.writeChannels (ty.storage al) e [c] vals layout).2.channelLength c = .ok (some vals.length) ∧
    ∀ out : List ty.Val, out.length = vals.length →
      (t.writeChannels (ty.storage al) e [c] vals layout).2.readChannelFrom (ty.storage al) c 0 out = .ok vals

/-- A file that was opened, and calls on it that returned `Ok`. -/
inductive Healthy (al : Alloc) : TdmsFile → Prop
  | opened {f : Bytes} {t : TdmsFile} : TdmsFile.new al f = .ok t → Healthy al t
  | call {t : TdmsFile} (op : Op) : Healthy al t → (op.run al t).1 = .ok () → Healthy al (op.run al t).2

/-- The sizes are far from the end of the 63 bits that positions in a file have. -/
def Room (c : ChannelPath) (t : TdmsFile) : Prop :=
  2 * t.bytes.length + t.index.nextSegmentStart + textSize c.path + 100 < 2 ^ 63

end Tedium.WriteSpec
