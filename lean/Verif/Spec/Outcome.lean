import Verif.Spec.Delivered

/-!
# How a read of one channel ends

The error or panic of a read, from the segments of the file and its size. The values of a read that
does not fail are in `Verif.Spec.Delivered`.
-/

namespace Tedium

/-- Data that is not there. -/
def endOfFile : Fail := .err (.ioError .unexpectedEof)

/-- Values of `w` bytes at the positions `ps` are in a file of `size` bytes. -/
def Inside (w size : Nat) (ps : List Nat) : Prop := ∀ p ∈ ps, p + w ≤ size

instance (w size : Nat) (ps : List Nat) : Decidable (Inside w size ps) :=
  inferInstanceAs (Decidable (∀ p ∈ ps, p + w ≤ size))

/-- How reading channel number `i` (with layout `m`) of a block fails, in a file of `size` bytes, when
    `skip` samples are skipped and `room` values are wanted. The values that are wanted must be there;
    the reader of interleaved data reads one row more. -/
def DataBlock.fault (supported : List DataType) (natural : DataType) (w size : Nat) (b : DataBlock) (i : Nat)
    (m : RawDataMeta) (skip room : Nat) : Option Fail :=
  if m.dataType ∉ supported then some (.err (.dataTypeMismatch m.dataType natural))
  else match b.layout with
    | .contigious =>
      if 2 ^ 64 ≤ (stepChunks b.channels i w).sum then some (.panic .overflow)
      else if (b.channels.map (·.numberOfValues)).headD 0 = 0 then some (.panic .divByZero)
      else if Inside w size ((b.delivered i m w skip).take room) then none
      else some endOfFile
    | .interleaved =>
      if 2 ^ 63 ≤ skip * (stepWidths b.channels i w).sum then some (.panic .overflow)
      else if Inside w size ((b.delivered i m w skip).take (room + 1)) then none
      else some endOfFile

namespace SegSpec

/-- How a read from sample `start` fails in the last segment of `pre`: it does not, unless the channel
    has a sample with number `start` or more there. -/
def faultIn (supported : List DataType) (natural : DataType) (w size : Nat) (pre : List Segment) (path : Text)
    (start room : Nat) : Option Fail :=
  if 0 < samplesIn pre path ∧ start < sampleCount pre path then
    match blockOf pre, (active pre).idxOf? path, layoutOf (entries pre) path with
    | some b, some i, some m => b.fault supported natural w size i m (start - sampleCount pre.dropLast path) room
    | _, _, _ => none
  else none

/-- How a read of `room` values from sample `start` fails: in the first segment in which it fails, among
    the ones that it needs. -/
def readFault (supported : List DataType) (natural : DataType) (w size : Nat) (path : Text) (start : Nat) :
    List (List Segment) → Nat → Option Fail
  | [], _ => none
  | pre :: rest, room =>
    if room = 0 then none
    else match faultIn supported natural w size pre path start room with
      | some e => some e
      | none => readFault supported natural w size path start rest
          (room - (deliveredIn w pre path start).length)

/-- In every segment with samples of a channel the raw data is declared to be at addresses below `2 ^ 63`,
    the rows are shorter than that, and the channel has fewer samples. -/
def Addressable (w : Nat) (segs : List Segment) (path : Text) : Prop :=
  ∀ pre ∈ dataPrefixes segs, 0 < samplesIn pre path → samplesIn pre path < 2 ^ 63 ∧
    (∀ b ∈ blockOf pre, b.start + b.length < 2 ^ 63) ∧
    ∀ i, (active pre).idxOf? path = some i → (stepWidths (activeLayouts pre) i w).sum < 2 ^ 63

end SegSpec
end Tedium
