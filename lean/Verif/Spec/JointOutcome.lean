import Verif.Spec.Jointly
import Verif.Spec.Outcome

/-!
# How a read of several channels ends

The error or panic of `read_channels_from`, from the segments of the file and its size. What a read that does
not fail stores is in `Verif.Spec.Jointly`.
-/

namespace Tedium

namespace DataBlock

/-- The positions of the values that are read from a block. In contiguous data they are the values that are stored.
    In interleaved data every channel that is read is read in every row, whether there is room for the value or
    not, and one row more is read than is stored, if there is one. -/
def touched (b : DataBlock) (w : Nat) (ts : List Taker) : List Nat :=
  match b.layout with
  | .contigious => (b.readChans ts).flatMap fun i => (b.offered w ts i).take (roomFor ts i)
  | .interleaved =>
    let widths := jointWidths b.channels (ts.map (·.chan)) w
    (List.range' (b.firstRow ts) (min (b.rowsRead w ts + 1) (b.length / widths.sum - b.firstRow ts))).flatMap fun r =>
      (b.readChans ts).map fun i => b.start + r * widths.sum + (widths.take i).sum

/-- The error for a channel of a type that cannot be read as the wanted one. -/
def mismatch (supported : List DataType) (natural : DataType) (b : DataBlock) (t : Taker) : Option Fail :=
  match b.channels[t.chan]? with
  | some m => if m.dataType ∈ supported then none else some (.err (.dataTypeMismatch m.dataType natural))
  | none => none

/-- How reading a block for some buffers fails, in a file of `size` bytes. `skipping` says that samples are to
    be skipped for some buffer of a channel of the block, which may be full already. -/
def jointFault (supported : List DataType) (natural : DataType) (w size : Nat) (b : DataBlock) (skipping : Bool)
    (ts : List Taker) : Option Fail :=
  match ts.findSome? (b.mismatch supported natural) with
  | some e => some e
  | none =>
    match b.layout with
    | .contigious =>
      let chunk := jointChunks b.channels (ts.map (·.chan)) w
      if 2 ^ 64 ≤ chunk.sum then some (.panic .overflow)
      else if chunk.sum = 0 then some (.panic .divByZero)
      else if b.firstCount = 0 ∧ ¬ (ts = [] ∧ skipping = true) then some (.panic .divByZero)
      else if Inside w size (b.touched w ts) then none
      else some endOfFile
    | .interleaved =>
      let widths := jointWidths b.channels (ts.map (·.chan)) w
      if widths.sum = 0 then some (.panic .divByZero)
      else if 2 ^ 63 ≤ b.firstRow ts * widths.sum then some (.panic .overflow)
      else if Inside w size (b.touched w ts) then none
      else some endOfFile

/-- How reading a block for a buffer without room fails: nothing is read, but the sizes are computed. -/
def emptyFault (b : DataBlock) (skipping : Bool) : Option Fail :=
  match b.layout with
  | .contigious =>
    let chunk := (b.channels.map fun m => m.numberOfValues * m.dataType.size).sum
    if 2 ^ 64 ≤ chunk then some (.panic .overflow)
    else if chunk = 0 then some (.panic .divByZero)
    else if b.firstCount = 0 ∧ skipping = false then some (.panic .divByZero)
    else none
  | .interleaved =>
    if (b.channels.map fun m => m.dataType.size).sum = 0 then some (.panic .divByZero) else none

end DataBlock

namespace SegSpec

/-- Samples are to be skipped in the last segment of `pre` for some buffer. -/
def skipsSome (pre : List Segment) (start : Nat) (bufs : List Buffer) : Bool :=
  bufs.any fun x => wanted pre start x.1 && decide (sampleCount pre.dropLast x.1 < start)

/-- How a read of several channels fails when the segments at the ends of `pres` are read and the buffers
    have come to the cells `prog`: in the first block in which it fails, among the ones that it gets to. -/
def jointFault (supported : List DataType) (natural : DataType) (w size start : Nat) (bufs : List Buffer) :
    List (List Segment) → List Nat → Option Fail
  | [], _ => none
  | pre :: pres, prog =>
    match blockOf pre with
    | none => jointFault supported natural w size start bufs pres prog
    | some b =>
      if bufs.any (fun x => wanted pre start x.1) then
        let ts := (takers pre start bufs prog).filterMap id
        match b.jointFault supported natural w size (skipsSome pre start bufs) ts with
        | some e => some e
        | none =>
          let prog := progressed pre start bufs prog (b.counted w ts)
          if (bufs.zip prog).all (fun x => decide (x.1.2 ≤ x.2)) then none
          else jointFault supported natural w size start bufs pres prog
      else jointFault supported natural w size start bufs pres prog

/-- How a read of several channels of a file fails. -/
def readsFault (supported : List DataType) (natural : DataType) (w size : Nat) (segs : List Segment)
    (bufs : List Buffer) (start : Nat) : Option Fail :=
  jointFault supported natural w size start bufs (dataPrefixes segs) (bufs.map fun _ => 0)

/-- In every segment with raw data it is declared to be at addresses below `2 ^ 63`, there are fewer than `2 ^ 59`
    channels, and the channels that are read have fewer than `2 ^ 63` samples. -/
def JointlyAddressable (segs : List Segment) (bufs : List Buffer) : Prop :=
  ∀ pre ∈ dataPrefixes segs, (∀ b ∈ blockOf pre, b.start + b.length < 2 ^ 63 ∧ b.channels.length < 2 ^ 59) ∧
    ∀ x ∈ bufs, samplesIn pre x.1 < 2 ^ 63

end SegSpec
end Tedium
