import Verif.Spec.Delivered

/-!
# What a read of several channels stores

What `read_channels_from` stores in which cells of the buffers, byte position by byte position, for every
layout of the segments, every choice of channels (also when one is named twice) and every size of the buffers.

The buffers that still have room take part in reading a block (`Taker`). In a block

* the values of a channel go to the last buffer that asks for it;
* the samples to skip are handed out in the order of the channels of the block, not of the buffers: the first
  channel that is read skips what the first buffer should skip, and so on (`skipFor`);
* in contiguous data, chunks that some buffer skips are skipped for all of them;
* in interleaved data, reading stops at the first row of which nothing is stored;
* every buffer whose channel is in the block then moves forward by one and the same number of cells
  (`counted`): for contiguous data the number of values that the last channel got, for
  interleaved data the number of rows.
-/

namespace Tedium

/-- The bytes by which the reader of the channels `is` steps over one value of each channel. -/
def jointWidths (chs : List RawDataMeta) (is : List Nat) (w : Nat) : List Nat :=
  chs.mapIdx (fun j m => if is.contains j then w else m.dataType.size)

/-- The bytes by which it steps over one chunk of each channel. -/
def jointChunks (chs : List RawDataMeta) (is : List Nat) (w : Nat) : List Nat :=
  chs.mapIdx (fun j m => m.numberOfValues * if is.contains j then w else m.dataType.size)

/-- A buffer that takes part in reading a block: the number of its channel in the block, the number of samples
    that it should skip there, and its free cells. -/
structure Taker where
  chan : Nat
  skip : Nat
  room : Nat
  deriving DecidableEq, Repr

/-- The samples that are skipped for channel number `i`. -/
def skipFor (ts : List Taker) (i : Nat) : Nat :=
  (ts[(List.range i).countP (fun j => (ts.map (·.chan)).contains j)]?.map (·.skip)).getD 0

/-- The free cells for channel number `i`: those of the last buffer that asks for it. -/
def roomFor (ts : List Taker) (i : Nat) : Nat :=
  ((ts.reverse.find? (fun t => t.chan == i)).map (·.room)).getD 0

namespace DataBlock

/-- The channels of a block that are read, in the order of the block. -/
def readChans (b : DataBlock) (ts : List Taker) : List Nat :=
  (List.range b.channels.length).filter (fun j => (ts.map (·.chan)).contains j)

/-- The first row of interleaved data that is read. -/
def firstRow (b : DataBlock) (ts : List Taker) : Nat :=
  ((b.readChans ts).map (skipFor ts)).min?.getD 0

/-- The number of rows of interleaved data that are read with something stored: row after row, as long as there is
    a buffer with room that does not skip the row. -/
def rowsRead (b : DataBlock) (w : Nat) (ts : List Taker) : Nat :=
  let rows := b.length / (jointWidths b.channels (ts.map (·.chan)) w).sum
  ((List.range' (b.firstRow ts) (rows - b.firstRow ts)).takeWhile fun r =>
    (b.readChans ts).any fun i => decide (skipFor ts i ≤ r ∧ r < skipFor ts i + roomFor ts i)).length

/-- The number of values per chunk of the first channel. -/
def firstCount (b : DataBlock) : Nat := (b.channels.map (·.numberOfValues)).headD 0

/-- The positions from which values of channel number `i` are offered to the buffer that takes them. -/
def offered (b : DataBlock) (w : Nat) (ts : List Taker) (i : Nat) : List Nat :=
  match b.channels[i]? with
  | none => []
  | some m =>
    match b.layout with
    | .interleaved =>
      let widths := jointWidths b.channels (ts.map (·.chan)) w
      ((List.range (b.firstRow ts + b.rowsRead w ts)).drop (skipFor ts i)).map fun r =>
        b.start + r * widths.sum + (widths.take i).sum
    | .contigious =>
      let chunk := jointChunks b.channels (ts.map (·.chan)) w
      (List.range (b.length / chunk.sum)).flatMap fun c =>
        if ts.all (fun t => decide (t.skip / b.firstCount ≤ c)) then
          ((List.range m.numberOfValues).drop
            (if c = skipFor ts i / b.firstCount then skipFor ts i % b.firstCount else 0)).map fun s =>
            b.start + c * chunk.sum + (chunk.take i).sum + s * w
        else []

/-- By how many cells all buffers move forward. -/
def counted (b : DataBlock) (w : Nat) (ts : List Taker) : Nat :=
  match b.layout with
  | .interleaved => b.rowsRead w ts
  | .contigious =>
    match (b.readChans ts).getLast? with
    | none => 0
    | some i => min (b.offered w ts i).length (roomFor ts i)

end DataBlock

/-- A buffer: the path of its channel and its number of cells. -/
abbrev Buffer := Text × Nat

namespace SegSpec

/-- A channel is needed in the last segment of `pre`: it has a sample with number `start` or more there. -/
def wanted (pre : List Segment) (start : Nat) (path : Text) : Bool :=
  decide (0 < samplesIn pre path ∧ start < sampleCount pre path)

/-- The part of a buffer that has come to cell `p` in reading the last segment of `pre`. -/
def takerOf (pre : List Segment) (start : Nat) (x : Buffer × Nat) : Option Taker :=
  if wanted pre start x.1.1 && decide (x.2 < x.1.2) then
    some { chan := ((active pre).idxOf? x.1.1).getD 0, skip := start - sampleCount pre.dropLast x.1.1,
           room := x.1.2 - x.2 }
  else none

/-- The parts of all buffers. -/
def takers (pre : List Segment) (start : Nat) (bufs : List Buffer) (prog : List Nat) : List (Option Taker) :=
  (bufs.zip prog).map (takerOf pre start)

/-- What is stored in buffer number `s` from block `b`: pairs of a cell of the buffer and a cell of the file.
    Nothing if a later buffer takes the same channel. -/
def storedIn (b : DataBlock) (w : Nat) (tks : List (Option Taker)) (prog : List Nat) (s : Nat) : List (Nat × Cell) :=
  match tks[s]? with
  | some (some t) =>
    if (tks.drop (s + 1)).any (fun t' => (t'.map (·.chan)) == some t.chan) then []
    else ((b.offered w (tks.filterMap id) t.chan).take t.room).mapIdx fun k p => (prog.getD s 0 + k, b.byteOrder, p)
  | _ => []

/-- The cells that the buffers have come to after the last segment of `pre`. -/
def progressed (pre : List Segment) (start : Nat) (bufs : List Buffer) (prog : List Nat) (n : Nat) : List Nat :=
  (bufs.zip prog).map fun x => if wanted pre start x.1.1 then x.2 + n else x.2

/-- Everything that is stored in the buffers, in order, when the segments at the ends of `pres` are
    read and the buffers have come to the cells `prog`. -/
def stored (w start : Nat) (bufs : List Buffer) : List (List Segment) → List Nat → List (List (Nat × Cell))
  | [], _ => bufs.map fun _ => []
  | pre :: pres, prog =>
    match blockOf pre with
    | none => stored w start bufs pres prog
    | some b =>
      if bufs.any (fun x => wanted pre start x.1) then
        let tks := takers pre start bufs prog
        let now := (List.range bufs.length).map (storedIn b w tks prog)
        let prog := progressed pre start bufs prog (b.counted w (tks.filterMap id))
        if (bufs.zip prog).all (fun x => decide (x.1.2 ≤ x.2)) then now
        else List.zipWith (· ++ ·) now (stored w start bufs pres prog)
      else stored w start bufs pres prog

/-- The cells that the buffers have come to when a read has gone through the segments at the ends of `pres`;
    `none` if the read ends before, because all buffers have come to their end. -/
def goesOn (w start : Nat) (bufs : List Buffer) : List (List Segment) → List Nat → Option (List Nat)
  | [], prog => some prog
  | pre :: pres, prog =>
    match blockOf pre with
    | none => goesOn w start bufs pres prog
    | some b =>
      if bufs.any (fun x => wanted pre start x.1) then
        let ts := (takers pre start bufs prog).filterMap id
        let prog := progressed pre start bufs prog (b.counted w ts)
        if (bufs.zip prog).all (fun x => decide (x.1.2 ≤ x.2)) then none
        else goesOn w start bufs pres prog
      else goesOn w start bufs pres prog

/-- A buffer after storing values from the file. -/
def storeAll {α : Type} (value : Cell → α) (out : List α) (as : List (Nat × Cell)) : List α :=
  as.foldl (fun o a => o.set a.1 (value a.2)) out

/-- What a cell of a buffer gets: the last that is stored there. -/
def lastAt (as : List (Nat × Cell)) (k : Nat) : Option Cell :=
  (as.reverse.find? (fun a => a.1 == k)).map (·.2)

end SegSpec

/-- A block can be read for some buffers: their channels have types that can be read as the wanted one, the raw data is
    inside the file, and the computations of the reader stay within 64 bits and do not divide by zero. -/
structure DataBlock.ServesTakers (supported : List DataType) (w : Nat) (f : Bytes) (b : DataBlock) (ts : List Taker) :
    Prop where
  typed : ∀ t ∈ ts, ∃ m, b.channels[t.chan]? = some m ∧ m.dataType ∈ supported
  inside : b.start + b.length ≤ f.length
  contiguous : b.layout = .contigious → 0 < b.firstCount ∧
    0 < (jointChunks b.channels (ts.map (·.chan)) w).sum ∧ (jointChunks b.channels (ts.map (·.chan)) w).sum < 2 ^ 64
  interleaved : b.layout = .interleaved → 0 < (jointWidths b.channels (ts.map (·.chan)) w).sum ∧
    b.firstRow ts * (jointWidths b.channels (ts.map (·.chan)) w).sum < 2 ^ 63

namespace SegSpec

/-- The blocks that a read gets to, with the buffers that take part there. -/
def readBlocks (w start : Nat) (bufs : List Buffer) : List (List Segment) → List Nat → List (DataBlock × List Taker)
  | [], _ => []
  | pre :: pres, prog =>
    match blockOf pre with
    | none => readBlocks w start bufs pres prog
    | some b =>
      if bufs.any (fun x => wanted pre start x.1) then
        let ts := (takers pre start bufs prog).filterMap id
        let prog := progressed pre start bufs prog (b.counted w ts)
        (b, ts) :: if (bufs.zip prog).all (fun x => decide (x.1.2 ≤ x.2)) then []
          else readBlocks w start bufs pres prog
      else readBlocks w start bufs pres prog

/-- A read of several channels of a file can be done: all blocks that it gets to can be read. -/
def JointlyServed (supported : List DataType) (w : Nat) (f : Bytes) (segs : List Segment) (bufs : List Buffer)
    (start : Nat) : Prop :=
  ∀ x ∈ readBlocks w start bufs (dataPrefixes segs) (bufs.map fun _ => 0), x.1.ServesTakers supported w f x.2

/-- What a read of several channels of a file stores in the buffers. -/
def storedFrom (w : Nat) (segs : List Segment) (bufs : List Buffer) (start : Nat) : List (List (Nat × Cell)) :=
  stored w start bufs (dataPrefixes segs) (bufs.map fun _ => 0)

end SegSpec
end Tedium
