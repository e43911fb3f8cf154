import Verif.Model.MetaData

/-! # Data blocks (`src/raw_data/mod.rs:28-187`) -/

namespace Tedium

/-- `src/raw_data/mod.rs:29-32` -/
inductive DataLayout where
  | interleaved
  | contigious
  deriving DecidableEq, Repr, Inhabited

/-- `src/raw_data/mod.rs:53-56` -/
inductive ChunkSize where
  | fixed (n : Nat)
  | variable (n : Nat)
  deriving DecidableEq, Repr

/-- `checked_add` with `ChunkSizeOverflow` (`src/raw_data/mod.rs:69,74,82,88`) -/
def chunkAdd (a b : Nat) : R Nat :=
  if a + b < u64Lim then .ok (a + b) else R.err .chunkSizeOverflow

/-- `src/raw_data/mod.rs:64-94` `ChunkSize::combine` -/
def ChunkSize.combine (self rhs : ChunkSize) : R ChunkSize :=
  match rhs with
  | .fixed size =>
    match self with
    | .fixed existing => do return .fixed (← chunkAdd existing size)
    | .variable existing => do return .variable (← chunkAdd existing size)
  | .variable size =>
    match self with
    | .fixed existing => do return .variable (← chunkAdd existing size)
    | .variable existing => do return .variable (← chunkAdd existing size)

/-- `src/raw_data/mod.rs:106-113`; `length` is a `NonZeroU64`. -/
structure DataBlock where
  start : Nat
  length : Nat
  layout : DataLayout
  channels : List RawDataMeta
  byteOrder : Endian
  deriving DecidableEq, Repr

namespace DataBlock

/-- `src/raw_data/mod.rs:120-152` `from_segment`. The address is computed with plain `+`, which panics
    on overflow when overflow checks are on. -/
def fromSegment (s : Segment) (segmentStart : Nat) (channels : List RawDataMeta) : R DataBlock :=
  let byteOrder := if s.toc.bigEndian then Endian.big else Endian.little
  let layout := if s.toc.dataIsInterleaved then DataLayout.interleaved else DataLayout.contigious
  if s.rawDataOffset > s.nextSegmentOffset then R.err .invalidRawOffset
  else
    let length := s.nextSegmentOffset - s.rawDataOffset
    if length = 0 then R.err .zeroLengthDataBlock
    else if channels.isEmpty then R.err .noActiveChannelsInDataBlock
    else
      let start := s.rawDataOffset + leadInBytes + segmentStart
      if start < u64Lim then .ok { start, length, layout, channels, byteOrder }
      else R.panic .overflow

/-- the loop body of `src/raw_data/mod.rs:157-174` over the remaining channels -/
def chunkSizeFrom (size : ChunkSize) : List RawDataMeta → R ChunkSize
  | [] => .ok size
  | c :: cs =>
    match c.totalSizeBytes with
    | some total => do chunkSizeFrom (← size.combine (.variable total)) cs
    | none =>
      let values := c.numberOfValues * c.dataType.size
      if values < u64Lim then do chunkSizeFrom (← size.combine (.fixed values)) cs
      else R.err .chunkSizeOverflow

/-- `src/raw_data/mod.rs:157-174` `chunk_size` -/
def chunkSize (b : DataBlock) : R ChunkSize := chunkSizeFrom (.fixed 0) b.channels

/-- `src/raw_data/mod.rs:178-187` `number_of_chunks` -/
def numberOfChunks (b : DataBlock) : R Nat := do
  match ← b.chunkSize with
  | .fixed 0 => return 0
  | .fixed size => return b.length / size
  | .variable _ => return 1

end DataBlock
end Tedium
