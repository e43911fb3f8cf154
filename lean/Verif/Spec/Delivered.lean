import Verif.Spec.Samples

/-!
# Which values a read delivers

What `read_channel_from` makes of a file, byte position by byte position, for every layout of the
segments and every number of samples to skip. It differs from the samples of the channel
(`Verif.Spec.Samples`) in three points:

* a value of the channel that is read takes `w` bytes, its size in memory, which for timestamps is
  not the size the index computes with;
* in contiguous data, the samples to skip are divided into chunks with the number of values that the
  *first* channel has per chunk;
* in interleaved data, all rows of the raw data are read, also when the channel has fewer or more
  samples.
-/

namespace Tedium

/-- The bytes by which the reader of channel number `i` steps over one value of each channel. -/
def stepWidths (chs : List RawDataMeta) (i w : Nat) : List Nat :=
  chs.mapIdx (fun j m => if j = i then w else m.dataType.size)

/-- The bytes by which it steps over one chunk of each channel. -/
def stepChunks (chs : List RawDataMeta) (i w : Nat) : List Nat :=
  chs.mapIdx (fun j m => m.numberOfValues * if j = i then w else m.dataType.size)

namespace DataBlock

/-- The number of values that are skipped in contiguous data for `skip` samples: whole chunks of the
    first channel, and then at most one chunk. -/
def skippedFor (first n skip : Nat) : Nat := skip / first * n + min (skip % first) n

/-- The positions from which values of channel number `i` (with layout `m`) are taken when `skip`
    samples of the block are to be skipped. -/
def delivered (b : DataBlock) (i : Nat) (m : RawDataMeta) (w skip : Nat) : List Nat :=
  match b.layout with
  | .interleaved =>
    let row := (stepWidths b.channels i w).sum
    ((List.range (b.length / row)).drop skip).map fun r =>
      b.start + r * row + ((stepWidths b.channels i w).take i).sum
  | .contigious =>
    let n := m.numberOfValues
    let first := (b.channels.map (·.numberOfValues)).headD 0
    let chunk := (stepChunks b.channels i w).sum
    ((List.range (n * (b.length / chunk))).drop (skippedFor first n skip)).map fun s =>
      b.start + s / n * chunk + ((stepChunks b.channels i w).take i).sum + s % n * w

end DataBlock

/-- A value in a file: the position of its first byte and its byte order. -/
abbrev Cell := Endian × Nat

/-- The value of a cell of `w` bytes. -/
def Cell.value {α : Type} (dec : Endian → Bytes → α) (w : Nat) (f : Bytes) (c : Cell) : α :=
  dec c.1 ((f.drop c.2).take w)

/-- Two cells of `w` bytes that always hold the same value. -/
def Cell.Same (w : Nat) (c d : Cell) : Prop := c.2 = d.2 ∧ (c.1 = d.1 ∨ w = 1)

namespace SegSpec

/-- The cells that a read from sample `start` visits in the last segment of `pre`: none, unless the
    channel has a sample with number `start` or more there. -/
def deliveredIn (w : Nat) (pre : List Segment) (path : Text) (start : Nat) : List Cell :=
  if 0 < samplesIn pre path ∧ start < sampleCount pre path then
    match blockOf pre, (active pre).idxOf? path, layoutOf (entries pre) path with
    | some b, some i, some m =>
      (b.delivered i m w (start - sampleCount pre.dropLast path)).map fun p => (b.byteOrder, p)
    | _, _, _ => []
  else []

/-- The cells that a read from sample `start` visits in a file. -/
def delivered (w : Nat) (segs : List Segment) (path : Text) (start : Nat) : List Cell :=
  (dataPrefixes segs).flatMap fun pre => deliveredIn w pre path start

/-- The cells of all samples of a channel of a file, from the format (see `channelSamples`). -/
def sampleCells (segs : List Segment) (path : Text) : List Cell :=
  (dataPrefixes segs).flatMap fun pre =>
    match blockOf pre, (active pre).idxOf? path, layoutOf (entries pre) path with
    | some b, some i, some m => (List.range (samplesIn pre path)).map fun s => (b.byteOrder, b.samplePos i m s)
    | _, _, _ => []

/-- The last segment of `pre` can be read for a channel: the channel has a type that can be read as
    the wanted one, the raw data is inside the file, and the computations of the reader stay within
    64 bits and do not divide by zero. -/
structure Served (supported : List DataType) (w : Nat) (f : Bytes) (pre : List Segment) (path : Text)
    (start : Nat) : Prop where
  stored : ∃ m, layoutOf (entries pre) path = some m ∧ m.dataType ∈ supported
  inside : ∃ b, blockOf pre = some b ∧ b.start + b.length ≤ f.length
  contiguous : (∃ s, pre.getLast? = some s ∧ s.toc.dataIsInterleaved = false) →
    (∃ m0, (activeLayouts pre).head? = some m0 ∧ 0 < m0.numberOfValues) ∧
    ∀ i, (active pre).idxOf? path = some i → (stepChunks (activeLayouts pre) i w).sum < 2 ^ 64
  interleaved : (∃ s, pre.getLast? = some s ∧ s.toc.dataIsInterleaved = true) →
    ∀ i, (active pre).idxOf? path = some i →
      (start - sampleCount pre.dropLast path) * (stepWidths (activeLayouts pre) i w).sum < 2 ^ 63

/-- All segments that a read of `n` values from sample `start` on gets to are `Served`: the ones in
    which the channel has a sample with number `start` or more, until `n` values are there. -/
def ServedIn (supported : List DataType) (w : Nat) (f : Bytes) (segs : List Segment) (path : Text)
    (start n : Nat) : Prop :=
  ∀ pre ∈ dataPrefixes segs, path ∈ active pre → 0 < samplesIn pre path → start < sampleCount pre path →
    (delivered w pre.dropLast path start).length < max n 1 → Served supported w f pre path start

/-- Two files of the same size that differ in raw data only. -/
def SameMetaData (segs : List Segment) (f g : Bytes) : Prop :=
  f.length = g.length ∧ ∀ p, (∀ pre ∈ dataPrefixes segs, ∀ b ∈ blockOf pre,
    ¬ (b.start ≤ p ∧ p < b.start + b.length)) → f[p]? = g[p]?

end SegSpec

/-- The storage types whose values have a fixed size in the file that is also their size in memory. -/
def Format.fixedTy : STy → Bool
  | .extended | .string => false
  | _ => true

end Tedium
