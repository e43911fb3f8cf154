import Verif.Spec.Segments

/-!
# Where the samples of a channel are

The place of every sample of a channel in a file, and the value it has there, from the TDMS format:
contiguous data stores, chunk after chunk, all values of the first channel, then all values of the
second channel, and so on; interleaved data stores one value per channel, row after row.
-/

namespace Tedium.Format

/-- The number of bytes of one value in the file, for the types with a fixed size. -/
def bytesOf : DataType → Nat
  | .i8 | .u8 | .boolean => 1
  | .i16 | .u16 => 2
  | .i32 | .u32 | .singleFloat | .singleFloatWithUnit => 4
  | .i64 | .u64 | .doubleFloat | .doubleFloatWithUnit | .complexSingleFloat => 8
  | .complexDoubleFloat | .timestamp => 16
  | _ => 0

/-- The integers, floats, complex floats and booleans. -/
def ordinary : DataType → Bool
  | .i8 | .u8 | .boolean | .i16 | .u16 | .i32 | .u32 | .singleFloat | .singleFloatWithUnit
  | .i64 | .u64 | .doubleFloat | .doubleFloatWithUnit | .complexSingleFloat | .complexDoubleFloat => true
  | _ => false

/-- The value that some bytes are, for the types whose values have a fixed size. -/
def decode : (t : STy) → Endian → Bytes → t.Val
  | .i8, e, bs | .u8, e, bs => BitVec.ofNat 8 (decNat e bs)
  | .i16, e, bs | .u16, e, bs => BitVec.ofNat 16 (decNat e bs)
  | .i32, e, bs | .u32, e, bs | .f32, e, bs => BitVec.ofNat 32 (decNat e bs)
  | .i64, e, bs | .u64, e, bs | .f64, e, bs => BitVec.ofNat 64 (decNat e bs)
  | .bool, _, bs => bs.headD 0 != 0
  | .extended, e, bs | .timestamp, e, bs => BitVec.ofNat 128 (decNat e bs)
  | .complex32, e, bs => (⟨BitVec.ofNat 32 (decNat e (bs.take 4)), BitVec.ofNat 32 (decNat e (bs.drop 4))⟩
      : Complex (BitVec 32))
  | .complex64, e, bs => (⟨BitVec.ofNat 64 (decNat e (bs.take 8)), BitVec.ofNat 64 (decNat e (bs.drop 8))⟩
      : Complex (BitVec 64))
  | .string, _, _ => ([] : Text)

/-- The storage types of the integers, floats, complex floats and booleans. -/
def ordinaryTy : STy → Bool
  | .extended | .timestamp | .string => false
  | _ => true

end Tedium.Format

namespace Tedium

/-- The bytes of one chunk of contiguous data. -/
def chunkBytesOf (chs : List RawDataMeta) : Nat :=
  (chs.map (fun m => m.numberOfValues * Format.bytesOf m.dataType)).sum

/-- The bytes of one row of interleaved data. -/
def rowBytesOf (chs : List RawDataMeta) : Nat :=
  (chs.map (fun m => Format.bytesOf m.dataType)).sum

namespace DataBlock

/-- The position in the file of sample `s` of channel number `i` (with layout `m`) of a block. -/
def samplePos (b : DataBlock) (i : Nat) (m : RawDataMeta) (s : Nat) : Nat :=
  match b.layout with
  | .interleaved => b.start + s * rowBytesOf b.channels + rowBytesOf (b.channels.take i)
  | .contigious =>
    b.start + s / m.numberOfValues * chunkBytesOf b.channels + chunkBytesOf (b.channels.take i)
      + s % m.numberOfValues * Format.bytesOf m.dataType

/-- The bytes of sample `s`. -/
def sampleBytes (f : Bytes) (b : DataBlock) (i : Nat) (m : RawDataMeta) (s : Nat) : Bytes :=
  (f.drop (b.samplePos i m s)).take (Format.bytesOf m.dataType)

/-- The samples of channel `i` of a block: `values per chunk × chunks` of them. -/
def samples {α : Type} (dec : Endian → Bytes → α) (f : Bytes) (b : DataBlock) (i : Nat)
    (m : RawDataMeta) (count : Nat) : List α :=
  (List.range count).map (fun s => dec b.byteOrder (b.sampleBytes f i m s))

/-- Conditions that keep the size computations of a block read within 64 bits and the divisors
    positive: the first channel of a contiguous block has values, and the numbers of values per chunk
    and (for interleaved blocks) of samples are not astronomical. -/
structure Tame (b : DataBlock) (samples : Nat) : Prop where
  first : b.layout = .contigious → ∃ m0, b.channels.head? = some m0 ∧ 0 < m0.numberOfValues
  values : 24 * (b.channels.map (·.numberOfValues)).sum < 2 ^ 63
  rows : b.layout = .interleaved → 24 * b.channels.length * samples < 2 ^ 63

end DataBlock

/-- What becomes of a buffer that receives the values `xs` from its start: cells beyond the values
    keep their contents, values beyond the buffer are not stored. -/
def overlay {α : Type} (out xs : List α) : List α := xs.take out.length ++ out.drop xs.length

namespace SegSpec

/-- All samples of a channel of a file, in file order. -/
def channelSamples {α : Type} (dec : Endian → Bytes → α) (f : Bytes) (segs : List Segment)
    (path : Text) : List α :=
  (dataPrefixes segs).flatMap fun pre =>
    match blockOf pre, (active pre).idxOf? path, layoutOf (entries pre) path with
    | some b, some i, some m => b.samples dec f i m (samplesIn pre path)
    | _, _, _ => []

/-- The number of samples of a channel. -/
def sampleCount (segs : List Segment) (path : Text) : Nat :=
  ((dataPrefixes segs).map (fun pre => samplesIn pre path)).sum

/-- The conditions under which the samples of a channel in the last segment are found, when reading
    starts at sample `start`: the raw data is inside the file, all channels with data in the segment
    have a type with a fixed size, and

    * for contiguous data, the first channel has values, and either no sample of the segment is
      skipped or the first channel has as many values per chunk as the channel that is read;
    * for interleaved data, the raw data consists of whole chunks of channels of equal length, i.e.
      it has as many rows as the channel has samples. -/
structure Readable (supported : List DataType) (f : Bytes) (pre : List Segment) (path : Text)
    (start : Nat) : Prop where
  stored : ∃ m, layoutOf (entries pre) path = some m ∧ m.dataType ∈ supported
  inside : ∃ b, blockOf pre = some b ∧ b.start + b.length ≤ f.length
  ordinary : ∀ m ∈ activeLayouts pre, Format.ordinary m.dataType = true ∧ m.totalSizeBytes = none
  contiguous : (∃ s, pre.getLast? = some s ∧ s.toc.dataIsInterleaved = false) →
    ∃ m0, (activeLayouts pre).head? = some m0 ∧ 0 < m0.numberOfValues ∧
      (start ≤ sampleCount pre.dropLast path ∨ m0.numberOfValues = valuesPerChunk pre path)
  interleaved : (∃ s, pre.getLast? = some s ∧ s.toc.dataIsInterleaved = true) →
    rawBytes pre / rowBytesOf (activeLayouts pre) = samplesIn pre path

/-- All segments in which the channel has samples with number `start` or more are readable. -/
def ReadableFrom (supported : List DataType) (f : Bytes) (segs : List Segment) (path : Text)
    (start : Nat) : Prop :=
  ∀ pre ∈ dataPrefixes segs, path ∈ active pre → start < sampleCount pre path →
    0 < samplesIn pre path → Readable supported f pre path start

/-- All segments that hold one of the `n` samples from number `start` on are readable (the sample
    number `start` counts even if `n` is 0: the code looks at its segment anyway). -/
def ReadableIn (supported : List DataType) (f : Bytes) (segs : List Segment) (path : Text)
    (start n : Nat) : Prop :=
  ∀ pre ∈ dataPrefixes segs, path ∈ active pre → start < sampleCount pre path →
    sampleCount pre.dropLast path < start + max n 1 →
    0 < samplesIn pre path → Readable supported f pre path start

/-- The last segment of `pre` is regular: its raw data is inside the file, its channels have types of
    fixed size and one common, positive number of values per chunk, and interleaved data consists of
    whole chunks. -/
structure Regular (f : Bytes) (pre : List Segment) : Prop where
  inside : ∃ b ∈ blockOf pre, b.start + b.length ≤ f.length
  ordinary : ∀ m ∈ activeLayouts pre, Format.ordinary m.dataType = true ∧ m.totalSizeBytes = none
  equal : ∀ m ∈ activeLayouts pre, 0 < m.numberOfValues ∧
    ∀ m' ∈ activeLayouts pre, m.numberOfValues = m'.numberOfValues
  whole : (∃ s ∈ pre.getLast?, s.toc.dataIsInterleaved = true) → chunkBytes pre ∣ rawBytes pre

/-- Two channels that are at the same point in every segment they share: as many values per chunk,
    and as many samples before. -/
def InStep (segs : List Segment) (p q : Text) : Prop :=
  ∀ pre ∈ dataPrefixes segs, p ∈ active pre → q ∈ active pre →
    valuesPerChunk pre p = valuesPerChunk pre q ∧
    sampleCount pre.dropLast p = sampleCount pre.dropLast q

end SegSpec
end Tedium
