import Verif.Spec.Open
import Verif.Spec.Samples
import Verif.Spec.Delivered
import Verif.Spec.Jointly

/-! # The same file in other byte orders -/

namespace Tedium

/-- What a segment says, apart from byte order and format version: raw data present, interleaved, new
    object list, offset of the raw data, metadata, and the number of bytes that follow the metadata. -/
def FileSegment.shape (s : FileSegment) : Bool × Bool × Bool × Nat × MetaData × Nat :=
  (s.toc.containsRawData, s.toc.dataIsInterleaved, s.toc.containsNewObjectList, s.rawOffset, s.metaData,
    s.rest.length)

/-- The bytes of one value in the other byte order; both parts of a complex number are reversed
    separately. -/
def Format.swapped (t : DataType) (bs : Bytes) : Bytes :=
  match t with
  | .complexSingleFloat => (bs.take 4).reverse ++ (bs.drop 4).reverse
  | .complexDoubleFloat => (bs.take 8).reverse ++ (bs.drop 8).reverse
  | _ => bs.reverse

namespace SegSpec

/-- Every value in the raw data of the files `f` and `f'` has the same bytes, in the byte orders that the
    segments name. -/
def SameValues (f : Bytes) (segs : List Segment) (f' : Bytes) (segs' : List Segment) : Prop :=
  ∀ (k : Nat) (pre pre' : List Segment) (b b' : DataBlock),
    (dataPrefixes segs)[k]? = some pre → (dataPrefixes segs')[k]? = some pre' →
    blockOf pre = some b → blockOf pre' = some b' →
    ∀ (p : Text) (i : Nat) (m : RawDataMeta) (n : Nat), (active pre)[i]? = some p →
      layoutOf (entries pre) p = some m → n < samplesIn pre p →
      b'.sampleBytes f' i m n =
        if b.byteOrder = b'.byteOrder then b.sampleBytes f i m n
        else Format.swapped m.dataType (b.sampleBytes f i m n)

/-- Every value that a read of `n` values from sample `start` on gets is a value of the raw data, of one of the wanted types: in
    every segment, each of the cells that the read visits there (until `n` values are there) is the place of some sample of
    some channel of that segment. -/
def DeliversValues (supported : List DataType) (w : Nat) (segs : List Segment) (path : Text) (start n : Nat) : Prop :=
  ∀ pre ∈ dataPrefixes segs,
    ∀ d ∈ (deliveredIn w pre path start).take (n - (delivered w pre.dropLast path start).length),
      ∃ (b : DataBlock) (q : Text) (j : Nat) (m : RawDataMeta) (s : Nat), blockOf pre = some b ∧
        (active pre)[j]? = some q ∧ layoutOf (entries pre) q = some m ∧ m.dataType ∈ supported ∧
        s < samplesIn pre q ∧ d.2 = b.samplePos j m s

/-- The same for a read of several channels: each place in the raw data of a segment from which a value is stored in
    a buffer is the place of some sample of some channel of that segment, of one of the wanted types. -/
def StoresValues (supported : List DataType) (w : Nat) (segs : List Segment) (bufs : List Buffer) (start : Nat) : Prop :=
  ∀ pre ∈ dataPrefixes segs, ∀ b, blockOf pre = some b → ∀ as ∈ storedFrom w segs bufs start, ∀ a ∈ as,
    b.start ≤ a.2.2 → a.2.2 < b.start + b.length →
      ∃ (q : Text) (j : Nat) (m : RawDataMeta) (s : Nat), (active pre)[j]? = some q ∧
        layoutOf (entries pre) q = some m ∧ m.dataType ∈ supported ∧ s < samplesIn pre q ∧ a.2.2 = b.samplePos j m s

end SegSpec
end Tedium
