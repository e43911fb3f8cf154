import Verif.Spec.Segments
import Verif.Spec.WellFormed

/-! # The segments of a byte string -/

namespace Tedium.SegSpec

/-- The byte string holds the segments `segs` one after the other from position `pos`: each header
    says where the next one starts. `last` is what reading reports after the last one
    (`endOfFile` when fewer than four bytes are left). -/
inductive Parses (al : Alloc) (f : Bytes) : (pos : Nat) → (segs : List Segment) → (last : Fail) → Prop
  | done {pos : Nat} {last : Fail} : Segment.read al f pos = .error last → Parses al f pos [] last
  | segment {pos q : Nat} {s : Segment} {segs : List Segment} {last : Fail} :
      Segment.read al f pos = .ok (s, q) →
      Parses al f (pos + (28 + s.nextSegmentOffset)) segs last → Parses al f pos (s :: segs) last

end Tedium.SegSpec

namespace Tedium

/-- One segment as it lies in a file: lead-in, metadata section, and whatever follows up to the next
    segment (raw data, padding). Offset and flags are those of the lead-in. -/
structure FileSegment where
  endian : Endian
  toc : ToC
  version : Nat
  rawOffset : Nat
  metaData : MetaData
  rest : Bytes

namespace FileSegment

/-- The values fit into their fields, and the endian flag says what is used. -/
structure Fits (s : FileSegment) : Prop where
  flag : s.toc.bigEndian = s.endian.isBig
  version : s.version < 2 ^ 32
  raw : s.rawOffset < 2 ^ 64
  next : s.metaData.size + s.rest.length < 2 ^ 64
  metaData : s.metaData.Fits

/-- The 28 bytes of the lead-in and the metadata section. -/
def head (s : FileSegment) : Bytes :=
  tdsmTag ++ (s.toc.asBytes ++ (encNat s.endian 4 s.version ++
    (encNat s.endian 8 (s.metaData.size + s.rest.length) ++
      (encNat s.endian 8 s.rawOffset ++ s.metaData.write s.endian))))

/-- The bytes of the segment. -/
def encode (s : FileSegment) : Bytes := s.head ++ s.rest

/-- What the index gets to know of it. -/
def segment (s : FileSegment) : Segment where
  toc := s.toc
  nextSegmentOffset := s.metaData.size + s.rest.length
  rawDataOffset := s.rawOffset
  metaData := some s.metaData

end FileSegment
end Tedium
