import Verif.Model.Property

/-! # Segment metadata (`src/meta_data.rs`, `src/io/reader.rs`, `src/io/writer.rs`) -/

namespace Tedium

/-- `src/meta_data.rs:18` `LEAD_IN_BYTES` -/
def leadInBytes : Nat := 28

/-! ## Table of contents -/

/-- `src/meta_data.rs:49-56` (`Default` is all false) -/
structure ToC where
  containsMetaData : Bool := false
  containsRawData : Bool := false
  containsDaqmxRawData : Bool := false
  dataIsInterleaved : Bool := false
  bigEndian : Bool := false
  containsNewObjectList : Bool := false
  deriving DecidableEq, Repr

/-- `src/meta_data.rs:58-62` `mask_bit_set` on a `u32` -/
def maskBitSet (value : Nat) (bit : Nat) : Bool := value &&& (1 <<< bit) != 0

/-- `src/meta_data.rs:64-68` `set_bits` -/
def setBits (input : Nat) (value : Bool) (bit : Nat) : Nat :=
  if value then input ||| (1 <<< bit) else input

namespace ToC

/-- `src/meta_data.rs:71-80` -/
def fromU32 (value : Nat) : ToC where
  containsMetaData := maskBitSet value 1
  containsRawData := maskBitSet value 3
  containsDaqmxRawData := maskBitSet value 7
  dataIsInterleaved := maskBitSet value 5
  bigEndian := maskBitSet value 6
  containsNewObjectList := maskBitSet value 2

/-- the word built by `src/meta_data.rs:83-89` -/
def toU32 (t : ToC) : Nat :=
  let toc := 0
  let toc := setBits toc t.containsMetaData 1
  let toc := setBits toc t.containsRawData 3
  let toc := setBits toc t.containsDaqmxRawData 7
  let toc := setBits toc t.dataIsInterleaved 5
  let toc := setBits toc t.bigEndian 6
  let toc := setBits toc t.containsNewObjectList 2
  toc

/-- `src/meta_data.rs:82-91` `as_bytes`; written byte by byte (`src/meta_data.rs:100-106`), so the word is
    little-endian with either writer. -/
def asBytes (t : ToC) : Bytes := encNat .little 4 t.toU32

end ToC

/-! ## Raw data index -/

/-- `src/meta_data.rs:329-334` -/
structure RawDataMeta where
  dataType : DataType
  numberOfValues : Nat
  totalSizeBytes : Option Nat := none
  deriving DecidableEq, Repr

/-- `src/meta_data.rs:270-274` -/
inductive RawDataIndex where
  | none
  | matchPrevious
  | rawData (m : RawDataMeta)
  deriving DecidableEq, Repr

namespace RawDataIndex

/-- `src/meta_data.rs:277-299` read -/
def read (e : Endian) : Rd RawDataIndex := do
  let rawIndex ← Rd.uint e 4
  if rawIndex = 0x00000000 then return .matchPrevious
  else if rawIndex = 0xFFFFFFFF then return .none
  else if 0x69120000 ≤ rawIndex ∧ rawIndex ≤ 0x6912FFFF then Rd.fail .daqmxChannelsNotSupported
  else if 0x69130000 ≤ rawIndex ∧ rawIndex ≤ 0x6913FFFF then Rd.fail .daqmxChannelsNotSupported
  else do
    let dataType ← readDataType e
    let _arrayDims ← Rd.uint e 4
    let numberOfValues ← Rd.uint e 8
    return .rawData { dataType, numberOfValues, totalSizeBytes := Option.none }

/-- `src/meta_data.rs:301-315` write -/
def write (e : Endian) : RawDataIndex → Bytes
  | .none => encNat e 4 0xFFFFFFFF
  | .matchPrevious => encNat e 4 0
  | .rawData m =>
    encNat e 4 20 ++ (writeDataType e m.dataType ++ (encNat e 4 1 ++ encNat e 8 m.numberOfValues))

/-- `src/meta_data.rs:317-325` size -/
def size : RawDataIndex → Nat
  | .none => 4
  | .matchPrevious => 4
  | .rawData _ => 3 * 4 + 8

end RawDataIndex

/-! ## Objects and metadata sections -/

/-- strings, as used for names and paths (`src/io/data_types/strings.rs:8-41`) -/
def readText (al : Alloc) (e : Endian) : Rd Text := (stringStorage al).read e
/-- strings, as used for names and paths (`src/io/data_types/strings.rs:42-52`) -/
def writeText (e : Endian) (t : Text) : Bytes := (stringStorage PropertyValue.anyAlloc).write e t
/-- `src/io/data_types/strings.rs:54-56` -/
def textSize (t : Text) : Nat := (stringStorage PropertyValue.anyAlloc).size t

/-- A counted loop `for _ in 0..n { v.push(x?) }` (`src/io/reader.rs:23-25`, `src/meta_data.rs:232-236`). -/
def Rd.many {α : Type} (x : Rd α) : Nat → Rd (List α)
  | 0 => Rd.pure []
  | n + 1 => do
    let a ← x
    let as ← Rd.many x n
    return a :: as

/-- `src/meta_data.rs:208-214` -/
structure ObjectMetaData where
  path : Text
  properties : List (Text × PropertyValue)
  rawDataIndex : RawDataIndex
  deriving DecidableEq, Repr

namespace ObjectMetaData

/-- `src/meta_data.rs:233-235` one name/value pair -/
def readProp (al : Alloc) (e : Endian) : Rd (Text × PropertyValue) := do
  let name ← readText al e
  let value ← PropertyValue.read al e
  return (name, value)

/-- `src/meta_data.rs:217-243` read -/
def read (al : Alloc) (e : Endian) : Rd ObjectMetaData := do
  let path ← readText al e
  let rawData ← RawDataIndex.read e
  let propertyCount ← Rd.uint e 4
  if al (.props propertyCount) then
    let properties ← Rd.many (readProp al e) propertyCount
    return { path, properties, rawDataIndex := rawData }
  else Rd.fail .propertyTableAllocationFailed

/-- `src/meta_data.rs:250-253` the loop over properties -/
def writeProps (e : Endian) : List (Text × PropertyValue) → Bytes
  | [] => []
  | (name, value) :: rest => writeText e name ++ (value.write e ++ writeProps e rest)

/-- `src/meta_data.rs:245-255` write; the count is cut to 32 bits by `as u32`. -/
def write (e : Endian) (o : ObjectMetaData) : Bytes :=
  writeText e o.path ++ (o.rawDataIndex.write e ++
    (encNat e 4 (o.properties.length % u32Lim) ++ writeProps e o.properties))

/-- `src/meta_data.rs:257-266` size -/
def size (o : ObjectMetaData) : Nat :=
  textSize o.path + o.rawDataIndex.size + 4 +
    (o.properties.map (fun (n, v) => textSize n + v.size)).sum

end ObjectMetaData

/-- `src/meta_data.rs:115-117` -/
structure MetaData where
  objects : List ObjectMetaData
  deriving DecidableEq, Repr

namespace MetaData

/-- `src/meta_data.rs:120-124` read, with `read_vec` (`src/io/reader.rs:16-27`) -/
def read (al : Alloc) (e : Endian) : Rd MetaData := do
  let objectLength ← Rd.uint e 4
  if al (.vec objectLength) then
    let objects ← Rd.many (ObjectMetaData.read al e) objectLength
    return { objects }
  else Rd.fail .vecAllocationFailed

/-- `src/meta_data.rs:130-132` the loop over objects -/
def writeObjects (e : Endian) : List ObjectMetaData → Bytes
  | [] => []
  | o :: os => o.write e ++ writeObjects e os

/-- `src/meta_data.rs:126-134` write; the count is cut to 32 bits by `as u32`. -/
def write (e : Endian) (m : MetaData) : Bytes :=
  encNat e 4 (m.objects.length % u32Lim) ++ writeObjects e m.objects

/-- `src/meta_data.rs:136-142` size -/
def size (m : MetaData) : Nat := 4 + (m.objects.map ObjectMetaData.size).sum

end MetaData

/-! ## Segments -/

/-- `src/meta_data.rs:157-166` -/
structure Segment where
  toc : ToC
  nextSegmentOffset : Nat
  rawDataOffset : Nat
  metaData : Option MetaData
  deriving DecidableEq, Repr

/-- `"TDSm"` (`src/meta_data.rs:189`, `src/io/writer.rs:53`) -/
def tdsmTag : Bytes := [0x54, 0x44, 0x53, 0x6D]

namespace Segment

/-- `src/meta_data.rs:169-174` -/
def totalSizeBytes (s : Segment) : R Nat :=
  if s.nextSegmentOffset + leadInBytes < u64Lim then .ok (s.nextSegmentOffset + leadInBytes)
  else R.err .segmentAddressOverflow

/-- `src/io/reader.rs:44-58` `read_segment`: the metadata section is always parsed. -/
def readSegment (al : Alloc) (e : Endian) (toc : ToC) : Rd Segment := do
  let _version ← Rd.uint e 4
  let nextSegmentOffset ← Rd.uint e 8
  let rawDataOffset ← Rd.uint e 8
  let metaData ← MetaData.read al e
  return { toc, nextSegmentOffset, rawDataOffset, metaData := some metaData }

/-- `src/meta_data.rs:176-203` `Segment::read` -/
def read (al : Alloc) : Rd Segment := fun f p =>
  match Rd.exact 4 f p with
  | .error (.err (.ioError .unexpectedEof)) => R.err .endOfFile
  | .error e => .error e
  | .ok (tag, p) =>
    if tag ≠ tdsmTag then R.err (.headerPatternNotMatched tag)
    else
      (do
        let buf ← Rd.exact 4
        let toc := ToC.fromU32 (decNat .little buf)
        readSegment al (if toc.bigEndian then .big else .little) toc) f p

end Segment

/-! ## Writing a segment -/

/-- A data block to be written (`src/raw_data/write.rs:12-16` `WriteBlock`): the value of `size()` and
    the bytes `write` emits. -/
structure DataToWrite where
  size : Nat
  bytes : Bytes

/-- `src/io/writer.rs:93,111` `BIG_ENDIAN_FLAG` -/
def Endian.isBig : Endian → Bool
  | .little => false
  | .big => true

/-- `src/io/writer.rs:36-42` `meta_data_bytes` -/
def MetaData.optSize : Option MetaData → Nat
  | some m => m.size
  | none => 0

/-- `src/io/writer.rs:44-50` `data_bytes` -/
def DataToWrite.optSize : Option DataToWrite → Nat
  | some d => d.size
  | none => 0

/-- `src/io/writer.rs:65-67` the metadata section, if any -/
def MetaData.optWrite (e : Endian) : Option MetaData → Bytes
  | some m => m.write e
  | none => []

/-- `src/io/writer.rs:69-71` the raw data, if any -/
def DataToWrite.optBytes : Option DataToWrite → Bytes
  | some d => d.bytes
  | none => []

/-- `src/io/writer.rs:34-51` the flags actually written -/
def finalToC (e : Endian) (toc : ToC) (md : Option MetaData) (data : Option DataToWrite) : ToC :=
  { toc with bigEndian := e.isBig, containsMetaData := md.isSome, containsRawData := data.isSome }

/-- `src/io/writer.rs:26-78` `write_segment`: the segment handed to the index and the bytes emitted.
    (`meta_data_bytes + data_bytes` is a `usize` sum of sizes of in-memory values and cannot
    overflow.) -/
def writeSegment (e : Endian) (toc : ToC) (md : Option MetaData) (data : Option DataToWrite) :
    Segment × Bytes :=
  let toc := finalToC e toc md data
  let nextSegmentOffset := MetaData.optSize md + DataToWrite.optSize data
  let rawDataOffset := MetaData.optSize md
  ({ toc, nextSegmentOffset, rawDataOffset, metaData := md },
   tdsmTag ++ (toc.asBytes ++ (encNat e 4 4713 ++ (encNat e 8 nextSegmentOffset ++
    (encNat e 8 rawDataOffset ++ (MetaData.optWrite e md ++ DataToWrite.optBytes data))))))

end Tedium
