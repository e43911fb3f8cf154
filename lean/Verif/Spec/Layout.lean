import Verif.Spec.Format
import Verif.Spec.Open

/-!
# The layout of a TDMS file

What the bytes of a file are, from the NI white paper "TDMS File Format Internal Structure": for each kind
of item a relation between its contents and its bytes. Only the data types of the model are used here,
none of its functions.
-/

namespace Tedium.Layout

/-- `bs` is the unsigned number `n` in `w` bytes of the given byte order. -/
def IsNumber (e : Endian) (w n : Nat) (bs : Bytes) : Prop := n < 256 ^ w ∧ Format.IsUInt e w n bs

/-- The UTF-8 bytes of a text (those of Lean's own strings). -/
def utf8 (t : Text) : Bytes := t.flatMap String.utf8EncodeChar

/-- A string: its length in bytes (32 bits), then the bytes. -/
def IsString (e : Endian) (t : Text) (bs : Bytes) : Prop :=
  ∃ len, bs = len ++ utf8 t ∧ IsNumber e 4 (utf8 t).length len

/-- Items one after the other. -/
def IsList {α : Type} (item : α → Bytes → Prop) : List α → Bytes → Prop
  | [], bs => bs = []
  | a :: as, bs => ∃ x y, bs = x ++ y ∧ item a x ∧ IsList item as y

/-- A 32-bit count, then the items. -/
def IsCounted {α : Type} (e : Endian) (item : α → Bytes → Prop) (as : List α) (bs : Bytes) : Prop :=
  ∃ n x, bs = n ++ x ∧ IsNumber e 4 as.length n ∧ IsList item as x

/-- The code of a type. -/
def IsType (e : Endian) (t : DataType) (bs : Bytes) : Prop :=
  ∃ code, (code, t) ∈ Format.publishedCodes ∧ IsNumber e 4 code bs

/-- The bytes of a property value, after its type code. -/
def IsValue (e : Endian) : PropertyValue → Bytes → Prop
  | .void, bs => bs = []
  | .boolean v, bs => bs = [if v then 1 else 0]
  | .i8 v, bs => IsNumber e 1 v.toNat bs
  | .i16 v, bs => IsNumber e 2 v.toNat bs
  | .i32 v, bs => IsNumber e 4 v.toNat bs
  | .i64 v, bs => IsNumber e 8 v.toNat bs
  | .u8 v, bs => IsNumber e 1 v.toNat bs
  | .u16 v, bs => IsNumber e 2 v.toNat bs
  | .u32 v, bs => IsNumber e 4 v.toNat bs
  | .u64 v, bs => IsNumber e 8 v.toNat bs
  | .singleFloat v, bs => IsNumber e 4 v.toNat bs
  | .doubleFloat v, bs => IsNumber e 8 v.toNat bs
  | .extended v, bs => IsNumber e 10 v.toNat bs
  | .string t, bs => IsString e t bs
  | .complexSingleFloat v, bs => ∃ x y, bs = x ++ y ∧ IsNumber e 4 v.real.toNat x ∧ IsNumber e 4 v.imaginary.toNat y
  | .complexDoubleFloat v, bs => ∃ x y, bs = x ++ y ∧ IsNumber e 8 v.real.toNat x ∧ IsNumber e 8 v.imaginary.toNat y
  | .timestamp v, bs => IsNumber e 16 v.toNat bs

/-- The type of a property value. -/
def valueType : PropertyValue → DataType
  | .void => .void
  | .boolean _ => .boolean
  | .i8 _ => .i8 | .i16 _ => .i16 | .i32 _ => .i32 | .i64 _ => .i64
  | .u8 _ => .u8 | .u16 _ => .u16 | .u32 _ => .u32 | .u64 _ => .u64
  | .singleFloat _ => .singleFloat
  | .doubleFloat _ => .doubleFloat
  | .extended _ => .extendedFloat
  | .string _ => .tdmsString
  | .complexSingleFloat _ => .complexSingleFloat
  | .complexDoubleFloat _ => .complexDoubleFloat
  | .timestamp _ => .timestamp

/-- The bytes of a stored value. -/
def IsSample (e : Endian) : (ty : STy) → ty.Val → Bytes → Prop
  | .i8, v, bs | .u8, v, bs => IsNumber e 1 (BitVec.toNat (w := 8) v) bs
  | .i16, v, bs | .u16, v, bs => IsNumber e 2 (BitVec.toNat (w := 16) v) bs
  | .i32, v, bs | .u32, v, bs | .f32, v, bs => IsNumber e 4 (BitVec.toNat (w := 32) v) bs
  | .i64, v, bs | .u64, v, bs | .f64, v, bs => IsNumber e 8 (BitVec.toNat (w := 64) v) bs
  | .bool, v, bs => bs = [if (show Bool from v) then 1 else 0]
  | .extended, v, bs => IsNumber e 10 (BitVec.toNat (w := 128) v) bs
  | .timestamp, v, bs => IsNumber e 16 (BitVec.toNat (w := 128) v) bs
  | .complex32, v, bs =>
    ∃ x y, bs = x ++ y ∧ IsNumber e 4 (BitVec.toNat (w := 32) v.real) x ∧ IsNumber e 4 (BitVec.toNat (w := 32) v.imaginary) y
  | .complex64, v, bs =>
    ∃ x y, bs = x ++ y ∧ IsNumber e 8 (BitVec.toNat (w := 64) v.real) x ∧ IsNumber e 8 (BitVec.toNat (w := 64) v.imaginary) y
  | .string, v, bs => IsString e v bs

/-- The data type of stored values. -/
def sampleType : STy → DataType
  | .i8 => .i8 | .i16 => .i16 | .i32 => .i32 | .i64 => .i64
  | .u8 => .u8 | .u16 => .u16 | .u32 => .u32 | .u64 => .u64
  | .f32 => .singleFloat | .f64 => .doubleFloat
  | .bool => .boolean | .extended => .extendedFloat | .timestamp => .timestamp
  | .complex32 => .complexSingleFloat | .complex64 => .complexDoubleFloat
  | .string => .tdmsString

/-- A property: name, type, value. -/
def IsProperty (e : Endian) (p : Text × PropertyValue) (bs : Bytes) : Prop :=
  ∃ x y z, bs = x ++ (y ++ z) ∧ IsString e p.1 x ∧ IsType e (valueType p.2) y ∧ IsValue e p.2 z

/-- The raw data index of an object: `FFFFFFFF` for none, `0` for the one of the segment before, otherwise
    its length (20 bytes), the type, the dimension 1 and the number of values. For strings it is 28 bytes
    long and ends with the total size of the values in bytes. -/
def IsIndex (e : Endian) : RawDataIndex → Bytes → Prop
  | .none, bs => IsNumber e 4 0xFFFFFFFF bs
  | .matchPrevious, bs => IsNumber e 4 0 bs
  | .rawData m, bs =>
    (m.dataType ≠ .tdmsString → m.totalSizeBytes = none ∧ ∃ len ty dim n, bs = len ++ (ty ++ (dim ++ n)) ∧
      IsNumber e 4 20 len ∧ IsType e m.dataType ty ∧ IsNumber e 4 1 dim ∧ IsNumber e 8 m.numberOfValues n) ∧
    (m.dataType = .tdmsString → ∃ size, m.totalSizeBytes = some size ∧ ∃ len ty dim n total,
      bs = len ++ (ty ++ (dim ++ (n ++ total))) ∧ IsNumber e 4 28 len ∧ IsType e m.dataType ty ∧
      IsNumber e 4 1 dim ∧ IsNumber e 8 m.numberOfValues n ∧ IsNumber e 8 size total)

/-- The raw data index is one this library reads and writes in the published form: not of a string channel,
    nor of one of the two types whose codes differ. -/
def Usual : RawDataIndex → Prop
  | .rawData m => m.dataType ≠ .tdmsString ∧ m.dataType ≠ .doubleFloatWithUnit ∧ m.dataType ≠ .extendedFloatWithUnit
  | _ => True

/-- An object: path, raw data index, properties. -/
def IsObject (e : Endian) (o : ObjectMetaData) (bs : Bytes) : Prop :=
  ∃ x y z, bs = x ++ (y ++ z) ∧ IsString e o.path x ∧ IsIndex e o.rawDataIndex y ∧
    IsCounted e (IsProperty e) o.properties z

/-- A metadata section. -/
def IsMetaData (e : Endian) (m : MetaData) (bs : Bytes) : Prop := IsCounted e (IsObject e) m.objects bs

/-- The flags as a number: bit 1 metadata, 2 new object list, 3 raw data, 5 interleaved, 6 big-endian,
    7 DAQmx raw data. -/
def flags (t : ToC) : Nat :=
  (if t.containsMetaData then 2 else 0) + (if t.containsNewObjectList then 4 else 0) +
  (if t.containsRawData then 8 else 0) + (if t.dataIsInterleaved then 32 else 0) +
  (if t.bigEndian then 64 else 0) + (if t.containsDaqmxRawData then 128 else 0)

/-- The lead-in of a segment: the letters `TDSm`, the flags (little-endian always), the version, the number
    of bytes from the end of the lead-in to the next segment, and to the raw data. -/
def IsLeadIn (e : Endian) (toc : ToC) (version next raw : Nat) (bs : Bytes) : Prop :=
  ∃ f v x y, bs = ['T', 'D', 'S', 'm'].map (fun c => UInt8.ofNat c.toNat) ++ (f ++ (v ++ (x ++ y))) ∧
    IsNumber .little 4 (flags toc) f ∧ IsNumber e 4 version v ∧ IsNumber e 8 next x ∧ IsNumber e 8 raw y

/-- A segment with a metadata section, and any bytes after it. -/
def IsSegment (s : FileSegment) (bs : Bytes) : Prop :=
  (s.toc.bigEndian = true ↔ s.endian = .big) ∧
  ∃ lead md, bs = lead ++ (md ++ s.rest) ∧
    IsLeadIn s.endian s.toc s.version (md.length + s.rest.length) s.rawOffset lead ∧
    IsMetaData s.endian s.metaData md

end Tedium.Layout
