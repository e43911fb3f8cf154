import Verif.Model.Storage

/-! # Property values (`src/properties.rs`) -/

namespace Tedium

/-- `src/properties.rs:17-35` -/
inductive PropertyValue where
  | void
  | boolean (v : Bool)
  | i8 (v : BitVec 8)
  | i16 (v : BitVec 16)
  | i32 (v : BitVec 32)
  | i64 (v : BitVec 64)
  | u8 (v : BitVec 8)
  | u16 (v : BitVec 16)
  | u32 (v : BitVec 32)
  | u64 (v : BitVec 64)
  | singleFloat (v : BitVec 32)
  | doubleFloat (v : BitVec 64)
  | extended (v : BitVec 128)
  | string (v : Text)
  | complexSingleFloat (v : Complex (BitVec 32))
  | complexDoubleFloat (v : Complex (BitVec 64))
  | timestamp (v : BitVec 128)
  deriving DecidableEq, Repr

namespace PropertyValue

/-- `src/properties.rs:38-58` `datatype` -/
def datatype : PropertyValue → DataType
  | .boolean _ => .boolean
  | .i32 _ => .i32
  | .u32 _ => .u32
  | .u64 _ => .u64
  | .singleFloat _ => .singleFloat
  | .doubleFloat _ => .doubleFloat
  | .extended _ => .extendedFloat
  | .string _ => .tdmsString
  | .i8 _ => .i8
  | .i16 _ => .i16
  | .i64 _ => .i64
  | .u8 _ => .u8
  | .u16 _ => .u16
  | .timestamp _ => .timestamp
  | .void => .void
  | .complexSingleFloat _ => .complexSingleFloat
  | .complexDoubleFloat _ => .complexDoubleFloat

end PropertyValue

/-- `src/meta_data.rs:29-45` `TdmsMetaData for DataType`: read -/
def readDataType (e : Endian) : Rd DataType := do
  let propType ← Rd.uint e 4
  match DataType.ofCode? propType with
  | some t => return t
  | none => Rd.fail (.unknownPropertyType propType)

/-- `src/meta_data.rs:37-40` `TdmsMetaData for DataType`: write -/
def writeDataType (e : Endian) (t : DataType) : Bytes := encNat e 4 t.code

namespace PropertyValue

/-- `src/properties.rs:72-105` read -/
def read (al : Alloc) (e : Endian) : Rd PropertyValue := do
  let rawType ← readDataType e
  match rawType with
  | .void => return .void
  | .boolean => return .boolean (← (STy.storage al .bool).read e)
  | .i8 => return .i8 (← (STy.storage al .i8).read e)
  | .i16 => return .i16 (← (STy.storage al .i16).read e)
  | .i32 => return .i32 (← (STy.storage al .i32).read e)
  | .i64 => return .i64 (← (STy.storage al .i64).read e)
  | .u8 => return .u8 (← (STy.storage al .u8).read e)
  | .u16 => return .u16 (← (STy.storage al .u16).read e)
  | .u32 => return .u32 (← (STy.storage al .u32).read e)
  | .u64 => return .u64 (← (STy.storage al .u64).read e)
  | .singleFloat | .singleFloatWithUnit => return .singleFloat (← (STy.storage al .f32).read e)
  | .doubleFloat | .doubleFloatWithUnit => return .doubleFloat (← (STy.storage al .f64).read e)
  | .extendedFloat | .extendedFloatWithUnit =>
    return .extended (← (STy.storage al .extended).read e)
  | .complexSingleFloat => return .complexSingleFloat (← (STy.storage al .complex32).read e)
  | .complexDoubleFloat => return .complexDoubleFloat (← (STy.storage al .complex64).read e)
  | .tdmsString => return .string (← (STy.storage al .string).read e)
  | .timestamp => return .timestamp (← (STy.storage al .timestamp).read e)
  | .fixedPoint | .daqmxRawData => Rd.fail (.unsupportedType rawType)

/-- The allocator plays no role when writing (`src/io/data_types/strings.rs:42-52` allocates nothing). -/
def anyAlloc : Alloc := fun _ => true

/-- The value part written by `write_property_components` (`src/properties.rs:61-69`). -/
def writeInner (e : Endian) : PropertyValue → Bytes
  | .void => []
  | .boolean v => (STy.storage anyAlloc .bool).write e v
  | .i8 v => (STy.storage anyAlloc .i8).write e v
  | .i16 v => (STy.storage anyAlloc .i16).write e v
  | .i32 v => (STy.storage anyAlloc .i32).write e v
  | .i64 v => (STy.storage anyAlloc .i64).write e v
  | .u8 v => (STy.storage anyAlloc .u8).write e v
  | .u16 v => (STy.storage anyAlloc .u16).write e v
  | .u32 v => (STy.storage anyAlloc .u32).write e v
  | .u64 v => (STy.storage anyAlloc .u64).write e v
  | .singleFloat v => (STy.storage anyAlloc .f32).write e v
  | .doubleFloat v => (STy.storage anyAlloc .f64).write e v
  | .extended v => (STy.storage anyAlloc .extended).write e v
  | .complexSingleFloat v => (STy.storage anyAlloc .complex32).write e v
  | .complexDoubleFloat v => (STy.storage anyAlloc .complex64).write e v
  | .string v => (STy.storage anyAlloc .string).write e v
  | .timestamp v => (STy.storage anyAlloc .timestamp).write e v

/-- `src/properties.rs:107-149` write -/
def write (e : Endian) (v : PropertyValue) : Bytes :=
  writeDataType e v.datatype ++ v.writeInner e

/-- `src/properties.rs:151-172` size -/
def size (v : PropertyValue) : Nat :=
  (match v with
  | .void => 0
  | .boolean v => (STy.storage anyAlloc .bool).size v
  | .i32 v => (STy.storage anyAlloc .i32).size v
  | .u32 v => (STy.storage anyAlloc .u32).size v
  | .u64 v => (STy.storage anyAlloc .u64).size v
  | .singleFloat v => (STy.storage anyAlloc .f32).size v
  | .doubleFloat v => (STy.storage anyAlloc .f64).size v
  | .extended v => (STy.storage anyAlloc .extended).size v
  | .complexSingleFloat v => (STy.storage anyAlloc .complex32).size v
  | .complexDoubleFloat v => (STy.storage anyAlloc .complex64).size v
  | .string v => (STy.storage anyAlloc .string).size v
  | .i8 v => (STy.storage anyAlloc .i8).size v
  | .i16 v => (STy.storage anyAlloc .i16).size v
  | .i64 v => (STy.storage anyAlloc .i64).size v
  | .u8 v => (STy.storage anyAlloc .u8).size v
  | .u16 v => (STy.storage anyAlloc .u16).size v
  | .timestamp v => (STy.storage anyAlloc .timestamp).size v) + 4

/-! ## Conversions (`src/properties.rs:175-266`)

`From`/`TryFrom` exist for every storage type except `ExtendedRaw`. -/

/-- `src/properties.rs:177-181,228-232,248-252` `From<T> for PropertyValue`
    (`extended` has no such implementation in the code and is mapped to `none`). -/
def ofVal? : (t : STy) → t.Val → Option PropertyValue
  | .i8, v => some (.i8 v)
  | .i16, v => some (.i16 v)
  | .i32, v => some (.i32 v)
  | .i64, v => some (.i64 v)
  | .u8, v => some (.u8 v)
  | .u16, v => some (.u16 v)
  | .u32, v => some (.u32 v)
  | .u64, v => some (.u64 v)
  | .f32, v => some (.singleFloat v)
  | .f64, v => some (.doubleFloat v)
  | .bool, v => some (.boolean v)
  | .timestamp, v => some (.timestamp v)
  | .complex32, v => some (.complexSingleFloat v)
  | .complex64, v => some (.complexDoubleFloat v)
  | .string, v => some (.string v)
  | .extended, _ => none

/-- `src/properties.rs:183-209,234-246,254-266` `TryFrom<PropertyValue> for T` (and for references).
    The error names the value's type and the enum variant named in the macro call, which for
    each `T` is the type written below. There is no implementation for `ExtendedRaw`; that case
    is unreachable and mapped to the panic outcome. -/
def toVal : (t : STy) → PropertyValue → R t.Val
  | .i8, .i8 v => .ok v
  | .i8, p => R.err (.dataTypeMismatch p.datatype .i8)
  | .i16, .i16 v => .ok v
  | .i16, p => R.err (.dataTypeMismatch p.datatype .i16)
  | .i32, .i32 v => .ok v
  | .i32, p => R.err (.dataTypeMismatch p.datatype .i32)
  | .i64, .i64 v => .ok v
  | .i64, p => R.err (.dataTypeMismatch p.datatype .i64)
  | .u8, .u8 v => .ok v
  | .u8, p => R.err (.dataTypeMismatch p.datatype .u8)
  | .u16, .u16 v => .ok v
  | .u16, p => R.err (.dataTypeMismatch p.datatype .u16)
  | .u32, .u32 v => .ok v
  | .u32, p => R.err (.dataTypeMismatch p.datatype .u32)
  | .u64, .u64 v => .ok v
  | .u64, p => R.err (.dataTypeMismatch p.datatype .u64)
  | .f32, .singleFloat v => .ok v
  | .f32, p => R.err (.dataTypeMismatch p.datatype .singleFloat)
  | .f64, .doubleFloat v => .ok v
  | .f64, p => R.err (.dataTypeMismatch p.datatype .doubleFloat)
  | .bool, .boolean v => .ok v
  | .bool, p => R.err (.dataTypeMismatch p.datatype .boolean)
  | .timestamp, .timestamp v => .ok v
  | .timestamp, p => R.err (.dataTypeMismatch p.datatype .timestamp)
  | .complex32, .complexSingleFloat v => .ok v
  | .complex32, p => R.err (.dataTypeMismatch p.datatype .complexSingleFloat)
  | .complex64, .complexDoubleFloat v => .ok v
  | .complex64, p => R.err (.dataTypeMismatch p.datatype .complexDoubleFloat)
  | .string, .string v => .ok v
  | .string, p => R.err (.dataTypeMismatch p.datatype .tdmsString)
  | .extended, _ => R.panic .expect

end PropertyValue
end Tedium
