import Verif.Model.DataType
import Verif.Model.Utf8

/-!
# Storage types (`io/data_types/*.rs`)

A Rust type implementing `TdmsStorageType` is a record `Storage α`. Integers, floats and
timestamps are bit vectors (two's complement resp. IEEE bit pattern): the code only ever
copies their bytes.
-/

namespace Tedium

/-- What `Vec::try_reserve` is asked for. Whether it succeeds is up to the allocator (`src/io/reader.rs:21`,
    `src/io/data_types/strings.rs:11`, `src/meta_data.rs:229`). -/
inductive AllocReq where
  /-- `src/io/data_types/strings.rs:11` -/
  | str (bytes : Nat)
  /-- `src/io/reader.rs:21` -/
  | vec (elements : Nat)
  /-- `src/meta_data.rs:229` -/
  | props (elements : Nat)
  deriving DecidableEq, Repr

/-- The allocator: says whether a request succeeds (`src/io/reader.rs:21`, `src/io/data_types/strings.rs:11`,
    `src/meta_data.rs:229`). -/
abbrev Alloc := AllocReq → Bool

/-- `src/io/data_types/mod.rs:122-141` trait `TdmsStorageType`.
    `read .little` is `read_le`, `read .big` is `read_be`, likewise `write`. -/
structure Storage (α : Type) where
  /-- `NATURAL_TYPE` -/
  natural : DataType
  /-- `SUPPORTED_TYPES` -/
  supported : List DataType
  /-- `SIZE_BYTES = size_of::<Self>()` -/
  memSize : Nat
  read : Endian → Rd α
  write : Endian → α → Bytes
  size : α → Nat

/-- `src/io/data_types/native_numerics.rs:13-41` macro `numeric_type!` for a type of `w` bytes. -/
def numeric (w : Nat) (natural : DataType) (supported : List DataType) :
    Storage (BitVec (8 * w)) where
  natural := natural
  supported := supported
  memSize := w
  read := fun e => do
    let b ← Rd.exact w
    return BitVec.ofNat (8 * w) (decNat e b)
  write := fun e v => encNat e w v.toNat
  size := fun _ => w

/-- `src/io/data_types/bool.rs:9-38` -/
def boolStorage : Storage Bool where
  natural := .boolean
  supported := [.boolean, .u8]
  memSize := 1
  read := fun _ => do
    let b ← Rd.exact 1
    return (b.headD 0) != 0
  write := fun _ v => [if v then 1 else 0]
  size := fun _ => 1

/-- `src/io/data_types/extended.rs:26-65`: a `u128` of which 10 bytes are stored. -/
def extendedStorage : Storage (BitVec 128) where
  natural := .extendedFloat
  supported := [.extendedFloat, .extendedFloatWithUnit]
  memSize := 16
  read := fun e => do
    let b ← Rd.exact 10
    match e with
    | .little => return BitVec.ofNat 128 (decNat .little (b ++ List.replicate 6 0))
    | .big => return BitVec.ofNat 128 (decNat .big (List.replicate 6 0 ++ b))
  write := fun e v =>
    match e with
    | .little => (encNat .little 16 v.toNat).take 10
    | .big => (encNat .big 16 v.toNat).drop 6
  size := fun _ => 10

/-- `src/io/data_types/timestamp.rs:8-39`. `LVTime` (external crate `labview_interop`) is taken to be
    an opaque 128-bit value with 16-byte little/big-endian codecs and `size_of` 16. -/
def timestampStorage : Storage (BitVec 128) where
  natural := .timestamp
  supported := [.timestamp]
  memSize := 16
  read := fun e => do
    let b ← Rd.exact 16
    return BitVec.ofNat 128 (decNat e b)
  write := fun e v => encNat e 16 v.toNat
  size := fun _ => 16

/-- `src/io/data_types/complex.rs:11-14` -/
structure Complex (α : Type) where
  real : α
  imaginary : α
  deriving DecidableEq, Repr

/-- `src/io/data_types/complex.rs:29-59` macro `complex_type!` over a component type of `w` bytes. -/
def complexStorage (w : Nat) (t : DataType) (component : DataType) :
    Storage (Complex (BitVec (8 * w))) where
  natural := t
  supported := [t]
  memSize := w * 2
  read := fun e => do
    let real ← (numeric w component [component]).read e
    let imaginary ← (numeric w component [component]).read e
    return ⟨real, imaginary⟩
  write := fun e v =>
    (numeric w component [component]).write e v.real ++
    (numeric w component [component]).write e v.imaginary
  size := fun _ => w * 2

/-- `src/io/data_types/strings.rs:8-25` `read_string_with_length`. -/
def readStringWithLength (al : Alloc) (length : Nat) : Rd Text := do
  if al (.str length) then
    let b ← Rd.exact length
    match utf8Dec b with
    | some t => return t
    | none => Rd.fail .stringFormatError
  else Rd.fail .stringAllocationFailed

/-- `src/io/data_types/strings.rs:27-57`. `self.len()` is the number of UTF-8 bytes and is cut to
    32 bits by `as u32`. `size_of::<String>()` is 24. -/
def stringStorage (al : Alloc) : Storage Text where
  natural := .tdmsString
  supported := [.tdmsString]
  memSize := 24
  read := fun e => do
    let length ← Rd.uint e 4
    readStringWithLength al length
  write := fun e s => encNat e 4 ((utf8Enc s).length % u32Lim) ++ utf8Enc s
  size := fun s => (utf8Enc s).length + 4

/-! ## The implementing types -/

/-- The Rust types that implement `TdmsStorageType`
    (`src/io/data_types/native_numerics.rs:43-60`, `src/io/data_types/bool.rs`, `src/io/data_types/extended.rs`, `src/io/data_types/timestamp.rs`, `src/io/data_types/complex.rs:61-62`,
    `src/io/data_types/strings.rs`). -/
inductive STy where
  | i8 | u8 | i16 | u16 | i32 | u32 | i64 | u64 | f32 | f64
  | bool | extended | timestamp | complex32 | complex64 | string
  deriving DecidableEq, Repr

/-- The values of a storage type. The implementors of `src/io/data_types/mod.rs:122-141`. -/
def STy.Val : STy → Type
  | .i8 | .u8 => BitVec 8
  | .i16 | .u16 => BitVec 16
  | .i32 | .u32 | .f32 => BitVec 32
  | .i64 | .u64 | .f64 => BitVec 64
  | .bool => Bool
  | .extended | .timestamp => BitVec 128
  | .complex32 => Complex (BitVec 32)
  | .complex64 => Complex (BitVec 64)
  | .string => Text

/-- Equality of values (of the model only; for the types of `src/io/data_types/mod.rs:122-141`). -/
instance (t : STy) : DecidableEq t.Val := by
  cases t <;> (simp only [STy.Val]; infer_instance)

/-- The `TdmsStorageType` implementation of each type, with its natural and supported types
    (`src/io/data_types/native_numerics.rs:43-60`, `src/io/data_types/complex.rs:61-62`). -/
def STy.storage (al : Alloc) : (t : STy) → Storage t.Val
  | .i8 => numeric 1 .i8 [.i8]
  | .u8 => numeric 1 .u8 [.u8]
  | .i16 => numeric 2 .i16 [.i16]
  | .u16 => numeric 2 .u16 [.u16]
  | .i32 => numeric 4 .i32 [.i32]
  | .u32 => numeric 4 .u32 [.u32]
  | .i64 => numeric 8 .i64 [.i64]
  | .u64 => numeric 8 .u64 [.u64]
  | .f64 => numeric 8 .doubleFloat [.doubleFloat, .doubleFloatWithUnit]
  | .f32 => numeric 4 .singleFloat [.singleFloat, .singleFloatWithUnit]
  | .bool => boolStorage
  | .extended => extendedStorage
  | .timestamp => timestampStorage
  | .complex32 => complexStorage 4 .complexSingleFloat .singleFloat
  | .complex64 => complexStorage 8 .complexDoubleFloat .doubleFloat
  | .string => stringStorage al

end Tedium
