/-!
# Basic vocabulary of the model

Bytes, text, errors, panics, byte order and the position-based reader.
-/

namespace Tedium

/-- A byte sequence: the content of a file (`Cursor<Vec<u8>>` / `File`). The type parameter of `src/file/mod.rs:31-34`. -/
abbrev Bytes := List UInt8

/-- Rust `String`/`&str`: a sequence of Unicode scalar values. Its UTF-8 bytes are
    `Tedium.utf8Enc`. (Modelling choice: characters instead of bytes; all operations the code
    performs on strings split at ASCII characters only, so they agree.). As in `src/paths.rs:8-9`, `src/index/mod.rs:114`. -/
abbrev Text := List Char

/-- `src/io/data_types/mod.rs:38-63` the `DataType` enum. -/
inductive DataType where
  | void | i8 | i16 | i32 | i64 | u8 | u16 | u32 | u64
  | singleFloat | doubleFloat | extendedFloat
  | singleFloatWithUnit | doubleFloatWithUnit | extendedFloatWithUnit
  | tdmsString | boolean | timestamp | fixedPoint
  | complexSingleFloat | complexDoubleFloat | daqmxRawData
  deriving DecidableEq, Repr, Inhabited

/-- The `std::io::Error` kinds: the first two are raised by reads and seeks beyond the end of the stream,
    `writeZero` by `write_all` when the stream accepts nothing, `other n` stands for any error that the
    stream itself reports (disk full, device gone, ...). The source of `src/error.rs:14-15`. -/
inductive IoKind where
  | unexpectedEof
  | invalidInput
  | writeZero
  | other (code : Nat)
  deriving DecidableEq, Repr

/-- `src/error.rs:7-75` `TdmsError`. Variants that no modelled function returns
    (`UnknownDataType`, `IndexReaderError`, chrono) are omitted; payloads that only serve the
    error message text (the `FromUtf8Error`) are dropped. -/
inductive TdmsError where
  | missingObject (path : Text)
  | ioError (kind : IoKind)
  | stringFormatError
  | unknownPropertyType (code : Nat)
  | unsupportedType (t : DataType)
  | headerPatternNotMatched (tag : Bytes)
  | dataBlockNotFound (block : Nat)
  | badDataBlockLength (len channels : Nat)
  | dataTypeMismatch (found wanted : DataType)
  | endOfFile
  | segmentAddressOverflow
  | segmentTocDataBlockWithoutDataChannels
  | invalidObjectPath (path : Text)
  | invalidChannelPath (path : Text)
  | noChannels
  | vecAllocationFailed
  | stringAllocationFailed
  | propertyTableAllocationFailed
  | zeroLengthDataBlock
  | noActiveChannelsInDataBlock
  | noPreviousType
  | invalidRawOffset
  | chunkSizeOverflow
  | daqmxChannelsNotSupported
  deriving DecidableEq, Repr

/-- The ways a Rust function of the crate can panic. E.g. `src/paths.rs:231`,
    `src/raw_data/contigious_multi_channel_read.rs:62`, `src/index/building.rs:46`. -/
inductive PanicKind where
  /-- `&s[1..0]` and similar -/
  | sliceRange
  /-- `v[i]` with `i` out of range -/
  | indexOutOfBounds
  /-- `/` or `%` by zero -/
  | divByZero
  /-- arithmetic overflow with overflow checks on -/
  | overflow
  /-- `expect`/`unwrap`/`assert!`/`unreachable!` -/
  | expect
  deriving DecidableEq, Repr

/-- Every way in which a call can fail to return `Ok`. `hang` is the model's own outcome for
    "the fuel of a loop ran out"; it is proved never to occur (`src/error.rs:6-75`, and panics). -/
inductive Fail where
  | err (e : TdmsError)
  | panic (k : PanicKind)
  | hang
  deriving DecidableEq, Repr

/-- Result of a Rust call. `Result<_, TdmsError>`, `src/error.rs:6-75`. -/
abbrev R := Except Fail

/-- `Err(e)` (`src/error.rs:6-75`) -/
abbrev R.err {α : Type} (e : TdmsError) : R α := .error (.err e)
/-- a panic. E.g. `src/paths.rs:231`. -/
abbrev R.panic {α : Type} (k : PanicKind) : R α := .error (.panic k)

/-- Equality of results (of the model only; `src/error.rs:6-75` has none). -/
instance {α : Type} [DecidableEq α] : DecidableEq (R α) := fun a b =>
  match a, b with
  | .ok x, .ok y => if h : x = y then isTrue (by rw [h]) else isFalse (by simpa using h)
  | .error x, .error y => if h : x = y then isTrue (by rw [h]) else isFalse (by simpa using h)
  | .ok _, .error _ => isFalse (by simp)
  | .error _, .ok _ => isFalse (by simp)

/-- `src/raw_data/mod.rs:43-47` `Endianess`; also the choice between `LittleEndianReader/Writer` and
    `BigEndianReader/Writer` (`src/io/reader.rs:61-91`, `src/io/writer.rs:83-117`). -/
inductive Endian where
  | little
  | big
  deriving DecidableEq, Repr, Inhabited

/-- 2^64, one more than `u64::MAX` and (64-bit platform) `usize::MAX`. The limit of `src/meta_data.rs:170`,
    `src/raw_data/mod.rs:69,167`. -/
abbrev u64Lim : Nat := 2 ^ 64
/-- 2^32. The limit of the counts and lengths, `src/io/data_types/strings.rs:43`. -/
abbrev u32Lim : Nat := 2 ^ 32

/-! ## Byte order -/

/-- `uN::to_le_bytes`: the `w` least significant bytes of `n`, least significant first
    (`src/io/data_types/native_numerics.rs:29`). -/
def leBytes : Nat → Nat → Bytes
  | 0, _ => []
  | w + 1, n => UInt8.ofNat n :: leBytes w (n / 256)

/-- `uN::from_le_bytes` (`src/io/data_types/native_numerics.rs:21`) -/
def leVal : Bytes → Nat
  | [] => 0
  | b :: bs => b.toNat + 256 * leVal bs

/-- `to_le_bytes` / `to_be_bytes` depending on the byte order (`src/io/data_types/native_numerics.rs:29,33`). -/
def encNat (e : Endian) (w n : Nat) : Bytes :=
  match e with
  | .little => leBytes w n
  | .big => (leBytes w n).reverse

/-- `from_le_bytes` / `from_be_bytes` depending on the byte order (`src/io/data_types/native_numerics.rs:21,26`). -/
def decNat (e : Endian) (bs : Bytes) : Nat :=
  match e with
  | .little => leVal bs
  | .big => leVal bs.reverse

/-! ## Readers

A `TdmsReader` (`src/io/reader.rs`) over a stream: a function of the file content and the current
position that returns a value and the new position. `BufReader` is transparent. -/

/-- A reading action. A function that takes a reader, as those of `src/io/reader.rs:10-59`: contents and position
    before, result and position after. -/
def Rd (α : Type) := Bytes → Nat → R (α × Nat)

namespace Rd

/-- `Ok(a)` without reading. As in `src/io/reader.rs:52-57`. -/
def pure {α : Type} (a : α) : Rd α := fun _ p => .ok (a, p)

/-- sequencing with `?`. As in `src/io/reader.rs:44-50`. -/
def bind {α β : Type} (x : Rd α) (k : α → Rd β) : Rd β := fun f p =>
  match x f p with
  | .ok (a, q) => k a f q
  | .error e => .error e

/-- `Ok(a)` and `?`, for `do` notation (as in `src/io/reader.rs:43-58`). -/
instance : Monad Rd where
  pure := Rd.pure
  bind := Rd.bind

/-- return an error without reading. As in `src/meta_data.rs:190`. -/
def fail {α : Type} (e : TdmsError) : Rd α := fun _ _ => R.err e

/-- `Read::read_exact` of `n` bytes; end of input is `ErrorKind::UnexpectedEof`
    (`src/io/data_types/native_numerics.rs:20`, `src/meta_data.rs:178,195`). -/
def exact (n : Nat) : Rd Bytes := fun f p =>
  if n = 0 ∨ p + n ≤ f.length then .ok ((f.drop p).take n, p + n)
  else R.err (.ioError .unexpectedEof)

/-- `reader.read_value::<uN>()` for an unsigned integer of `w` bytes
    (`src/io/data_types/native_numerics.rs:18-27`). -/
def uint (e : Endian) (w : Nat) : Rd Nat := do
  let b ← exact w
  return decNat e b

end Rd

end Tedium
