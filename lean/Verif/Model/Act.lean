import Verif.Model.File

/-!
# Reading as a sequence of stream operations

The reading functions of `Model/` are functions of the file contents and a position (`Rd`), with `BufReader`
left out. Here are the same functions as programs over the two operations that they use on a reader,
`read_exact` and `seek_relative`. `Model/Device.lean` runs these programs over `std::io::BufReader` and a
stream, and `Proofs/Act.lean` shows that without these they are the functions of `Model/`.
-/

namespace Tedium

/-- A program over a `BufReader` with a result. What the code does with it: `read_exact`
    (`src/io/data_types/native_numerics.rs:20`), `seek_relative` (`src/io/reader.rs:37-40`). -/
inductive Act (α : Type) where
  /-- `Ok(a)` -/
  | ret (a : α)
  /-- an error or a panic -/
  | stop (e : Fail)
  /-- `read_exact` into a buffer of `n` bytes, `?`, and go on -/
  | exact (n : Nat) (next : Bytes → Act α)
  /-- `seek_relative(offset)` (`src/io/reader.rs:37-40`), `?`, and go on -/
  | move (offset : Int) (next : Act α)

namespace Act
variable {α β : Type}

/-- sequencing with `?`. As in `src/io/reader.rs:44-48`. -/
def bind : Act α → (α → Act β) → Act β
  | .ret a, k => k a
  | .stop e, _ => .stop e
  | .exact n next, k => .exact n (fun bs => (next bs).bind k)
  | .move offset next, k => .move offset (next.bind k)

/-- `Ok(a)` and `?`, for `do` notation (as in `src/io/reader.rs:43-58`). -/
instance : Monad Act where
  pure := .ret
  bind := Act.bind

/-- return an error without reading. As in `src/meta_data.rs:190`. -/
def fail (e : TdmsError) : Act α := .stop (.err e)

/-- `Read::read_exact` of `n` bytes. As in `src/io/data_types/native_numerics.rs:20`. -/
def take (n : Nat) : Act Bytes := .exact n .ret

/-- `src/io/reader.rs:37-40` `move_position` -/
def skip (offset : Int) : Act Unit := .move offset (.ret ())

/-- a computation that does not touch the reader. As the sizes in `src/raw_data/contigious_multi_channel_read.rs:62`. -/
def lift : R α → Act α
  | .ok a => .ret a
  | .error e => .stop e

/-- `reader.read_value::<uN>()` (`src/io/data_types/native_numerics.rs:18-27`) -/
def uint (e : Endian) (w : Nat) : Act Nat := do
  let b ← take w
  return decNat e b

/-- a counted loop (`src/io/reader.rs:23-25`, `src/meta_data.rs:232-236`) -/
def many (x : Act α) : Nat → Act (List α)
  | 0 => .ret []
  | n + 1 => do
    let a ← x
    let as ← many x n
    return a :: as

/-- What the program does on a reader that is transparent: the file contents and a position. Of the model only: relates
    `src/io/reader.rs:28-40` to the reader of `Model/Basic`. -/
def denote : Act α → Rd α
  | .ret a => Rd.pure a
  | .stop e => Rd.lift (.error e)
  | .exact n next => Rd.bind (Rd.exact n) (fun bs => (next bs).denote)
  | .move offset next => Rd.bind (Rd.move offset) (fun _ => next.denote)

/-! ## Values -/

/-- `src/io/data_types/native_numerics.rs:18-27` -/
def numeric (w : Nat) (e : Endian) : Act (BitVec (8 * w)) := do
  let b ← take w
  return BitVec.ofNat (8 * w) (decNat e b)

/-- `src/io/data_types/strings.rs:8-25` `read_string_with_length` -/
def stringWithLength (al : Alloc) (length : Nat) : Act Text := do
  if al (.str length) then
    let b ← take length
    match utf8Dec b with
    | some t => return t
    | none => fail .stringFormatError
  else fail .stringAllocationFailed

/-- `src/io/data_types/strings.rs:34-42` -/
def string (al : Alloc) (e : Endian) : Act Text := do
  let length ← uint e 4
  stringWithLength al length

/-- `src/io/data_types/bool.rs:14-22` -/
def bool : Act Bool := do
  let b ← take 1
  return (b.headD 0) != 0

/-- `src/io/data_types/extended.rs:34-46` -/
def extended (e : Endian) : Act (BitVec 128) := do
  let b ← take 10
  match e with
  | .little => return BitVec.ofNat 128 (decNat .little (b ++ List.replicate 6 0))
  | .big => return BitVec.ofNat 128 (decNat .big (List.replicate 6 0 ++ b))

/-- `src/io/data_types/timestamp.rs:12-22` -/
def timestamp (e : Endian) : Act (BitVec 128) := do
  let b ← take 16
  return BitVec.ofNat 128 (decNat e b)

/-- `src/io/data_types/complex.rs:35-45` -/
def complex (w : Nat) (e : Endian) : Act (Complex (BitVec (8 * w))) := do
  let real ← numeric w e
  let imaginary ← numeric w e
  return ⟨real, imaginary⟩

/-- `read_le` and `read_be` of each storage type (`src/io/reader.rs:63-65,79-81`, `src/io/data_types/mod.rs:129-130`) -/
def value (al : Alloc) : (t : STy) → Endian → Act t.Val
  | .i8, e | .u8, e => numeric 1 e
  | .i16, e | .u16, e => numeric 2 e
  | .i32, e | .u32, e | .f32, e => numeric 4 e
  | .i64, e | .u64, e | .f64, e => numeric 8 e
  | .bool, _ => bool
  | .extended, e => extended e
  | .timestamp, e => timestamp e
  | .complex32, e => complex 4 e
  | .complex64, e => complex 8 e
  | .string, e => string al e

/-! ## Metadata -/

/-- `src/meta_data.rs:29-35` -/
def dataType (e : Endian) : Act DataType := do
  let propType ← uint e 4
  match DataType.ofCode? propType with
  | some t => return t
  | none => fail (.unknownPropertyType propType)

/-- `src/properties.rs:72-105` -/
def property (al : Alloc) (e : Endian) : Act PropertyValue := do
  let rawType ← dataType e
  match rawType with
  | .void => return .void
  | .boolean => return .boolean (← value al .bool e)
  | .i8 => return .i8 (← value al .i8 e)
  | .i16 => return .i16 (← value al .i16 e)
  | .i32 => return .i32 (← value al .i32 e)
  | .i64 => return .i64 (← value al .i64 e)
  | .u8 => return .u8 (← value al .u8 e)
  | .u16 => return .u16 (← value al .u16 e)
  | .u32 => return .u32 (← value al .u32 e)
  | .u64 => return .u64 (← value al .u64 e)
  | .singleFloat | .singleFloatWithUnit => return .singleFloat (← value al .f32 e)
  | .doubleFloat | .doubleFloatWithUnit => return .doubleFloat (← value al .f64 e)
  | .extendedFloat | .extendedFloatWithUnit => return .extended (← value al .extended e)
  | .complexSingleFloat => return .complexSingleFloat (← value al .complex32 e)
  | .complexDoubleFloat => return .complexDoubleFloat (← value al .complex64 e)
  | .tdmsString => return .string (← value al .string e)
  | .timestamp => return .timestamp (← value al .timestamp e)
  | .fixedPoint | .daqmxRawData => fail (.unsupportedType rawType)

/-- `src/meta_data.rs:277-299` -/
def rawDataIndex (e : Endian) : Act RawDataIndex := do
  let rawIndex ← uint e 4
  if rawIndex = 0x00000000 then return .matchPrevious
  else if rawIndex = 0xFFFFFFFF then return .none
  else if 0x69120000 ≤ rawIndex ∧ rawIndex ≤ 0x6912FFFF then fail .daqmxChannelsNotSupported
  else if 0x69130000 ≤ rawIndex ∧ rawIndex ≤ 0x6913FFFF then fail .daqmxChannelsNotSupported
  else do
    let dataType ← dataType e
    let _arrayDims ← uint e 4
    let numberOfValues ← uint e 8
    return .rawData { dataType, numberOfValues, totalSizeBytes := Option.none }

/-- `src/meta_data.rs:233-235` -/
def namedProperty (al : Alloc) (e : Endian) : Act (Text × PropertyValue) := do
  let name ← string al e
  let value ← property al e
  return (name, value)

/-- `src/meta_data.rs:217-243` -/
def object (al : Alloc) (e : Endian) : Act ObjectMetaData := do
  let path ← string al e
  let rawData ← rawDataIndex e
  let propertyCount ← uint e 4
  if al (.props propertyCount) then
    let properties ← many (namedProperty al e) propertyCount
    return { path, properties, rawDataIndex := rawData }
  else fail .propertyTableAllocationFailed

/-- `src/meta_data.rs:120-124` with `read_vec` (`src/io/reader.rs:16-27`) -/
def metaData (al : Alloc) (e : Endian) : Act MetaData := do
  let objectLength ← uint e 4
  if al (.vec objectLength) then
    let objects ← many (object al e) objectLength
    return { objects }
  else fail .vecAllocationFailed

/-- `src/io/reader.rs:44-58` `read_segment` -/
def segment (al : Alloc) (e : Endian) (toc : ToC) : Act Segment := do
  let _version ← uint e 4
  let nextSegmentOffset ← uint e 8
  let rawDataOffset ← uint e 8
  let metaData ← metaData al e
  return { toc, nextSegmentOffset, rawDataOffset, metaData := some metaData }

/-! ## Data blocks

`rd` is `D::read_le` or `D::read_be` for the requested type. -/

/-- the loop of `read_sequential_samples` (`src/raw_data/contigious_multi_channel_read.rs:232-236`) -/
def values (rd : Act α) : Nat → OutIter α → Act (Nat × OutIter α)
  | 0, it => .ret (0, it)
  | n + 1, it =>
    match it.rest with
    | [] => .ret (0, it)
    | _ :: rest => do
      let v ← rd
      let (k, it) ← values rd n ⟨it.done ++ [v], rest⟩
      return (k + 1, it)

/-- `src/raw_data/contigious_multi_channel_read.rs:227-244` `read_sequential_samples` -/
def sequential (S : Storage α) (rd : Act α) (out : OutIter α) (samples : Nat) : Act (Nat × OutIter α) := do
  let (length, out) ← values rd samples out
  let unread := samples - length
  if unread > 0 then
    let off ← lift (mulI64 (toI64 unread) (toI64 S.memSize))
    skip off
  return (length, out)

/-- `src/raw_data/contigious_multi_channel_read.rs:191-224` `read_sub_block` -/
def subBlock (S : Storage α) (rd : Act α) (length : Nat) :
    List (RecordEntry α) → Act (Nat × List (RecordEntry α))
  | [] => .ret (length, [])
  | entry :: rest =>
    match entry.plan with
    | .read slot out blockSkip => do
      let skipped := min blockSkip entry.length
      let samplesToRead := entry.length - skipped
      if skipped > 0 then
        let off ← lift (mulI64 (toI64 skipped) (toI64 S.memSize))
        skip off
      let (n, out) ← sequential S rd out samplesToRead
      let (length, rest) ← subBlock S rd n rest
      return (length, { entry with plan := .read slot out blockSkip } :: rest)
    | .skip bytes => do
      let off ← lift (mulI64 (bytes : Int) (toI64 entry.length))
      skip off
      let (length, rest) ← subBlock S rd length rest
      return (length, entry :: rest)

/-- the loop `src/raw_data/contigious_multi_channel_read.rs:72-101` -/
def contigLoop (S : Storage α) (rd : Act α) (bs toSkip remainder : Nat) :
    (remaining idx : Nat) → List (RecordEntry α) → (length : Nat) → Act (Nat × List (RecordEntry α))
  | 0, _, plan, length => .ret (length, plan)
  | remaining + 1, idx, plan, length =>
    if idx < toSkip then do
      skip (toI64 bs)
      contigLoop S rd bs toSkip remainder remaining (idx + 1) plan length
    else if idx = toSkip then do
      let (n, plan) ← subBlock S rd 0 (mapSkips (fun _ => remainder) plan)
      contigLoop S rd bs toSkip remainder remaining (idx + 1) plan (length + n)
    else do
      let (n, plan) ← subBlock S rd 0 (mapSkips (fun _ => 0) plan)
      contigLoop S rd bs toSkip remainder remaining (idx + 1) plan (length + n)

/-- `src/raw_data/contigious_multi_channel_read.rs:55-104` `read_from` after `to_file_position` (line 60) -/
def contigReadFrom (S : Storage α) (rd : Act α) (size : Nat) (plan : List (RecordEntry α)) (startSample : Nat) :
    Act (Nat × List (RecordEntry α)) := do
  let bs ← lift (blockSize S plan)
  let total ← lift (divR size bs)
  let sub ← lift (firstLength plan)
  let toSkip ← lift (divR startSample sub)
  let remainder := startSample % sub
  contigLoop S rd bs toSkip remainder total 0 plan 0

/-- the loop `src/raw_data/contigious_multi_channel_read.rs:131-169` -/
def contigSkipLoop (S : Storage α) (rd : Act α) (bs : Nat) (toSkip remainders : List Nat) :
    (remaining idx : Nat) → List (RecordEntry α) → (length : Nat) → Act (Nat × List (RecordEntry α))
  | 0, _, plan, length => .ret (length, plan)
  | remaining + 1, idx, plan, length =>
    if toSkip.all (fun skip => idx ≥ skip) then do
      let skips := (toSkip.zip remainders).map (fun (b, r) => calculateSkip idx b r)
      let (n, plan) ← subBlock S rd 0 (setSkips skips plan)
      contigSkipLoop S rd bs toSkip remainders remaining (idx + 1) plan (length + n)
    else do
      skip (toI64 bs)
      contigSkipLoop S rd bs toSkip remainders remaining (idx + 1) plan length

/-- `src/raw_data/contigious_multi_channel_read.rs:109-172` `read_with_per_channel_skip` after `to_file_position`
    (line 114) -/
def contigReadSkip (S : Storage α) (rd : Act α) (size : Nat) (plan : List (RecordEntry α)) (skips : List Nat) :
    Act (Nat × List (RecordEntry α)) := do
  let bs ← lift (blockSize S plan)
  let total ← lift (divR size bs)
  let sub ← lift (firstLength plan)
  let toSkip ← lift (divAll sub skips)
  let remainders := skips.map (fun s => s % sub)
  contigSkipLoop S rd bs toSkip remainders total 0 plan 0

/-- one row, `src/raw_data/interleaved_multi_channel_read.rs:71-89` -/
def row (rd : Act α) (r : Nat) (any : Bool) : List (RecordEntry α) → Act (Bool × List (RecordEntry α))
  | [] => .ret (any, [])
  | entry :: rest =>
    match entry.plan with
    | .read slot out blockSkip => do
      let v ← rd
      let (out, any) := if r ≥ blockSkip then
          match out.rest with
          | [] => (out, any)
          | _ :: cells => (⟨out.done ++ [v], cells⟩, true)
        else (out, any)
      let (any, rest) ← row rd r any rest
      return (any, { entry with plan := .read slot out blockSkip } :: rest)
    | .skip bytes => do
      skip (bytes : Int)
      let (any, rest) ← row rd r any rest
      return (any, entry :: rest)

/-- the loop `src/raw_data/interleaved_multi_channel_read.rs:69-94` -/
def interLoop (rd : Act α) : (remaining row : Nat) → List (RecordEntry α) → (samples : Nat) →
    Act (Nat × List (RecordEntry α))
  | 0, _, plan, samples => .ret (samples, plan)
  | remaining + 1, r, plan, samples => do
    let (any, plan) ← row rd r false plan
    if any then interLoop rd remaining (r + 1) plan (samples + 1)
    else return (samples, plan)

/-- `src/raw_data/interleaved_multi_channel_read.rs:44-96` `read` after `to_file_position` (line 48) -/
def interRead (S : Storage α) (rd : Act α) (size : Nat) (plan : List (RecordEntry α)) :
    Act (Nat × List (RecordEntry α)) := do
  let total ← lift (divR size (rowSize S plan))
  let minSkip := minOrZero (blockSkips plan)
  if minSkip > 0 then
    let off ← lift (mulI64 (toI64 minSkip) (toI64 (rowSize S plan)))
    skip off
  let plan := mapSkips (fun s => s - minSkip) plan
  interLoop rd (total - minSkip) 0 plan 0

end Act
end Tedium
