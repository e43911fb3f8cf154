import Verif.Model.RawData

/-!
# Reading a data block (`src/raw_data/mod.rs:197-389`, `src/raw_data/records.rs`,
`src/raw_data/contigious_multi_channel_read.rs`, `src/raw_data/interleaved_multi_channel_read.rs`)

An output slice is an iterator `OutIter`: the values already stored and the cells still to be
filled. The contents of an output slice after a read that returned an error are
in `Model/Stores.lean`.
-/

namespace Tedium

/-! ## 64-bit signed arithmetic -/

/-- `x as i64` for a `u64`/`usize` (`src/raw_data/contigious_multi_channel_read.rs:74,137,209,241`,
    `src/raw_data/interleaved_multi_channel_read.rs:56`) -/
def toI64 (n : Nat) : Int := if n < 2 ^ 63 then (n : Int) else (n : Int) - 2 ^ 64

/-- `a * b` on `i64` with overflow checks (`src/raw_data/contigious_multi_channel_read.rs:209,217,241`,
    `src/raw_data/interleaved_multi_channel_read.rs:56`) -/
def mulI64 (a b : Int) : R Int :=
  if -(2 ^ 63) ≤ a * b ∧ a * b < 2 ^ 63 then .ok (a * b) else R.panic .overflow

/-- `src/io/reader.rs:37-40` `move_position`: `BufReader::seek_relative` on a cursor. A position
    outside `0..2^64` is `ErrorKind::InvalidInput`. -/
def Rd.move (offset : Int) : Rd Unit := fun _ p =>
  let q : Int := (p : Int) + offset
  if q < 0 ∨ 2 ^ 64 ≤ q then R.err (.ioError .invalidInput) else .ok ((), q.toNat)

/-- A computation that does not touch the reader. As the sizes in `src/raw_data/contigious_multi_channel_read.rs:62`. -/
def Rd.lift {α : Type} (x : R α) : Rd α := fun _ p =>
  match x with
  | .ok a => .ok (a, p)
  | .error e => .error e

/-- `src/io/reader.rs:30-34` `to_file_position` (a cursor accepts every `u64` position) -/
def Rd.seek (position : Nat) : Rd Unit := fun _ _ => .ok ((), position)

/-! ## Record plans -/

/-- `std::slice::IterMut` over an output slice: `done` have been assigned, `rest` are the cells
    not visited yet. The slice contents are `done ++ rest` (`src/raw_data/records.rs:144`). -/
structure OutIter (α : Type) where
  done : List α
  rest : List α
  deriving DecidableEq, Repr

/-- `src/raw_data/records.rs:13-23`. `slot` is the position of the output slice in the request; it
    stands for the identity of the borrowed slice. -/
inductive EntryPlan (α : Type) where
  | skip (bytes : Nat)
  | read (slot : Nat) (output : OutIter α) (blockSkip : Nat)
  deriving Repr

/-- `src/raw_data/records.rs:36-41` -/
structure RecordEntry (α : Type) where
  length : Nat
  plan : EntryPlan α
  deriving Repr

/-- One requested channel of a block: `(usize, &mut [T])` of `DataBlock::read`, or
    `BlockReadChannelConfig` (`src/raw_data/mod.rs:98-102`) when `skip` is used. -/
structure ChannelRequest (α : Type) where
  channelIndex : Nat
  slot : Nat
  output : List α
  skip : Nat := 0
  deriving Repr

section
variable {α : Type}

/-- `src/raw_data/records.rs:26-31` `entry_size_bytes` -/
def EntryPlan.sizeBytes (S : Storage α) : EntryPlan α → Nat
  | .skip b => b
  | .read _ _ _ => S.memSize

/-- `src/raw_data/records.rs:129-138` `build_base_record` -/
def baseRecord (channels : List RawDataMeta) : List (RecordEntry α) :=
  channels.map (fun c => { length := c.numberOfValues, plan := .skip c.dataType.size })

/-- `src/raw_data/records.rs:154-167` `validate_types_match` -/
def validateTypes (S : Storage α) (channels : List RawDataMeta) :
    List (ChannelRequest α) → R Unit
  | [] => .ok ()
  | r :: rs =>
    match channels[r.channelIndex]? with
    | none => R.panic .indexOutOfBounds
    | some c =>
      if S.supported.contains c.dataType then validateTypes S channels rs
      else R.err (.dataTypeMismatch c.dataType S.natural)

/-- `src/raw_data/records.rs:141-148` `set_readable_records`: later requests for the same channel
    replace earlier ones. -/
def setReadable (plan : List (RecordEntry α)) : List (ChannelRequest α) → R (List (RecordEntry α))
  | [] => .ok plan
  | r :: rs =>
    match plan[r.channelIndex]? with
    | none => R.panic .indexOutOfBounds
    | some entry =>
      setReadable (plan.set r.channelIndex
        { entry with plan := .read r.slot ⟨[], r.output⟩ 0 }) rs

/-- `src/raw_data/records.rs:56-66` `build_record_plan` (`compress_reads` is empty, lines 151). -/
def buildRecordPlan (S : Storage α) (channels : List RawDataMeta)
    (outputs : List (ChannelRequest α)) : R (List (RecordEntry α)) := do
  validateTypes S channels outputs
  setReadable (baseRecord channels) outputs

/-- `src/raw_data/records.rs:74-82` `block_skips` -/
def blockSkips (plan : List (RecordEntry α)) : List Nat :=
  plan.filterMap (fun e => match e.plan with
    | .read _ _ s => some s
    | .skip _ => none)

/-- assignment through `block_skips_mut` (`src/raw_data/records.rs:85-93`) zipped with a list of
    values: the i-th read entry gets the i-th value, as long as there are values. -/
def setSkips : List Nat → List (RecordEntry α) → List (RecordEntry α)
  | _, [] => []
  | [], plan => plan
  | s :: ss, entry :: rest =>
    match entry.plan with
    | .read slot out _ => { entry with plan := .read slot out s } :: setSkips ss rest
    | .skip _ => entry :: setSkips (s :: ss) rest

/-- assignment of a function of the old value through `block_skips_mut` to every read entry
    (`src/raw_data/contigious_multi_channel_read.rs:140-166`) -/
def mapSkips (g : Nat → Nat) (plan : List (RecordEntry α)) : List (RecordEntry α) :=
  plan.map (fun entry => match entry.plan with
    | .read slot out s => { entry with plan := .read slot out (g s) }
    | .skip _ => entry)

/-- `src/raw_data/records.rs:100-108` `row_size`. (A sum of one-byte sizes over a vector; it cannot
    overflow.) -/
def rowSize (S : Storage α) (plan : List (RecordEntry α)) : Nat :=
  (plan.map (fun e => e.plan.sizeBytes S)).sum

/-- `src/raw_data/records.rs:115-126` `block_size`: `usize` product and sum with overflow checks. -/
def blockSize (S : Storage α) (plan : List (RecordEntry α)) : R Nat :=
  let n := (plan.map (fun e => e.plan.sizeBytes S * e.length)).sum
  if n < u64Lim then .ok n else R.panic .overflow

/-- integer division with the division-by-zero panic
    (`src/raw_data/contigious_multi_channel_read.rs:62,66-67,116,122,126`,
    `src/raw_data/interleaved_multi_channel_read.rs:49`) -/
def divR (a b : Nat) : R Nat := if b = 0 then R.panic .divByZero else .ok (a / b)

/-! ## Contiguous blocks -/

/-- the loop of `read_sequential_samples` (`src/raw_data/contigious_multi_channel_read.rs:232-236`) -/
def readValues (S : Storage α) (e : Endian) : Nat → OutIter α → Rd (Nat × OutIter α)
  | 0, it => Rd.pure (0, it)
  | n + 1, it =>
    match it.rest with
    | [] => Rd.pure (0, it)
    | _ :: rest => do
      let v ← S.read e
      let (k, it) ← readValues S e n ⟨it.done ++ [v], rest⟩
      return (k + 1, it)

/-- `src/raw_data/contigious_multi_channel_read.rs:227-244` `read_sequential_samples` -/
def readSequential (S : Storage α) (e : Endian) (out : OutIter α) (samples : Nat) :
    Rd (Nat × OutIter α) := do
  let (length, out) ← readValues S e samples out
  let unread := samples - length
  if unread > 0 then
    let off ← Rd.lift (mulI64 (toI64 unread) (toI64 S.memSize))
    Rd.move off
  return (length, out)

/-- `src/raw_data/contigious_multi_channel_read.rs:191-224` `read_sub_block`; `length` is the running value of
    the local variable, i.e. the count of the last read entry. -/
def readSubBlock (S : Storage α) (e : Endian) (length : Nat) :
    List (RecordEntry α) → Rd (Nat × List (RecordEntry α))
  | [] => Rd.pure (length, [])
  | entry :: rest =>
    match entry.plan with
    | .read slot out blockSkip => do
      let skip := min blockSkip entry.length
      let samplesToRead := entry.length - skip
      if skip > 0 then
        let off ← Rd.lift (mulI64 (toI64 skip) (toI64 S.memSize))
        Rd.move off
      let (n, out) ← readSequential S e out samplesToRead
      let (length, rest) ← readSubBlock S e n rest
      return (length, { entry with plan := .read slot out blockSkip } :: rest)
    | .skip bytes => do
      let off ← Rd.lift (mulI64 (bytes : Int) (toI64 entry.length))
      Rd.move off
      let (length, rest) ← readSubBlock S e length rest
      return (length, entry :: rest)

/-- the loop `src/raw_data/contigious_multi_channel_read.rs:72-101`; `bs` is `block_size()`, which does not
    change during the loop. -/
def contigLoop (S : Storage α) (e : Endian) (bs toSkip remainder : Nat) :
    (remaining idx : Nat) → List (RecordEntry α) → (length : Nat) →
    Rd (Nat × List (RecordEntry α))
  | 0, _, plan, length => Rd.pure (length, plan)
  | remaining + 1, idx, plan, length =>
    if idx < toSkip then do
      Rd.move (toI64 bs)
      contigLoop S e bs toSkip remainder remaining (idx + 1) plan length
    else if idx = toSkip then do
      let (n, plan) ← readSubBlock S e 0 (mapSkips (fun _ => remainder) plan)
      contigLoop S e bs toSkip remainder remaining (idx + 1) plan (length + n)
    else do
      let (n, plan) ← readSubBlock S e 0 (mapSkips (fun _ => 0) plan)
      contigLoop S e bs toSkip remainder remaining (idx + 1) plan (length + n)

/-- `channels.read_instructions()[0].length` (`src/raw_data/contigious_multi_channel_read.rs:65,119`) -/
def firstLength : List (RecordEntry α) → R Nat
  | [] => R.panic .indexOutOfBounds
  | entry :: _ => .ok entry.length

/-- `src/raw_data/contigious_multi_channel_read.rs:55-104` `read_from`; `read` (lines 40-47) is
    `read_from(_, 0)`. -/
def contigReadFrom (S : Storage α) (e : Endian) (start size : Nat) (plan : List (RecordEntry α))
    (startSample : Nat) : Rd (Nat × List (RecordEntry α)) := do
  Rd.seek start
  let bs ← Rd.lift (blockSize S plan)
  let total ← Rd.lift (divR size bs)
  let sub ← Rd.lift (firstLength plan)
  let toSkip ← Rd.lift (divR startSample sub)
  let remainder := startSample % sub
  contigLoop S e bs toSkip remainder total 0 plan 0

/-- `src/raw_data/contigious_multi_channel_read.rs:174-189` `calculate_skip_for_this_block` -/
def calculateSkip (idx blocksToSkip remainder : Nat) : Nat :=
  if idx = blocksToSkip then remainder else 0

/-- `skip_amounts.iter().map(|&skip| skip / sub_block_length)`
    (`src/raw_data/contigious_multi_channel_read.rs:120-127`): no division happens for an empty list. -/
def divAll (sub : Nat) : List Nat → R (List Nat)
  | [] => .ok []
  | s :: ss => do return (← divR s sub) :: (← divAll sub ss)

/-- the loop `src/raw_data/contigious_multi_channel_read.rs:131-169` -/
def contigSkipLoop (S : Storage α) (e : Endian) (bs : Nat) (toSkip remainders : List Nat) :
    (remaining idx : Nat) → List (RecordEntry α) → (length : Nat) →
    Rd (Nat × List (RecordEntry α))
  | 0, _, plan, length => Rd.pure (length, plan)
  | remaining + 1, idx, plan, length =>
    if toSkip.all (fun skip => idx ≥ skip) then do
      let skips := (toSkip.zip remainders).map (fun (b, r) => calculateSkip idx b r)
      let (n, plan) ← readSubBlock S e 0 (setSkips skips plan)
      contigSkipLoop S e bs toSkip remainders remaining (idx + 1) plan (length + n)
    else do
      Rd.move (toI64 bs)
      contigSkipLoop S e bs toSkip remainders remaining (idx + 1) plan length

/-- `src/raw_data/contigious_multi_channel_read.rs:109-172` `read_with_per_channel_skip` -/
def contigReadSkip (S : Storage α) (e : Endian) (start size : Nat) (plan : List (RecordEntry α))
    (skips : List Nat) : Rd (Nat × List (RecordEntry α)) := do
  Rd.seek start
  let bs ← Rd.lift (blockSize S plan)
  let total ← Rd.lift (divR size bs)
  let sub ← Rd.lift (firstLength plan)
  let toSkip ← Rd.lift (divAll sub skips)
  let remainders := skips.map (fun s => s % sub)
  contigSkipLoop S e bs toSkip remainders total 0 plan 0

/-! ## Interleaved blocks -/

/-- one row, `src/raw_data/interleaved_multi_channel_read.rs:71-89`; returns `any_values_read`. -/
def readRow (S : Storage α) (e : Endian) (row : Nat) (any : Bool) :
    List (RecordEntry α) → Rd (Bool × List (RecordEntry α))
  | [] => Rd.pure (any, [])
  | entry :: rest =>
    match entry.plan with
    | .read slot out blockSkip => do
      let v ← S.read e
      let (out, any) := if row ≥ blockSkip then
          match out.rest with
          | [] => (out, any)
          | _ :: cells => (⟨out.done ++ [v], cells⟩, true)
        else (out, any)
      let (any, rest) ← readRow S e row any rest
      return (any, { entry with plan := .read slot out blockSkip } :: rest)
    | .skip bytes => do
      Rd.move (bytes : Int)
      let (any, rest) ← readRow S e row any rest
      return (any, entry :: rest)

/-- the loop `src/raw_data/interleaved_multi_channel_read.rs:69-94` -/
def interLoop (S : Storage α) (e : Endian) :
    (remaining row : Nat) → List (RecordEntry α) → (samples : Nat) →
    Rd (Nat × List (RecordEntry α))
  | 0, _, plan, samples => Rd.pure (samples, plan)
  | remaining + 1, row, plan, samples => do
    let (any, plan) ← readRow S e row false plan
    if any then interLoop S e remaining (row + 1) plan (samples + 1)
    else return (samples, plan)

/-- `Iterator::min().unwrap_or(0)` (`src/raw_data/interleaved_multi_channel_read.rs:52`) -/
def minOrZero : List Nat → Nat
  | [] => 0
  | [x] => x
  | x :: xs => min x (minOrZero xs)

/-- `src/raw_data/interleaved_multi_channel_read.rs:44-96` `read` -/
def interRead (S : Storage α) (e : Endian) (start size : Nat) (plan : List (RecordEntry α)) :
    Rd (Nat × List (RecordEntry α)) := do
  Rd.seek start
  let total ← Rd.lift (divR size (rowSize S plan))
  let minSkip := minOrZero (blockSkips plan)
  if minSkip > 0 then
    let off ← Rd.lift (mulI64 (toI64 minSkip) (toI64 (rowSize S plan)))
    Rd.move off
  let plan := mapSkips (fun s => s - minSkip) plan
  interLoop S e (total - minSkip) 0 plan 0

/-! ## Entry points -/

/-- The contents of the output slices after a read, by slot. The slices of `src/raw_data/records.rs:144`. -/
def planOutputs (plan : List (RecordEntry α)) : List (Nat × List α) :=
  plan.filterMap (fun en => match en.plan with
    | .read slot out _ => some (slot, out.done ++ out.rest)
    | .skip _ => none)

namespace DataBlock

/-- `src/raw_data/mod.rs:197-237` `read` -/
def read (S : Storage α) (f : Bytes) (b : DataBlock) (reqs : List (ChannelRequest α)) :
    R (Nat × List (RecordEntry α)) := do
  let plan ← buildRecordPlan S b.channels reqs
  let r ← match b.layout with
    | .contigious => contigReadFrom S b.byteOrder b.start b.length plan 0 f 0
    | .interleaved => interRead S b.byteOrder b.start b.length plan f 0
  return r.1

/-- `src/raw_data/mod.rs:272-312` `read_from` -/
def readFrom (S : Storage α) (f : Bytes) (b : DataBlock) (reqs : List (ChannelRequest α))
    (startSample : Nat) : R (Nat × List (RecordEntry α)) := do
  let plan ← buildRecordPlan S b.channels reqs
  let r ← match b.layout with
    | .contigious => contigReadFrom S b.byteOrder b.start b.length plan startSample f 0
    | .interleaved =>
      interRead S b.byteOrder b.start b.length (mapSkips (fun _ => startSample) plan) f 0
  return r.1

/-- `src/raw_data/mod.rs:321-389` `read_with_per_channel_skip` -/
def readWithSkip (S : Storage α) (f : Bytes) (b : DataBlock) (reqs : List (ChannelRequest α)) :
    R (Nat × List (RecordEntry α)) := do
  let skips := reqs.map (·.skip)
  let plan ← buildRecordPlan S b.channels reqs
  let r ← match b.layout with
    | .contigious => contigReadSkip S b.byteOrder b.start b.length plan skips f 0
    | .interleaved => interRead S b.byteOrder b.start b.length (setSkips skips plan) f 0
  return r.1

end DataBlock
end
end Tedium
