import Verif.Model.Handle

/-!
# Reading as assignments to the output slices

In `Model/BlockRead.lean` and `Model/Act.lean` a read gives its output slices back when it succeeds. In the code it assigns
to them one cell at a time, and what has been assigned stays assigned when a later operation fails. Here are the
same readers with these assignments as instructions.
-/

namespace Tedium

/-- A program over a reader with a result, that also assigns: `Act` with one more instruction. The instruction is the
    assignment of `src/raw_data/contigious_multi_channel_read.rs:234`,
    `src/raw_data/interleaved_multi_channel_read.rs:80`. -/
inductive Prog (σ α : Type) where
  | ret (a : α)
  | stop (e : Fail)
  | exact (n : Nat) (next : Bytes → Prog σ α)
  | move (offset : Int) (next : Prog σ α)
  /-- an assignment -/
  | store (s : σ) (next : Prog σ α)

/-- `*output_value = value` for the cell with the number `cell` of the slice `slot`
    (`src/raw_data/contigious_multi_channel_read.rs:234`, `src/raw_data/interleaved_multi_channel_read.rs:80`). -/
structure CellStore (α : Type) where
  slot : Nat
  cell : Nat
  value : α
  deriving DecidableEq, Repr

namespace Prog
variable {σ α β : Type}

/-- sequencing with `?`. As in `src/io/reader.rs:44-50`. -/
def bind : Prog σ α → (α → Prog σ β) → Prog σ β
  | .ret a, k => k a
  | .stop e, _ => .stop e
  | .exact n next, k => .exact n (fun bs => (next bs).bind k)
  | .move offset next, k => .move offset (next.bind k)
  | .store s next, k => .store s (next.bind k)

/-- `Ok(a)` and `?`, for `do` notation (as in `src/io/reader.rs:43-58`). -/
instance : Monad (Prog σ) where
  pure := .ret
  bind := Prog.bind

/-- a program that does not assign. As `src/io/reader.rs:63-65`. -/
def ofAct : Act α → Prog σ α
  | .ret a => .ret a
  | .stop e => .stop e
  | .exact n next => .exact n (fun bs => ofAct (next bs))
  | .move offset next => .move offset (ofAct next)

/-- `src/io/reader.rs:37-40` `move_position` -/
def skip (offset : Int) : Prog σ Unit := .move offset (.ret ())

/-- an assignment (`src/raw_data/contigious_multi_channel_read.rs:234`,
    `src/raw_data/interleaved_multi_channel_read.rs:80`) -/
def assign (s : σ) : Prog σ Unit := .store s (.ret ())

/-- a computation that does not touch the reader. As the sizes in `src/raw_data/contigious_multi_channel_read.rs:62`. -/
def lift : R α → Prog σ α
  | .ok a => .ret a
  | .error e => .stop e

/-- Run the program on the file contents and a position: the result, and the assignments made. Of the model only: what
    `src/io/reader.rs:28-40` and the assignments do. -/
def runOn (f : Bytes) : Prog σ α → Nat → R α × List σ
  | .ret a, _ => (.ok a, [])
  | .stop e, _ => (.error e, [])
  | .exact n next, p =>
    match Rd.exact n f p with
    | .error e => (.error e, [])
    | .ok (bs, p) => runOn f (next bs) p
  | .move offset next, p =>
    match Rd.move offset f p with
    | .error e => (.error e, [])
    | .ok (_, p) => runOn f next p
  | .store s next, p =>
    let (r, ss) := runOn f next p
    (r, s :: ss)

/-- Run the program on a `BufReader` over a stream: also, the `BufReader` afterwards. What `src/io/reader.rs:61-91` and
    the assignments do. -/
def runBuf : Prog σ α → BufReader → (R α × List σ) × BufReader
  | .ret a, b => ((.ok a, []), b)
  | .stop e, b => ((.error e, []), b)
  | .exact n next, b =>
    match b.readExact n with
    | (.error e, b) => ((.error e, []), b)
    | (.ok bs, b) => runBuf (next bs) b
  | .move offset next, b =>
    match b.seekRelative offset with
    | (some kind, b) => ((R.err (.ioError kind), []), b)
    | (none, b) => runBuf next b
  | .store s next, b =>
    let ((r, ss), b) := runBuf next b
    ((r, s :: ss), b)

/-! ## Data blocks

`rd` is `D::read_le` or `D::read_be` for the requested type. -/

/-- the loop of `read_sequential_samples` (`src/raw_data/contigious_multi_channel_read.rs:232-236`): the value is read before the
    assignment. -/
def values (rd : Act α) (slot : Nat) : Nat → OutIter α → Prog (CellStore α) (Nat × OutIter α)
  | 0, it => .ret (0, it)
  | n + 1, it =>
    match it.rest with
    | [] => .ret (0, it)
    | _ :: rest => do
      let v ← ofAct rd
      assign ⟨slot, it.done.length, v⟩
      let (k, it) ← values rd slot n ⟨it.done ++ [v], rest⟩
      return (k + 1, it)

/-- `src/raw_data/contigious_multi_channel_read.rs:227-244` `read_sequential_samples` -/
def sequential (S : Storage α) (rd : Act α) (slot : Nat) (out : OutIter α) (samples : Nat) :
    Prog (CellStore α) (Nat × OutIter α) := do
  let (length, out) ← values rd slot samples out
  let unread := samples - length
  if unread > 0 then
    let off ← lift (mulI64 (toI64 unread) (toI64 S.memSize))
    skip off
  return (length, out)

/-- `src/raw_data/contigious_multi_channel_read.rs:191-224` `read_sub_block` -/
def subBlock (S : Storage α) (rd : Act α) (length : Nat) :
    List (RecordEntry α) → Prog (CellStore α) (Nat × List (RecordEntry α))
  | [] => .ret (length, [])
  | entry :: rest =>
    match entry.plan with
    | .read slot out blockSkip => do
      let skipped := min blockSkip entry.length
      let samplesToRead := entry.length - skipped
      if skipped > 0 then
        let off ← lift (mulI64 (toI64 skipped) (toI64 S.memSize))
        skip off
      let (n, out) ← sequential S rd slot out samplesToRead
      let (length, rest) ← subBlock S rd n rest
      return (length, { entry with plan := .read slot out blockSkip } :: rest)
    | .skip bytes => do
      let off ← lift (mulI64 (bytes : Int) (toI64 entry.length))
      skip off
      let (length, rest) ← subBlock S rd length rest
      return (length, entry :: rest)

/-- the loop `src/raw_data/contigious_multi_channel_read.rs:72-101` -/
def contigLoop (S : Storage α) (rd : Act α) (bs toSkip remainder : Nat) : (remaining idx : Nat) → List (RecordEntry α) →
    (length : Nat) → Prog (CellStore α) (Nat × List (RecordEntry α))
  | 0, _, plan, length => .ret (length, plan)
  | remaining + 1, idx, plan, length =>
    if idx < toSkip then do
      skip (toI64 bs)
      contigLoop S rd bs toSkip remainder remaining (idx + 1) plan length
    else if idx = toSkip then do
      let (n, plan) ← subBlock S rd 0 (mapSkips (fun _ => remainder) plan)
      contigLoop S rd bs toSkip remainder remaining (idx + 1) plan (length + n)
    else do
      let (n, plan) ← subBlock S rd 0 (mapSkips (fun _ => 0) plan)
      contigLoop S rd bs toSkip remainder remaining (idx + 1) plan (length + n)

/-- `src/raw_data/contigious_multi_channel_read.rs:55-104` `read_from` after `to_file_position` (line 60) -/
def contigReadFrom (S : Storage α) (rd : Act α) (size : Nat) (plan : List (RecordEntry α)) (startSample : Nat) :
    Prog (CellStore α) (Nat × List (RecordEntry α)) := do
  let bs ← lift (blockSize S plan)
  let total ← lift (divR size bs)
  let sub ← lift (firstLength plan)
  let toSkip ← lift (divR startSample sub)
  let remainder := startSample % sub
  contigLoop S rd bs toSkip remainder total 0 plan 0

/-- the loop `src/raw_data/contigious_multi_channel_read.rs:131-169` -/
def contigSkipLoop (S : Storage α) (rd : Act α) (bs : Nat) (toSkip remainders : List Nat) : (remaining idx : Nat) →
    List (RecordEntry α) → (length : Nat) → Prog (CellStore α) (Nat × List (RecordEntry α))
  | 0, _, plan, length => .ret (length, plan)
  | remaining + 1, idx, plan, length =>
    if toSkip.all (fun skip => idx ≥ skip) then do
      let skips := (toSkip.zip remainders).map (fun (b, r) => calculateSkip idx b r)
      let (n, plan) ← subBlock S rd 0 (setSkips skips plan)
      contigSkipLoop S rd bs toSkip remainders remaining (idx + 1) plan (length + n)
    else do
      skip (toI64 bs)
      contigSkipLoop S rd bs toSkip remainders remaining (idx + 1) plan length

/-- `src/raw_data/contigious_multi_channel_read.rs:109-172` `read_with_per_channel_skip` after `to_file_position` (line 114) -/
def contigReadSkip (S : Storage α) (rd : Act α) (size : Nat) (plan : List (RecordEntry α)) (skips : List Nat) :
    Prog (CellStore α) (Nat × List (RecordEntry α)) := do
  let bs ← lift (blockSize S plan)
  let total ← lift (divR size bs)
  let sub ← lift (firstLength plan)
  let toSkip ← lift (divAll sub skips)
  let remainders := skips.map (fun s => s % sub)
  contigSkipLoop S rd bs toSkip remainders total 0 plan 0

/-- one row, `src/raw_data/interleaved_multi_channel_read.rs:71-89`: the value is read first, and assigned if the row is wanted and
    there is a cell left. -/
def row (rd : Act α) (r : Nat) (any : Bool) : List (RecordEntry α) → Prog (CellStore α) (Bool × List (RecordEntry α))
  | [] => .ret (any, [])
  | entry :: rest =>
    match entry.plan with
    | .read slot out blockSkip => do
      let v ← ofAct rd
      let (out, any) ←
        (if r ≥ blockSkip then
          match out.rest with
          | [] => .ret (out, any)
          | _ :: cells => do
            assign ⟨slot, out.done.length, v⟩
            return (⟨out.done ++ [v], cells⟩, true)
        else .ret (out, any))
      let (any, rest) ← row rd r any rest
      return (any, { entry with plan := .read slot out blockSkip } :: rest)
    | .skip bytes => do
      skip (bytes : Int)
      let (any, rest) ← row rd r any rest
      return (any, entry :: rest)

/-- the loop `src/raw_data/interleaved_multi_channel_read.rs:69-94` -/
def interLoop (rd : Act α) : (remaining row : Nat) → List (RecordEntry α) → (samples : Nat) →
    Prog (CellStore α) (Nat × List (RecordEntry α))
  | 0, _, plan, samples => .ret (samples, plan)
  | remaining + 1, r, plan, samples => do
    let (any, plan) ← row rd r false plan
    if any then interLoop rd remaining (r + 1) plan (samples + 1)
    else return (samples, plan)

/-- `src/raw_data/interleaved_multi_channel_read.rs:44-96` `read` after `to_file_position` (line 48) -/
def interRead (S : Storage α) (rd : Act α) (size : Nat) (plan : List (RecordEntry α)) :
    Prog (CellStore α) (Nat × List (RecordEntry α)) := do
  let total ← lift (divR size (rowSize S plan))
  let minSkip := minOrZero (blockSkips plan)
  if minSkip > 0 then
    let off ← lift (mulI64 (toI64 minSkip) (toI64 (rowSize S plan)))
    skip off
  let plan := mapSkips (fun s => s - minSkip) plan
  interLoop rd (total - minSkip) 0 plan 0

end Prog

/-! ## Executing a plan

The file is anything on which a program can be run from a given position. -/

section
variable {α δ : Type}

/-- the program run by a block read: `src/raw_data/mod.rs:197-237` `read` and 321-389 `read_with_per_channel_skip`, after
    `to_file_position` -/
def DataBlock.program (S : Storage α) (rd : Endian → Act α) (b : DataBlock) (anySkip : Bool) (reqs : List (ChannelRequest α)) :
    R (Prog (CellStore α) (Nat × List (RecordEntry α))) :=
  match buildRecordPlan S b.channels reqs with
  | .error e => .error e
  | .ok plan =>
    let skips := reqs.map (·.skip)
    match b.layout, anySkip with
    | .contigious, false => .ok (Prog.contigReadFrom S (rd b.byteOrder) b.length plan 0)
    | .contigious, true => .ok (Prog.contigReadSkip S (rd b.byteOrder) b.length plan skips)
    | .interleaved, false => .ok (Prog.interRead S (rd b.byteOrder) b.length plan)
    | .interleaved, true => .ok (Prog.interRead S (rd b.byteOrder) b.length (setSkips skips plan))

/-- How to run a program from a position of a file. As `src/raw_data/mod.rs:207,214,222,230` with
    `src/io/reader.rs:28-34`. -/
abbrev Runner (δ α : Type) :=
  Nat → Prog (CellStore α) (Nat × List (RecordEntry α)) → δ → (R (Nat × List (RecordEntry α)) × List (CellStore α)) × δ

/-- The cell of the whole slice: the block reader got `&mut output[samples_read..]` (`src/file/channel_reader.rs:219,244`). -/
def CellStore.inSlice (ps : List (Progress α)) (s : CellStore α) : CellStore α :=
  { s with cell := (match ps[s.slot]? with | some p => p.samplesRead | none => 0) + s.cell }

/-- An assignment to a cell of one of the slices. The slices of `src/file/channel_reader.rs:123`. -/
def CellStore.apply (outputs : List (List α)) (s : CellStore α) : List (List α) :=
  outputs.modify s.slot (fun o => o.set s.cell s.value)

/-- the same for slices with their progress. The slices of `src/file/channel_reader.rs:219,244`. -/
def CellStore.applyTo (ps : List (Progress α)) (s : CellStore α) : List (Progress α) :=
  ps.modify s.slot (fun p => { p with output := p.output.set s.cell s.value })

/-- one iteration of `execute_read_plan`, `src/file/channel_reader.rs:156-192`: the slices with their progress, the
    assignments made, and the file -/
def executeBlockInto (S : Storage α) (rd : Endian → Act α) (run : Runner δ α) (ix : Index) (loc : BlockRead)
    (ps : List (Progress α)) (d : δ) : R (List (Progress α)) × List (CellStore α) × δ :=
  let anySkip := loc.channelIndexes.any (fun
    | some p => decide (p.samplesToSkip > 0)
    | none => false)
  match ix.getDataBlock loc.dataBlock with
  | none => (R.err (.dataBlockNotFound loc.dataBlock), [], d)
  | some block =>
    match block.program S rd anySkip (blockRequests 0 loc.channelIndexes ps) with
    | .error e => (.error e, [], d)
    | .ok a =>
      let ((r, ss), d) := run block.start a d
      let log := ss.map (CellStore.inSlice ps)
      match r with
      | .error e => (.error e, log, d)
      | .ok (n, _) => (.ok (addSamples n loc.channelIndexes (log.foldl CellStore.applyTo ps)), log, d)

/-- `src/file/channel_reader.rs:145-200` `execute_read_plan` -/
def executePlanInto (S : Storage α) (rd : Endian → Act α) (run : Runner δ α) (ix : Index) : List BlockRead →
    List (Progress α) → δ → R (List (Progress α)) × List (CellStore α) × δ
  | [], ps, d => (.ok ps, [], d)
  | loc :: locs, ps, d =>
    match executeBlockInto S rd run ix loc ps d with
    | (.error e, log, d) => (.error e, log, d)
    | (.ok ps, log, d) =>
      if ps.all Progress.isComplete then (.ok ps, log, d)
      else
        let (r, more, d) := executePlanInto S rd run ix locs ps d
        (r, log ++ more, d)

/-- Run a program on the file contents. In place of `src/io/reader.rs:28-40`. -/
def Runner.contents : Runner Bytes α := fun start a f => (a.runOn f start, f)

/-- Run a program on a stream, through a fresh `BufReader`, after `to_file_position` (`src/io/reader.rs:30-34`). -/
def Runner.stream (capacity : Nat) : Runner Device α := fun start a d =>
  match (BufReader.new capacity d).seekStart start with
  | (some kind, b) => ((R.err (.ioError kind), []), b.dev)
  | (none, b) =>
    let (r, b) := a.runBuf b
    (r, b.dev)

end

/-- `src/file/channel_reader.rs:120-139` `read_channels_from`: whether it succeeds, the assignments that it makes to the
    output slices, and the file. (`outputs` matter only through their lengths.) -/
def readChannelsLog {δ : Type} (al : Alloc) (ty : STy) (run : Runner δ ty.Val) (ix : Index) (channels : List ChannelPath)
    (start : Nat) (outputs : List (List ty.Val)) (d : δ) : R Unit × List (CellStore ty.Val) × δ :=
  match TdmsFile.lookupPositions ⟨ix, []⟩ channels with
  | .error e => (.error e, [], d)
  | .ok positions =>
    match readPlan positions start with
    | .error e => (.error e, [], d)
    | .ok plan =>
      let (r, log, d) := executePlanInto (ty.storage al) (Act.value al ty) run ix plan (outputs.map (fun o => ⟨o, 0⟩)) d
      (r.map (fun _ => ()), log, d)

/-- `src/file/channel_reader.rs:79-92` `read_channel_from`; the only output slice has the number 0. -/
def readChannelLog {δ : Type} (al : Alloc) (ty : STy) (run : Runner δ ty.Val) (ix : Index) (channel : ChannelPath)
    (start : Nat) (output : List ty.Val) (d : δ) : R Unit × List (CellStore ty.Val) × δ :=
  match ix.getChannelDataPositions channel with
  | none => (R.err (.missingObject channel.path), [], d)
  | some ls =>
    match readPlan [ls] start with
    | .error e => (.error e, [], d)
    | .ok plan =>
      let (r, log, d) := executePlanInto (ty.storage al) (Act.value al ty) run ix plan [⟨output, 0⟩] d
      (r.map (fun _ => ()), log, d)

/-- `read_channels_from` on the file contents: whether it succeeds, and the slices afterwards
    (`src/file/channel_reader.rs:120-139`) -/
def TdmsFile.readChannelsInto (al : Alloc) (ty : STy) (t : TdmsFile) (channels : List ChannelPath) (start : Nat)
    (outputs : List (List ty.Val)) : R Unit × List (List ty.Val) :=
  let (r, log, _) := readChannelsLog al ty Runner.contents t.index channels start outputs t.bytes
  (r, log.foldl CellStore.apply outputs)

/-- `read_channel_from` on the file contents (`src/file/channel_reader.rs:79-92`) -/
def TdmsFile.readChannelInto (al : Alloc) (ty : STy) (t : TdmsFile) (channel : ChannelPath) (start : Nat)
    (output : List ty.Val) : R Unit × List ty.Val :=
  let (r, log, _) := readChannelLog al ty Runner.contents t.index channel start output t.bytes
  (r, (log.foldl CellStore.apply [output]).headD [])

/-- `read_channels_from` on a stream (`src/file/channel_reader.rs:120-139`) -/
def Handle.readChannelsInto (al : Alloc) (capacity : Nat) (ty : STy) (h : Handle) (channels : List ChannelPath) (start : Nat)
    (outputs : List (List ty.Val)) : R Unit × List (List ty.Val) × Handle :=
  let (r, log, dev) := readChannelsLog al ty (Runner.stream capacity) h.index channels start outputs h.dev
  (r, log.foldl CellStore.apply outputs, { h with dev })

/-- `read_channel_from` on a stream (`src/file/channel_reader.rs:79-92`) -/
def Handle.readChannelInto (al : Alloc) (capacity : Nat) (ty : STy) (h : Handle) (channel : ChannelPath) (start : Nat)
    (output : List ty.Val) : R Unit × List ty.Val × Handle :=
  let (r, log, dev) := readChannelLog al ty (Runner.stream capacity) h.index channel start output h.dev
  (r, (log.foldl CellStore.apply [output]).headD [], { h with dev })

end Tedium
