import Verif.Spec.History

/-!
# Builds with and without overflow checks

The other modules model a build with overflow checks (`cargo build`, `cargo test`), in which an arithmetic overflow panics. In
an optimised build (`cargo build --release`; `Cargo.toml` does not ask for the checks) the result wraps around. This module
has the functions in which that makes a difference, with the build as a parameter; everything else is shared. That the
instance `Build.debug` is the model of the other modules is proved in `Proofs/Build.lean`.

Only four expressions of the code can overflow: the address of a data block, the length of a channel, the size of a chunk and
the distance to move in a data block. The other sums and products are checked by the code (`checked_add`,
`checked_mul`), or count things that are in memory.
-/

namespace Tedium

/-- `x as i64` of the mathematical value of an `i64` expression, without overflow checks
    (`src/raw_data/contigious_multi_channel_read.rs:209,217,241`, `src/raw_data/interleaved_multi_channel_read.rs:56`)
    -/
def wrapI64 (x : Int) : Int := (x + 2 ^ 63) % 2 ^ 64 - 2 ^ 63

/-- What arithmetic does. Of the arithmetic in `src/raw_data/contigious_multi_channel_read.rs:62-74`,
    `src/index/building.rs:84-110`. -/
structure Build where
  /-- `a * b` on `i64` -/
  mul : Int → Int → R Int
  /-- sums and products on `u64` and `usize` whose mathematical value is this -/
  sum : Nat → R Nat

/-- overflow checks on. For `src/raw_data/contigious_multi_channel_read.rs:62-74`, `src/index/building.rs:84-110` in a
    build with `overflow-checks`. -/
def Build.debug : Build where
  mul := mulI64
  sum n := if n < u64Lim then .ok n else R.panic .overflow

/-- overflow checks off: two's complement, and sums and products modulo `2^64`. For
    `src/raw_data/contigious_multi_channel_read.rs:62-74`, `src/index/building.rs:84-110` in an optimised build. -/
def Build.release : Build where
  mul a b := .ok (wrapI64 (a * b))
  sum n := .ok (n % u64Lim)

namespace Build
variable (B : Build)

/-! ## The index -/

/-- `src/raw_data/mod.rs:120-152` `from_segment` -/
def fromSegment (s : Segment) (segmentStart : Nat) (channels : List RawDataMeta) : R DataBlock :=
  let byteOrder := if s.toc.bigEndian then Endian.big else Endian.little
  let layout := if s.toc.dataIsInterleaved then DataLayout.interleaved else DataLayout.contigious
  if s.rawDataOffset > s.nextSegmentOffset then R.err .invalidRawOffset
  else
    let length := s.nextSegmentOffset - s.rawDataOffset
    if length = 0 then R.err .zeroLengthDataBlock
    else if channels.isEmpty then R.err .noActiveChannelsInDataBlock
    else do
      let start ← B.sum (s.rawDataOffset + leadInBytes + segmentStart)
      return { start, length, layout, channels, byteOrder }

/-- the raw-data part of `add_segment`, `src/index/building.rs:82-93` -/
def addRawData (ix : Index) (s : Segment) : R Unit × Index :=
  if s.toc.containsRawData then
    match Index.activeRawDataMeta ix.objects ix.activeObjects with
    | .error e => (.error e, ix)
    | .ok channels =>
      if channels.isEmpty then (R.err .segmentTocDataBlockWithoutDataChannels, ix)
      else match B.fromSegment s ix.nextSegmentStart channels with
        | .error e => (.error e, ix)
        | .ok b => ix.insertDataBlock b
  else (.ok (), ix)

/-- `src/index/building.rs:64-101` `add_segment` -/
def addSegment (ix : Index) (s : Segment) : R Nat × Index :=
  let ix := if s.toc.containsNewObjectList then ix.deactivateAllObjects else ix
  let r := match s.metaData with
    | some m => ix.addObjects m.objects
    | none => (.ok (), ix)
  match r with
  | (.error e, ix) => (.error e, ix)
  | (.ok (), ix) =>
    match B.addRawData ix s with
    | (.error e, ix) => (.error e, ix)
    | (.ok (), ix) => ix.advance s

/-- `src/index/mod.rs:169-177` `channel_length`, `src/file/channel_reader.rs:48-50` -/
def channelLength (t : TdmsFile) (c : ChannelPath) : R (Option Nat) :=
  match t.index.objects.get? c.path with
  | none => .ok none
  | some o => do return some (← B.sum (o.dataLocations.map (·.numberOfSamples)).sum)

/-! ## Opening and writing -/

/-- the loop of `build_index`, `src/file/mod.rs:62-73` -/
def openLoop (al : Alloc) (f : Bytes) : (fuel : Nat) → (pos : Nat) → Index → R Index
  | 0, _, _ => .error .hang
  | fuel + 1, pos, ix =>
    match Segment.read al f pos with
    | .error (.err .endOfFile) => .ok ix
    | .error e => .error e
    | .ok (segment, _) =>
      match B.addSegment ix segment with
      | (.error e, _) => .error e
      | (.ok next, ix) => openLoop al f fuel next ix

/-- `src/file/mod.rs:86-89` `TdmsFile::new` with `build_index` (56-75) -/
def new (al : Alloc) (f : Bytes) : R TdmsFile := do
  return { index := ← B.openLoop al f (f.length / leadInBytes + 1) 0 Index.new, bytes := f }

/-- `src/file/file_writer.rs:39-48` `write_channels` -/
def writeChannels {α : Type} (S : Storage α) (e : Endian) (t : TdmsFile)
    (channels : List ChannelPath) (vals : List α) (layout : DataLayout) : R Unit × TdmsFile :=
  if channels.length = 0 then (R.err .noChannels, t)
  else if vals.length % channels.length ≠ 0 then
    (R.err (.badDataBlockLength vals.length channels.length), t)
  else
    let objects := (channels.map ChannelPath.path).zip (TdmsFile.dataStructure S vals channels.length)
    let (matchesLive, raw) := t.index.checkWriteValues objects
    let md : Option MetaData :=
      if matchesLive then none
      else some { objects := raw.map (fun (p, i) =>
        { path := p, properties := [], rawDataIndex := i }) }
    let toc : ToC :=
      { containsNewObjectList := !matchesLive, dataIsInterleaved := layout = .interleaved }
    let (segment, bytes) := writeSegment e toc md (some (TdmsFile.sliceData S e vals))
    let (r, index) := B.addSegment t.index segment
    (r.map (fun _ => ()), { index, bytes := t.bytes ++ bytes })

/-- `src/file/file_writer.rs:68-94` `write_properties` -/
def writeProperties (e : Endian) (t : TdmsFile) (path : PropertyPath)
    (properties : List (Text × PropertyValue)) : R Unit × TdmsFile :=
  let object : ObjectMetaData := { path := path.path, properties, rawDataIndex := .none }
  let (segment, bytes) := writeSegment e {} (some { objects := [object] }) none
  let (r, index) := B.addSegment t.index segment
  (r.map (fun _ => ()), { index, bytes := t.bytes ++ bytes })

/-- One call of the writer (`src/file/file_writer.rs:39-48,68-94`). -/
def run (al : Alloc) (t : TdmsFile) : Op → R Unit × TdmsFile
  | .write e ty channels vals layout => B.writeChannels (ty.storage al) e t channels vals layout
  | .props e path properties => B.writeProperties e t path properties

/-! ## Reading a data block -/

section
variable {α : Type}

/-- `src/raw_data/records.rs:115-126` `block_size` -/
def blockSize (S : Storage α) (plan : List (RecordEntry α)) : R Nat :=
  B.sum (plan.map (fun e => e.plan.sizeBytes S * e.length)).sum

/-- `src/raw_data/contigious_multi_channel_read.rs:227-244` `read_sequential_samples` -/
def readSequential (S : Storage α) (e : Endian) (out : OutIter α) (samples : Nat) :
    Rd (Nat × OutIter α) := do
  let (length, out) ← readValues S e samples out
  let unread := samples - length
  if unread > 0 then
    let off ← Rd.lift (B.mul (toI64 unread) (toI64 S.memSize))
    Rd.move off
  return (length, out)

/-- `src/raw_data/contigious_multi_channel_read.rs:191-224` `read_sub_block` -/
def readSubBlock (S : Storage α) (e : Endian) (length : Nat) :
    List (RecordEntry α) → Rd (Nat × List (RecordEntry α))
  | [] => Rd.pure (length, [])
  | entry :: rest =>
    match entry.plan with
    | .read slot out blockSkip => do
      let skip := min blockSkip entry.length
      let samplesToRead := entry.length - skip
      if skip > 0 then
        let off ← Rd.lift (B.mul (toI64 skip) (toI64 S.memSize))
        Rd.move off
      let (n, out) ← B.readSequential S e out samplesToRead
      let (length, rest) ← readSubBlock S e n rest
      return (length, { entry with plan := .read slot out blockSkip } :: rest)
    | .skip bytes => do
      let off ← Rd.lift (B.mul (bytes : Int) (toI64 entry.length))
      Rd.move off
      let (length, rest) ← readSubBlock S e length rest
      return (length, entry :: rest)

/-- the loop `src/raw_data/contigious_multi_channel_read.rs:72-101` -/
def contigLoop (S : Storage α) (e : Endian) (bs toSkip remainder : Nat) :
    (remaining idx : Nat) → List (RecordEntry α) → (length : Nat) →
    Rd (Nat × List (RecordEntry α))
  | 0, _, plan, length => Rd.pure (length, plan)
  | remaining + 1, idx, plan, length =>
    if idx < toSkip then do
      Rd.move (toI64 bs)
      contigLoop S e bs toSkip remainder remaining (idx + 1) plan length
    else if idx = toSkip then do
      let (n, plan) ← B.readSubBlock S e 0 (mapSkips (fun _ => remainder) plan)
      contigLoop S e bs toSkip remainder remaining (idx + 1) plan (length + n)
    else do
      let (n, plan) ← B.readSubBlock S e 0 (mapSkips (fun _ => 0) plan)
      contigLoop S e bs toSkip remainder remaining (idx + 1) plan (length + n)

/-- `src/raw_data/contigious_multi_channel_read.rs:55-104` `read_from` -/
def contigReadFrom (S : Storage α) (e : Endian) (start size : Nat) (plan : List (RecordEntry α))
    (startSample : Nat) : Rd (Nat × List (RecordEntry α)) := do
  Rd.seek start
  let bs ← Rd.lift (B.blockSize S plan)
  let total ← Rd.lift (divR size bs)
  let sub ← Rd.lift (firstLength plan)
  let toSkip ← Rd.lift (divR startSample sub)
  let remainder := startSample % sub
  B.contigLoop S e bs toSkip remainder total 0 plan 0

/-- the loop `src/raw_data/contigious_multi_channel_read.rs:131-169` -/
def contigSkipLoop (S : Storage α) (e : Endian) (bs : Nat) (toSkip remainders : List Nat) :
    (remaining idx : Nat) → List (RecordEntry α) → (length : Nat) →
    Rd (Nat × List (RecordEntry α))
  | 0, _, plan, length => Rd.pure (length, plan)
  | remaining + 1, idx, plan, length =>
    if toSkip.all (fun skip => idx ≥ skip) then do
      let skips := (toSkip.zip remainders).map (fun (b, r) => calculateSkip idx b r)
      let (n, plan) ← B.readSubBlock S e 0 (setSkips skips plan)
      contigSkipLoop S e bs toSkip remainders remaining (idx + 1) plan (length + n)
    else do
      Rd.move (toI64 bs)
      contigSkipLoop S e bs toSkip remainders remaining (idx + 1) plan length

/-- `src/raw_data/contigious_multi_channel_read.rs:109-172` `read_with_per_channel_skip` -/
def contigReadSkip (S : Storage α) (e : Endian) (start size : Nat) (plan : List (RecordEntry α))
    (skips : List Nat) : Rd (Nat × List (RecordEntry α)) := do
  Rd.seek start
  let bs ← Rd.lift (B.blockSize S plan)
  let total ← Rd.lift (divR size bs)
  let sub ← Rd.lift (firstLength plan)
  let toSkip ← Rd.lift (divAll sub skips)
  let remainders := skips.map (fun s => s % sub)
  B.contigSkipLoop S e bs toSkip remainders total 0 plan 0

/-- `src/raw_data/interleaved_multi_channel_read.rs:44-96` `read` -/
def interRead (S : Storage α) (e : Endian) (start size : Nat) (plan : List (RecordEntry α)) :
    Rd (Nat × List (RecordEntry α)) := do
  Rd.seek start
  let total ← Rd.lift (divR size (rowSize S plan))
  let minSkip := minOrZero (blockSkips plan)
  if minSkip > 0 then
    let off ← Rd.lift (B.mul (toI64 minSkip) (toI64 (rowSize S plan)))
    Rd.move off
  let plan := mapSkips (fun s => s - minSkip) plan
  interLoop S e (total - minSkip) 0 plan 0

/-- `src/raw_data/mod.rs:197-237` `read` -/
def readBlock (S : Storage α) (f : Bytes) (b : DataBlock) (reqs : List (ChannelRequest α)) :
    R (Nat × List (RecordEntry α)) := do
  let plan ← buildRecordPlan S b.channels reqs
  let r ← match b.layout with
    | .contigious => B.contigReadFrom S b.byteOrder b.start b.length plan 0 f 0
    | .interleaved => B.interRead S b.byteOrder b.start b.length plan f 0
  return r.1

/-- `src/raw_data/mod.rs:321-389` `read_with_per_channel_skip` -/
def readBlockSkip (S : Storage α) (f : Bytes) (b : DataBlock) (reqs : List (ChannelRequest α)) :
    R (Nat × List (RecordEntry α)) := do
  let skips := reqs.map (·.skip)
  let plan ← buildRecordPlan S b.channels reqs
  let r ← match b.layout with
    | .contigious => B.contigReadSkip S b.byteOrder b.start b.length plan skips f 0
    | .interleaved => B.interRead S b.byteOrder b.start b.length (setSkips skips plan) f 0
  return r.1

/-! ## Reading -/

/-- one iteration of `execute_read_plan`, `src/file/channel_reader.rs:156-192` -/
def executeBlock (S : Storage α) (t : TdmsFile) (loc : BlockRead) (ps : List (Progress α)) :
    R (List (Progress α)) :=
  let anySkip := loc.channelIndexes.any (fun
    | some p => decide (p.samplesToSkip > 0)
    | none => false)
  match t.index.getDataBlock loc.dataBlock with
  | none => R.err (.dataBlockNotFound loc.dataBlock)
  | some block =>
    let reqs := blockRequests 0 loc.channelIndexes ps
    match (if anySkip then B.readBlockSkip S t.bytes block reqs else B.readBlock S t.bytes block reqs) with
    | .error e => .error e
    | .ok (n, plan) => .ok (addSamples n loc.channelIndexes (storeOutputs (planOutputs plan) 0 ps))

/-- `src/file/channel_reader.rs:145-200` `execute_read_plan` -/
def executePlan (S : Storage α) (t : TdmsFile) : List BlockRead → List (Progress α) →
    R (List (Progress α))
  | [], ps => .ok ps
  | loc :: locs, ps =>
    match B.executeBlock S t loc ps with
    | .error e => .error e
    | .ok ps => if ps.all Progress.isComplete then .ok ps else executePlan S t locs ps

/-- `src/file/channel_reader.rs:120-139` `read_channels_from` -/
def readChannelsFrom (S : Storage α) (t : TdmsFile) (channels : List ChannelPath) (start : Nat)
    (outputs : List (List α)) : R (List (List α)) := do
  let positions ← t.lookupPositions channels
  let plan ← readPlan positions start
  let ps ← B.executePlan S t plan (outputs.map (fun o => ⟨o, 0⟩))
  return ps.map (·.output)

/-- `src/file/channel_reader.rs:79-92` `read_channel_from`; `read_channel` (57-63) starts at 0 -/
def readChannelFrom (S : Storage α) (t : TdmsFile) (channel : ChannelPath) (start : Nat)
    (output : List α) : R (List α) :=
  match t.index.getChannelDataPositions channel with
  | none => R.err (.missingObject channel.path)
  | some ls => do
    let plan ← readPlan [ls] start
    let ps ← B.executePlan S t plan [⟨output, 0⟩]
    return (ps.map (·.output)).headD []

end
end Build
end Tedium
