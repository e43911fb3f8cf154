import Verif.Model.Index
import Verif.Model.BlockRead

/-!
# Files (`src/file/mod.rs`, `src/file/file_writer.rs`, `src/file/channel_reader.rs`)

The stream is an in-memory cursor holding `bytes`.
-/

namespace Tedium

/-- `src/file/mod.rs:33-36` -/
structure TdmsFile where
  index : Index
  bytes : Bytes
  deriving DecidableEq, Repr

/-! ## Opening -/

/-- the loop of `build_index`, `src/file/mod.rs:62-73`. A cursor accepts every seek. (For an operating
    system file a seek beyond `i64::MAX` fails and ends the loop; on a cursor the next read at that
    position reports the end of the file and ends the loop as well.) -/
def openLoop (al : Alloc) (f : Bytes) : (fuel : Nat) → (pos : Nat) → Index → R Index
  | 0, _, _ => .error .hang
  | fuel + 1, pos, ix =>
    match Segment.read al f pos with
    | .error (.err .endOfFile) => .ok ix
    | .error e => .error e
    | .ok (segment, _) =>
      match ix.addSegment segment with
      | (.error e, _) => .error e
      | (.ok next, ix) => openLoop al f fuel next ix

/-- `src/file/mod.rs:56-75` `build_index` -/
def buildIndex (al : Alloc) (f : Bytes) : R Index :=
  openLoop al f (f.length / leadInBytes + 1) 0 Index.new

namespace TdmsFile

/-- `src/file/mod.rs:86-89` `TdmsFile::new`; `load` (39-42) and `create` (45-53, on an empty file) go
    through it. -/
def new (al : Alloc) (f : Bytes) : R TdmsFile := do
  return { index := ← buildIndex al f, bytes := f }

/-- `src/file/mod.rs:45-53` `create`: truncates, then `new` -/
def create (al : Alloc) : R TdmsFile := new al []

/-! ## Properties and listing -/

/-- `src/file/mod.rs:104-110` -/
def readProperty (t : TdmsFile) (path : PropertyPath) (property : Text) : R (Option PropertyValue) :=
  t.index.getObjectProperty path property

/-- `src/file/mod.rs:115-120` -/
def readAllProperties (t : TdmsFile) (path : PropertyPath) : Option (List (Text × PropertyValue)) :=
  t.index.getObjectProperties path

/-- the loop of `list_groups`, `src/file/mod.rs:133-138`; the `BTreeSet` is a map to `Unit`. -/
def collectGroups (groups : SMap Unit) : List Text → R (SMap Unit)
  | [] => .ok groups
  | p :: ps => do
    match ← pathGroupName p with
    | some g => collectGroups (groups.insert g ()) ps
    | none => collectGroups groups ps

/-- `src/file/mod.rs:125-141` `list_groups` -/
def listGroups (t : TdmsFile) : R (List Text) := do
  return (← collectGroups [] t.index.allPaths).keys

/-- `filter_map(|path| ChannelPath::try_from(path).ok())` (`src/file/mod.rs:151`) -/
def filterChannels : List Text → R (List ChannelPath)
  | [] => .ok []
  | p :: ps =>
    match ChannelPath.tryFrom p with
    | .ok c => do return c :: (← filterChannels ps)
    | .error (.err _) => filterChannels ps
    | .error e => .error e

/-- `src/file/mod.rs:146-152` `list_channels_in_group` -/
def listChannelsInGroup (t : TdmsFile) (group : PropertyPath) : R (List ChannelPath) :=
  filterChannels (t.index.pathsStartingWith group.path)

/-! ## Writing

`TdmsFile::writer` (`src/file/mod.rs:179-188`) seeks to the end of the stream and buffers; the buffer
is flushed when the writer is dropped, before anything can be read again, so a write is modelled
as appending to `bytes`. (The buffer itself is modelled in `Tedium.BufW`.) The byte order is a
parameter: the public API uses `little`, `TdmsFileWriter::new` accepts a big-endian writer. -/

/-- `src/raw_data/write.rs:29-37` `write` and `size` of a slice -/
def sliceData {α : Type} (S : Storage α) (e : Endian) (vals : List α) : DataToWrite where
  size := S.memSize * vals.length
  bytes := vals.flatMap (S.write e)

/-- `src/raw_data/write.rs:57-74` `MultiChannelSlice::data_structure` -/
def dataStructure {α : Type} (S : Storage α) (vals : List α) (channels : Nat) : List RawDataMeta :=
  List.replicate channels
    { dataType := S.natural, numberOfValues := vals.length / channels, totalSizeBytes := none }

/-- `src/file/file_writer.rs:39-48` `write_channels` with `DataStreamWriter::new` (110-159),
    `MultiChannelSlice::from_slice` (`src/raw_data/write.rs:44-53`) and `end_stream` (161-164). -/
def writeChannels {α : Type} (S : Storage α) (e : Endian) (t : TdmsFile)
    (channels : List ChannelPath) (vals : List α) (layout : DataLayout) : R Unit × TdmsFile :=
  if channels.length = 0 then (R.err .noChannels, t)
  else if vals.length % channels.length ≠ 0 then
    (R.err (.badDataBlockLength vals.length channels.length), t)
  else
    let objects := (channels.map ChannelPath.path).zip (dataStructure S vals channels.length)
    let (matchesLive, raw) := t.index.checkWriteValues objects
    let md : Option MetaData :=
      if matchesLive then none
      else some { objects := raw.map (fun (p, i) =>
        { path := p, properties := [], rawDataIndex := i }) }
    let toc : ToC :=
      { containsNewObjectList := !matchesLive, dataIsInterleaved := layout = .interleaved }
    let (segment, bytes) := writeSegment e toc md (some (sliceData S e vals))
    let (r, index) := t.index.addSegment segment
    (r.map (fun _ => ()), { index, bytes := t.bytes ++ bytes })

/-- `src/file/file_writer.rs:68-94` `write_properties` -/
def writeProperties (e : Endian) (t : TdmsFile) (path : PropertyPath)
    (properties : List (Text × PropertyValue)) : R Unit × TdmsFile :=
  let object : ObjectMetaData := { path := path.path, properties, rawDataIndex := .none }
  let (segment, bytes) := writeSegment e {} (some { objects := [object] }) none
  let (r, index) := t.index.addSegment segment
  (r.map (fun _ => ()), { index, bytes := t.bytes ++ bytes })

end TdmsFile

/-! ## Read plans (`src/file/channel_reader.rs`) -/

/-- `src/file/channel_reader.rs:6-9` -/
structure ChannelReadPlan where
  index : Nat
  samplesToSkip : Nat
  deriving DecidableEq, Repr

/-- `src/file/channel_reader.rs:12-21` -/
structure BlockRead where
  dataBlock : Nat
  channelIndexes : List (Option ChannelReadPlan)
  deriving DecidableEq, Repr

/-- The planner's state for one channel: `channel_positions[ch][next_location[ch]..]` and
    `remaining_skips[ch]` (`src/file/channel_reader.rs:268-269`). -/
structure PlanState where
  locations : List DataLocation
  skip : Nat
  deriving DecidableEq, Repr

/-- `Iterator::min` (`src/file/channel_reader.rs:278`) -/
def minOption : List Nat → Option Nat
  | [] => none
  | x :: xs => match minOption xs with
    | none => some x
    | some m => some (min x m)

/-- `src/file/channel_reader.rs:274-278` the lowest next block -/
def nextBlock (chs : List PlanState) : Option Nat :=
  minOption (chs.filterMap (fun c => c.locations.head?.map (·.dataBlock)))

/-- the body of the loop over channels, `src/file/channel_reader.rs:288-316` -/
def planChannel (block : Nat) (c : PlanState) : Option ChannelReadPlan × PlanState :=
  match c.locations with
  | [] => (none, c)
  | loc :: rest =>
    if loc.dataBlock = block then
      (if c.skip ≥ loc.numberOfSamples then none
       else some { index := loc.channelIndex, samplesToSkip := c.skip },
       { locations := rest, skip := c.skip - loc.numberOfSamples })
    else (none, c)

/-- the loop of `read_plan`, `src/file/channel_reader.rs:272-327` -/
def planLoop : (fuel : Nat) → List PlanState → R (List BlockRead)
  | 0, _ => .error .hang
  | fuel + 1, chs =>
    match nextBlock chs with
    | none => .ok []
    | some block =>
      let steps := chs.map (planChannel block)
      let plans := steps.map (·.1)
      match planLoop fuel (steps.map (·.2)) with
      | .error e => .error e
      | .ok rest =>
        if plans.any Option.isSome then .ok ({ dataBlock := block, channelIndexes := plans } :: rest)
        else .ok rest

/-- `src/file/channel_reader.rs:266-328` `read_plan` -/
def readPlan (positions : List (List DataLocation)) (start : Nat) : R (List BlockRead) :=
  planLoop ((positions.map List.length).sum + 1) (positions.map (fun ls => ⟨ls, start⟩))

/-! ## Executing a plan -/

section
variable {α : Type}

/-- One output slice of a request together with its `ChannelProgress`
    (`src/file/channel_reader.rs:24-44`): `samples_target` is the length of the slice. -/
structure Progress (α : Type) where
  output : List α
  samplesRead : Nat
  deriving Repr

/-- `src/file/channel_reader.rs:37-39` -/
def Progress.isComplete (p : Progress α) : Bool := p.samplesRead ≥ p.output.length

/-- `get_block_read_data` (`src/file/channel_reader.rs:204-224`) and `get_block_read_data_with_skip`
    (227-251): the channels of the block that still need data, with their slot number. -/
def blockRequests : (slot : Nat) → List (Option ChannelReadPlan) → List (Progress α) →
    List (ChannelRequest α)
  | _, [], _ => []
  | _, _, [] => []
  | slot, none :: plans, _ :: ps => blockRequests (slot + 1) plans ps
  | slot, some plan :: plans, p :: ps =>
    if p.isComplete then blockRequests (slot + 1) plans ps
    else { channelIndex := plan.index, slot, output := p.output.drop p.samplesRead,
           skip := plan.samplesToSkip } :: blockRequests (slot + 1) plans ps

/-- the effect of the block read on the output slices: a slice that was read into gets the new
    tail, the others are unchanged (`src/file/channel_reader.rs:219,244`). -/
def storeOutputs (outs : List (Nat × List α)) : (slot : Nat) → List (Progress α) → List (Progress α)
  | _, [] => []
  | slot, p :: ps =>
    (match outs.lookup slot with
     | some tail => { p with output := p.output.take p.samplesRead ++ tail }
     | none => p) :: storeOutputs outs (slot + 1) ps

/-- `src/file/channel_reader.rs:184-192` progress update over the zip -/
def addSamples (n : Nat) : List (Option ChannelReadPlan) → List (Progress α) → List (Progress α)
  | _, [] => []
  | [], ps => ps
  | plan :: plans, p :: ps =>
    (if plan.isSome then { p with samplesRead := p.samplesRead + n } else p) :: addSamples n plans ps

/-- one iteration of `execute_read_plan`, `src/file/channel_reader.rs:156-192` -/
def executeBlock (S : Storage α) (t : TdmsFile) (loc : BlockRead) (ps : List (Progress α)) :
    R (List (Progress α)) :=
  let anySkip := loc.channelIndexes.any (fun
    | some p => decide (p.samplesToSkip > 0)
    | none => false)
  match t.index.getDataBlock loc.dataBlock with
  | none => R.err (.dataBlockNotFound loc.dataBlock)
  | some block =>
    let reqs := blockRequests 0 loc.channelIndexes ps
    match (if anySkip then block.readWithSkip S t.bytes reqs else block.read S t.bytes reqs) with
    | .error e => .error e
    | .ok (n, plan) => .ok (addSamples n loc.channelIndexes (storeOutputs (planOutputs plan) 0 ps))

/-- `src/file/channel_reader.rs:145-200` `execute_read_plan` -/
def executePlan (S : Storage α) (t : TdmsFile) : List BlockRead → List (Progress α) →
    R (List (Progress α))
  | [], ps => .ok ps
  | loc :: locs, ps =>
    match executeBlock S t loc ps with
    | .error e => .error e
    | .ok ps => if ps.all Progress.isComplete then .ok ps else executePlan S t locs ps

namespace TdmsFile

/-- `src/file/channel_reader.rs:48-50` -/
def channelLength (t : TdmsFile) (c : ChannelPath) : R (Option Nat) := t.index.channelLength c

/-- the lookups of `read_channels_from`, `src/file/channel_reader.rs:126-133` -/
def lookupPositions (t : TdmsFile) : List ChannelPath → R (List (List DataLocation))
  | [] => .ok []
  | c :: cs =>
    match t.index.getChannelDataPositions c with
    | none => R.err (.missingObject c.path)
    | some ls => do return ls :: (← lookupPositions t cs)

/-- `src/file/channel_reader.rs:120-139` `read_channels_from`: the new contents of the output slices. -/
def readChannelsFrom (S : Storage α) (t : TdmsFile) (channels : List ChannelPath) (start : Nat)
    (outputs : List (List α)) : R (List (List α)) := do
  let positions ← t.lookupPositions channels
  let plan ← readPlan positions start
  let ps ← executePlan S t plan (outputs.map (fun o => ⟨o, 0⟩))
  return ps.map (·.output)

/-- `src/file/channel_reader.rs:98-104` -/
def readChannels (S : Storage α) (t : TdmsFile) (channels : List ChannelPath)
    (outputs : List (List α)) : R (List (List α)) := readChannelsFrom S t channels 0 outputs

/-- `src/file/channel_reader.rs:79-92` `read_channel_from` -/
def readChannelFrom (S : Storage α) (t : TdmsFile) (channel : ChannelPath) (start : Nat)
    (output : List α) : R (List α) :=
  match t.index.getChannelDataPositions channel with
  | none => R.err (.missingObject channel.path)
  | some ls => do
    let plan ← readPlan [ls] start
    let ps ← executePlan S t plan [⟨output, 0⟩]
    return (ps.map (·.output)).headD []

/-- `src/file/channel_reader.rs:57-63` -/
def readChannel (S : Storage α) (t : TdmsFile) (channel : ChannelPath) (output : List α) :
    R (List α) := readChannelFrom S t channel 0 output

end TdmsFile
end
end Tedium
