import Verif.Model.RawData
import Verif.Model.SMap
import Verif.Model.Paths

/-!
# The index (`index/*.rs`)

Functions taking `&mut self` and returning a `Result` return the pair of the result and the new
state, because the code may have changed the state before an early return.
-/

namespace Tedium

/-- `src/index/mod.rs:22-29` -/
structure DataLocation where
  dataBlock : Nat
  channelIndex : Nat
  numberOfSamples : Nat
  deriving DecidableEq, Repr

/-- `src/index/mod.rs:57-62`. `DataFormat` (`src/index/mod.rs:33-35`) has the single variant `RawData`
    and is represented by its payload. -/
structure ObjectData where
  path : Text
  properties : SMap PropertyValue
  dataLocations : List DataLocation
  latestDataFormat : Option RawDataMeta
  deriving DecidableEq, Repr

/-- `src/index/mod.rs:39-44` `DataFormat::from_index` -/
def dataFormatFromIndex : RawDataIndex → Option RawDataMeta
  | .rawData m => some m
  | _ => none

namespace ObjectData

/-- the property loop `src/index/mod.rs:83-85` -/
def insertProps (m : SMap PropertyValue) : List (Text × PropertyValue) → SMap PropertyValue
  | [] => m
  | (n, v) :: rest => insertProps (m.insert n v) rest

/-- `src/index/mod.rs:82-100` `update` -/
def update (self : ObjectData) (other : ObjectMetaData) : R Unit × ObjectData :=
  let self := { self with properties := insertProps self.properties other.properties }
  match self.latestDataFormat, other.rawDataIndex with
  | none, .matchPrevious => (R.err .noPreviousType, self)
  | _, rawIndex =>
    match dataFormatFromIndex rawIndex with
    | some format => (.ok (), { self with latestDataFormat := some format })
    | none => (.ok (), self)

/-- `src/index/mod.rs:66-77` `from_metadata` -/
def fromMetadata (o : ObjectMetaData) : R ObjectData :=
  match update { path := o.path, properties := [], dataLocations := [], latestDataFormat := none } o with
  | (.ok (), new) => .ok new
  | (.error e, _) => .error e

/-- `src/index/mod.rs:103-105` -/
def addDataLocation (self : ObjectData) (l : DataLocation) : ObjectData :=
  { self with dataLocations := self.dataLocations ++ [l] }

end ObjectData

/-- `src/index/building.rs:19-22` -/
structure ActiveObject where
  path : Text
  numberOfSamples : Nat
  deriving DecidableEq, Repr

namespace ActiveObject

/-- `src/index/building.rs:25-35` -/
def new (path : Text) (format : RawDataMeta) : ActiveObject :=
  { path, numberOfSamples := format.numberOfValues }

/-- `src/index/building.rs:36-40` -/
def update (self : ActiveObject) (o : ObjectMetaData) : ActiveObject :=
  match o.rawDataIndex with
  | .rawData raw => { self with numberOfSamples := raw.numberOfValues }
  | _ => self

end ActiveObject

/-- `src/index/mod.rs:117-122` -/
structure Index where
  activeObjects : List ActiveObject
  objects : SMap ObjectData
  dataBlocks : List DataBlock
  nextSegmentStart : Nat
  deriving DecidableEq, Repr

namespace Index

/-- `src/index/mod.rs:125-127` -/
def new : Index := { activeObjects := [], objects := [], dataBlocks := [], nextSegmentStart := 0 }

/-! ## Queries -/

/-- `src/index/mod.rs:132-139` -/
def getObjectProperties (ix : Index) (path : PropertyPath) : Option (List (Text × PropertyValue)) :=
  (ix.objects.get? path.path).map (·.properties)

/-- `src/index/mod.rs:145-158` -/
def getObjectProperty (ix : Index) (path : PropertyPath) (property : Text) :
    R (Option PropertyValue) :=
  match ix.objects.get? path.path with
  | none => R.err (.missingObject path.path)
  | some o => .ok (o.properties.get? property)

/-- `src/index/mod.rs:160-164` -/
def getChannelDataPositions (ix : Index) (c : ChannelPath) : Option (List DataLocation) :=
  (ix.objects.get? c.path).map (·.dataLocations)

/-- `src/index/mod.rs:169-177` `channel_length`: a `u64` sum, which panics on overflow. -/
def channelLength (ix : Index) (c : ChannelPath) : R (Option Nat) :=
  match ix.objects.get? c.path with
  | none => .ok none
  | some o =>
    let n := (o.dataLocations.map (·.numberOfSamples)).sum
    if n < u64Lim then .ok (some n) else R.panic .overflow

/-- `src/index/mod.rs:179-181` -/
def getDataBlock (ix : Index) (i : Nat) : Option DataBlock := ix.dataBlocks[i]?

/-- `src/index/querying.rs:18-20` -/
def allPaths (ix : Index) : List Text := ix.objects.keys

/-- `src/index/querying.rs:25-37`: a range scan from the prefix, stopped at the first key that does
    not start with it. -/
def pathsStartingWith (ix : Index) (path : Text) : List Text :=
  (ix.objects.keys.dropWhile (fun k => textCmp k path = .lt)).takeWhile (fun k => path.isPrefixOf k)

/-! ## Building (`src/index/building.rs`) -/

/-- `src/index/building.rs:147-149` -/
def deactivateAllObjects (ix : Index) : Index := { ix with activeObjects := [] }

/-- `src/index/building.rs:184-197` `update_meta_object`. (`old.is_none()` is implied by the failed
    lookup.) -/
def updateMetaObject (ix : Index) (o : ObjectMetaData) : R Unit × Index :=
  match ix.objects.get? o.path with
  | some found =>
    let (r, found) := found.update o
    (r, { ix with objects := ix.objects.insert o.path found })
  | none =>
    match ObjectData.fromMetadata o with
    | .error e => (.error e, ix)
    | .ok data => (.ok (), { ix with objects := ix.objects.insert data.path data })

/-- `src/index/building.rs:202-206` `channel_format` -/
def channelFormat (ix : Index) (path : Text) : Option RawDataMeta :=
  (ix.objects.get? path).bind (·.latestDataFormat)

/-- update the first active object with the given path in place (`src/index/building.rs:155-162`) -/
def updateActive (o : ObjectMetaData) : List ActiveObject → List ActiveObject
  | [] => []
  | a :: as => if a.path = o.path then a.update o :: as else a :: updateActive o as

/-- `src/index/building.rs:154-179` `update_or_activate_data_object` -/
def updateOrActivateDataObject (ix : Index) (o : ObjectMetaData) : R Unit × Index :=
  match ix.activeObjects.find? (fun a => a.path = o.path) with
  | some active =>
    let ix := { ix with activeObjects := updateActive o ix.activeObjects }
    match ix.objects.get? active.path with
    | none => (R.panic .expect, ix)
    | some found =>
      let (r, found) := found.update o
      (r, { ix with objects := ix.objects.insert active.path found })
  | none =>
    match updateMetaObject ix o with
    | (.error e, ix) => (.error e, ix)
    | (.ok (), ix) =>
      match channelFormat ix o.path with
      | none => (R.panic .expect, ix)
      | some format =>
        (.ok (), { ix with activeObjects := ix.activeObjects ++ [ActiveObject.new o.path format] })

/-- the loop over the objects of a segment, `src/index/building.rs:74-79` -/
def addObjects (ix : Index) : List ObjectMetaData → R Unit × Index
  | [] => (.ok (), ix)
  | o :: os =>
    let step := match o.rawDataIndex with
      | .none => updateMetaObject ix o
      | _ => updateOrActivateDataObject ix o
    match step with
    | (.error e, ix) => (.error e, ix)
    | (.ok (), ix) => addObjects ix os

/-- `src/index/building.rs:104-117` `get_active_raw_data_meta` -/
def activeRawDataMeta (objects : SMap ObjectData) : List ActiveObject → R (List RawDataMeta)
  | [] => .ok []
  | a :: as =>
    match objects.get? a.path with
    | none => R.panic .expect
    | some o =>
      match o.latestDataFormat with
      | none => R.panic .expect
      | some m => do return m :: (← activeRawDataMeta objects as)

/-- the loop of `insert_data_block`, `src/index/building.rs:127-140` -/
def addLocations (dataIndex chunks : Nat) (channelIndex : Nat) (objects : SMap ObjectData) :
    List ActiveObject → R Unit × SMap ObjectData
  | [] => (.ok (), objects)
  | a :: as =>
    if a.numberOfSamples * chunks < u64Lim then
      match objects.get? a.path with
      | none => (R.panic .expect, objects)
      | some o =>
        let location : DataLocation :=
          { dataBlock := dataIndex, channelIndex, numberOfSamples := a.numberOfSamples * chunks }
        addLocations dataIndex chunks (channelIndex + 1)
          (objects.insert a.path (o.addDataLocation location)) as
    else (R.err .chunkSizeOverflow, objects)

/-- `src/index/building.rs:119-142` `insert_data_block` -/
def insertDataBlock (ix : Index) (b : DataBlock) : R Unit × Index :=
  match b.numberOfChunks with
  | .error e => (.error e, ix)
  | .ok chunks =>
    let dataIndex := ix.dataBlocks.length
    let (r, objects) := addLocations dataIndex chunks 0 ix.objects ix.activeObjects
    (r, { ix with dataBlocks := ix.dataBlocks ++ [b], objects })

/-- the raw-data part of `add_segment`, `src/index/building.rs:82-93` -/
def addRawData (ix : Index) (s : Segment) : R Unit × Index :=
  if s.toc.containsRawData then
    match activeRawDataMeta ix.objects ix.activeObjects with
    | .error e => (.error e, ix)
    | .ok channels =>
      if channels.isEmpty then (R.err .segmentTocDataBlockWithoutDataChannels, ix)
      else match DataBlock.fromSegment s ix.nextSegmentStart channels with
        | .error e => (.error e, ix)
        | .ok b => insertDataBlock ix b
  else (.ok (), ix)

/-- the address part of `add_segment`, `src/index/building.rs:95-100` -/
def advance (ix : Index) (s : Segment) : R Nat × Index :=
  match s.totalSizeBytes with
  | .error e => (.error e, ix)
  | .ok size =>
    if ix.nextSegmentStart + size < u64Lim then
      (.ok (ix.nextSegmentStart + size), { ix with nextSegmentStart := ix.nextSegmentStart + size })
    else (R.err .segmentAddressOverflow, ix)

/-- `src/index/building.rs:64-101` `add_segment` -/
def addSegment (ix : Index) (s : Segment) : R Nat × Index :=
  let ix := if s.toc.containsNewObjectList then ix.deactivateAllObjects else ix
  let r := match s.metaData with
    | some m => addObjects ix m.objects
    | none => (.ok (), ix)
  match r with
  | (.error e, ix) => (.error e, ix)
  | (.ok (), ix) =>
    match addRawData ix s with
    | (.error e, ix) => (.error e, ix)
    | (.ok (), ix) => advance ix s

/-! ## Writing support (`src/index/writing.rs`) -/

/-- `src/index/writing.rs:17-27` the live match: pairwise path comparison over the zip. -/
def liveMatches (active : List ActiveObject) (objects : List (Text × RawDataMeta)) : Bool :=
  if !active.isEmpty then
    (active.zip objects).foldl (fun matched (a, n) => matched && a.path = n.1) true
  else false

/-- `src/index/writing.rs:29-43` the raw data index to write for one channel -/
def rawIndexFor (ix : Index) (path : Text) (format : RawDataMeta) : RawDataIndex :=
  match (ix.objects.get? path).bind (·.latestDataFormat) with
  | some last => if last = format then .matchPrevious else .rawData format
  | none => .rawData format

/-- `src/index/writing.rs:13-45` `check_write_values` -/
def checkWriteValues (ix : Index) (objects : List (Text × RawDataMeta)) :
    Bool × List (Text × RawDataIndex) :=
  (liveMatches ix.activeObjects objects, objects.map (fun (p, f) => (p, rawIndexFor ix p f)))

end Index
end Tedium
