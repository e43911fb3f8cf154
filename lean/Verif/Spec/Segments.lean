import Verif.Model.Index

/-!
# What a sequence of segments means

Declarative description, independent of how the index is built, of the objects, properties,
active channels, data blocks and samples that a sequence of TDMS segments describes. Only the data
structures (`Segment`, `ObjectMetaData`, `RawDataMeta`, ...) are shared with the model.
-/

namespace Tedium.SegSpec

/-- The object entries of a segment. -/
def entriesOf (s : Segment) : List ObjectMetaData :=
  match s.metaData with
  | some m => m.objects
  | none => []

/-- All object entries, in file order. -/
def entries (segs : List Segment) : List ObjectMetaData := segs.flatMap entriesOf

/-- The entries listed since the last segment with the new-object-list flag (inclusive). -/
def listedSince (segs : List Segment) : List ObjectMetaData :=
  segs.foldl (fun acc s => (if s.toc.containsNewObjectList then [] else acc) ++ entriesOf s) []

/-- The distinct elements of a list, in order of first occurrence. -/
def firstOccurrences (l : List Text) : List Text :=
  l.foldl (fun acc x => if x ∈ acc then acc else acc ++ [x]) []

/-- The channels with raw data among some entries, in first-listing order. -/
def activeOf (es : List ObjectMetaData) : List Text :=
  firstOccurrences ((es.filter (fun o => o.rawDataIndex ≠ .none)).map (·.path))

/-- The active channels after a sequence of segments. -/
def active (segs : List Segment) : List Text := activeOf (listedSince segs)

/-- The layout an entry declares itself. -/
def declares (o : ObjectMetaData) : Option RawDataMeta :=
  match o.rawDataIndex with
  | .rawData m => some m
  | _ => none

/-- The most recently declared layout of an object. -/
def layoutOf (es : List ObjectMetaData) (path : Text) : Option RawDataMeta :=
  ((es.filter (fun o => o.path = path)).filterMap declares).getLast?

/-- All properties given to an object, in file order. -/
def propertiesOf (es : List ObjectMetaData) (path : Text) : List (Text × PropertyValue) :=
  (es.filter (fun o => o.path = path)).flatMap (·.properties)

/-- The last value given to a property. -/
def lastValue (ps : List (Text × PropertyValue)) (name : Text) : Option PropertyValue :=
  (ps.filter (fun p => p.1 = name)).getLast?.map (·.2)

/-- The object is listed in some segment. -/
def Listed (es : List ObjectMetaData) (path : Text) : Prop := ∃ o ∈ es, o.path = path

/-- The non-empty prefixes whose last segment carries raw data: one per data block. -/
def dataPrefixes (segs : List Segment) : List (List Segment) :=
  ((List.range segs.length).map (fun k => segs.take (k + 1))).filter
    (fun pre => pre.getLast?.any (fun s => s.toc.containsRawData))

/-- The layouts of the active channels. -/
def activeLayouts (segs : List Segment) : List RawDataMeta :=
  (active segs).filterMap (layoutOf (entries segs))

/-- The number of values per chunk of a channel. -/
def valuesPerChunk (segs : List Segment) (path : Text) : Nat :=
  match layoutOf (entries segs) path with
  | some m => m.numberOfValues
  | none => 0

/-- The number of bytes of raw data of the last segment. -/
def rawBytes (segs : List Segment) : Nat :=
  match segs.getLast? with
  | some s => s.nextSegmentOffset - s.rawDataOffset
  | none => 0

/-- The size of one chunk of raw data of the last segment (fixed-size types). -/
def chunkBytes (segs : List Segment) : Nat :=
  ((activeLayouts segs).map (fun m => m.numberOfValues * m.dataType.size)).sum

/-- The number of whole chunks in the raw data of the last segment: one chunk when a channel has
    a variable size. -/
def chunks (segs : List Segment) : Nat :=
  if (activeLayouts segs).any (fun m => m.totalSizeBytes.isSome) then 1
  else if chunkBytes segs = 0 then 0
  else rawBytes segs / chunkBytes segs

/-- The samples of a channel in the last segment. -/
def samplesIn (segs : List Segment) (path : Text) : Nat :=
  if path ∈ active segs then valuesPerChunk segs path * chunks segs else 0

/-- The number of bytes from the start of the file to the end of the last segment. -/
def endOf (segs : List Segment) : Nat := (segs.map (fun s => 28 + s.nextSegmentOffset)).sum

/-- The data block of the last segment. -/
def blockOf (segs : List Segment) : Option DataBlock :=
  segs.getLast?.map fun s =>
    { start := endOf segs.dropLast + 28 + s.rawDataOffset
      length := s.nextSegmentOffset - s.rawDataOffset
      layout := if s.toc.dataIsInterleaved then .interleaved else .contigious
      channels := activeLayouts segs
      byteOrder := if s.toc.bigEndian then .big else .little }

/-- The places where a channel has samples: one per data block in which it is active. -/
def locations (segs : List Segment) (path : Text) : List DataLocation :=
  (dataPrefixes segs).zipIdx.filterMap fun (pre, i) =>
    ((active pre).idxOf? path).map fun j =>
      { dataBlock := i, channelIndex := j, numberOfSamples := valuesPerChunk pre path * chunks pre }

/-- Adding segments one after the other, all of which must be accepted. -/
def replay (ix : Index) : List Segment → R Index
  | [] => .ok ix
  | s :: ss =>
    match ix.addSegment s with
    | (.error e, _) => .error e
    | (.ok _, ix) => replay ix ss

end Tedium.SegSpec
