import Verif.Spec.Segments

/-! # Which segments are accepted -/

namespace Tedium.SegSpec

/-- An entry of the segment says 'same as previous', and no entry before it declares a layout for its object. -/
def unresolved (segs : List Segment) (s : Segment) : Bool :=
  (List.range (entriesOf s).length).any fun i =>
    (entriesOf s)[i]?.any fun o =>
      o.rawDataIndex = .matchPrevious && (layoutOf (entries segs ++ (entriesOf s).take i) o.path).isNone

/-- The size of one chunk of raw data of the last segment, strings included. -/
def chunkTotal (segs : List Segment) : Nat :=
  ((activeLayouts segs).map (fun m => m.totalSizeBytes.getD (m.numberOfValues * m.dataType.size))).sum

/-- What becomes of the segment `s` behind the segments `segs`: the position behind it, or the first of these
    complaints that applies. -/
def verdict (segs : List Segment) (s : Segment) : R Nat :=
  let all := segs ++ [s]
  let raw := s.toc.containsRawData
  if unresolved segs s then R.err .noPreviousType
  else if raw ∧ active all = [] then R.err .segmentTocDataBlockWithoutDataChannels
  else if raw ∧ s.nextSegmentOffset < s.rawDataOffset then R.err .invalidRawOffset
  else if raw ∧ s.nextSegmentOffset = s.rawDataOffset then R.err .zeroLengthDataBlock
  else if raw ∧ 2 ^ 64 ≤ endOf segs + 28 + s.rawDataOffset then R.panic .overflow
  else if raw ∧ (2 ^ 64 ≤ chunkTotal all ∨ ∃ p ∈ active all, 2 ^ 64 ≤ valuesPerChunk all p * chunks all) then
    R.err .chunkSizeOverflow
  else if 2 ^ 64 ≤ endOf all then R.err .segmentAddressOverflow
  else .ok (endOf all)

/-- The complaint about the first of the segments `todo` that is not accepted. -/
def refusal (done : List Segment) : (todo : List Segment) → Option Fail
  | [] => none
  | s :: todo =>
    match verdict done s with
    | .error e => some e
    | .ok _ => refusal (done ++ [s]) todo

end Tedium.SegSpec
