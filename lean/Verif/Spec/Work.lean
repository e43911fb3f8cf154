import Verif.Model.Handle

/-!
# How much is done to open and to read a file

The work is the number of calls of `read_exact`, `seek_relative` and `seek` on the reader. The functions below follow
`build_index` and the reading functions and only add up; the results they need are those of `Model/File.lean`.
-/

namespace Tedium

/-- The number of operations of a program on the file `f` from position `p`, up to its end or its first failure. -/
def Act.work {α : Type} : Act α → Bytes → Nat → Nat
  | .ret _, _, _ => 0
  | .stop _, _, _ => 0
  | .exact n next, f, p =>
    1 + match Rd.exact n f p with
      | .ok (bs, q) => (next bs).work f q
      | .error _ => 0
  | .move offset next, f, p =>
    1 + match Rd.move offset f p with
      | .ok (_, q) => next.work f q
      | .error _ => 0

namespace Work

/-- `Segment::read` (`src/meta_data.rs:176-203`): tag, flags, and the rest if these are right -/
def segment (al : Alloc) (f : Bytes) (p : Nat) : Nat :=
  1 + match Rd.exact 4 f p with
    | .error _ => 0
    | .ok (tag, p) =>
      if tag ≠ tdsmTag then 0
      else 1 + match Rd.exact 4 f p with
        | .error _ => 0
        | .ok (buf, p) =>
          let toc := ToC.fromU32 (decNat .little buf)
          (Act.segment al (if toc.bigEndian then .big else .little) toc).work f p

/-- the loop of `build_index` (`src/file/mod.rs:62-73`): each segment, and the seek to the next one -/
def openLoop (al : Alloc) (f : Bytes) : (fuel : Nat) → (pos : Nat) → Index → Nat
  | 0, _, _ => 0
  | fuel + 1, pos, ix =>
    segment al f pos +
    match Segment.read al f pos with
    | .error _ => 0
    | .ok (s, _) =>
      match ix.addSegment s with
      | (.error _, _) => 0
      | (.ok next, ix) => 1 + openLoop al f fuel next ix

/-- `build_index` (`src/file/mod.rs:56-75`): the seek to the start, then the loop -/
def opening (al : Alloc) (f : Bytes) : Nat := 1 + openLoop al f (f.length / leadInBytes + 1) 0 Index.new

/-- A read of a block (`src/raw_data/mod.rs:197-237,321-389`): the seek, then the values -/
def block (al : Alloc) (ty : STy) (f : Bytes) (b : DataBlock) (anySkip : Bool) (reqs : List (ChannelRequest ty.Val)) : Nat :=
  match buildRecordPlan (ty.storage al) b.channels reqs with
  | .error _ => 0
  | .ok plan =>
    let rd := Act.value al ty b.byteOrder
    1 + match b.layout, anySkip with
      | .contigious, false => (Act.contigReadFrom (ty.storage al) rd b.length plan 0).work f b.start
      | .interleaved, false => (Act.interRead (ty.storage al) rd b.length plan).work f b.start
      | .contigious, true => (Act.contigReadSkip (ty.storage al) rd b.length plan (reqs.map (·.skip))).work f b.start
      | .interleaved, true =>
        (Act.interRead (ty.storage al) rd b.length (setSkips (reqs.map (·.skip)) plan)).work f b.start

/-- `execute_read_plan` (`src/file/channel_reader.rs:145-200`): each block, until the buffers are full -/
def plan (al : Alloc) (ty : STy) (t : TdmsFile) : List BlockRead → List (Progress ty.Val) → Nat
  | [], _ => 0
  | loc :: locs, ps =>
    (match t.index.getDataBlock loc.dataBlock with
     | none => 0
     | some b => block al ty t.bytes b (loc.channelIndexes.any (fun
        | some p => decide (p.samplesToSkip > 0)
        | none => false)) (blockRequests 0 loc.channelIndexes ps)) +
    match executeBlock (ty.storage al) t loc ps with
    | .error _ => 0
    | .ok ps => if ps.all Progress.isComplete then 0 else plan al ty t locs ps

/-- `read_channels_from` (`src/file/channel_reader.rs:120-139`) -/
def channels (al : Alloc) (ty : STy) (t : TdmsFile) (cs : List ChannelPath) (start : Nat) (outs : List (List ty.Val)) : Nat :=
  match t.lookupPositions cs with
  | .error _ => 0
  | .ok positions =>
    match readPlan positions start with
    | .error _ => 0
    | .ok p => plan al ty t p (outs.map (fun o => ⟨o, 0⟩))

/-- `read_channel_from` (`src/file/channel_reader.rs:79-92`) -/
def channel (al : Alloc) (ty : STy) (t : TdmsFile) (c : ChannelPath) (start : Nat) (out : List ty.Val) : Nat :=
  match t.index.getChannelDataPositions c with
  | none => 0
  | some ls =>
    match readPlan [ls] start with
    | .error _ => 0
    | .ok p => plan al ty t p [⟨out, 0⟩]

end Work

/-- The allocator grants every request for which a file of `L` bytes has room: strings of up to `L` bytes, and tables of as
    many objects (12 bytes each at least: the length of the path, the index, the number of properties) and
    properties (8 bytes each at least: the length of the name, the type) as such a file can hold. -/
structure Enough (L : Nat) (al : Alloc) : Prop where
  strings : ∀ n, n ≤ L → al (.str n) = true
  objects : ∀ n, 12 * n ≤ L → al (.vec n) = true
  properties : ∀ n, 8 * n ≤ L → al (.props n) = true

end Tedium
