import Verif.Model.Stores

/-!
# Reading from a stream that grows during the call

In `Model/Device.lean` the contents of the stream stay as they are while the library reads. Here another program may
append to the file at any time: before each operation of the stream any number of bytes can arrive. The reader
is the same `BufReader`, and so are the programs that run over it (`Model/Act.lean`, `Model/Stores.lean`).
-/

namespace Tedium

/-- A stream (`file: F` of `TdmsFile<F>`, `src/file/mod.rs:33-36`) and what others append to it before each of the
    coming operations. When the list is used up nothing more is appended. -/
structure Growing where
  dev : Device
  growth : List Bytes
  deriving DecidableEq, Repr

namespace Growing

/-- what is appended before the next operation. Of the parameter `F: Read + Seek` of `src/file/mod.rs:31-34`. -/
def grown (g : Growing) : Growing :=
  match g.growth with
  | [] => g
  | more :: growth => ⟨{ g.dev with bytes := g.dev.bytes ++ more }, growth⟩

/-- `Read::read` into a buffer of `n` bytes. Of the parameter `F: Read` of `src/file/mod.rs:31-34`. -/
def read (g : Growing) (n : Nat) : ReadResult × Growing :=
  let (r, dev) := g.grown.dev.read n
  (r, { g.grown with dev })

/-- `seek(SeekFrom::Start(position))` (`src/file/mod.rs:60,66`) -/
def seekStart (g : Growing) (position : Nat) : Option IoKind × Growing :=
  let (r, dev) := g.grown.dev.seekStart position
  (r, { g.grown with dev })

/-- `seek(SeekFrom::Current(offset))`. Called by `seek_relative`, `src/io/reader.rs:38`. -/
def seekCurrent (g : Growing) (offset : Int) : Option IoKind × Growing :=
  let (r, dev) := g.grown.dev.seekCurrent offset
  (r, { g.grown with dev })

/-- the contents of the stream at present (`src/file/mod.rs:33-36`) -/
def contents (g : Growing) : Bytes := g.dev.bytes

/-- the contents when all has arrived; only a bound for the number of segments in `src/file/mod.rs:62-73` -/
def total (g : Growing) : Nat := g.dev.bytes.length + (g.growth.map List.length).sum

end Growing

/-- `std::io::BufReader` (`src/io/reader.rs:61,77`), as in `Model/Device.lean`, over a stream that grows -/
structure GrowReader where
  capacity : Nat
  filled : Bytes
  consumed : Nat
  str : Growing
  deriving DecidableEq, Repr

namespace GrowReader

/-- `BufReader::new` (`src/io/reader.rs:68,84`) -/
def new (capacity : Nat) (str : Growing) : GrowReader := ⟨capacity, [], 0, str⟩

/-- `BufReader::read`, called by `read_exact`, `src/io/data_types/native_numerics.rs:20` -/
def read (b : GrowReader) (n : Nat) : ReadResult × GrowReader :=
  if b.consumed = b.filled.length then
    if n ≥ b.capacity then
      let (r, str) := b.str.read n
      (r, { b with filled := [], consumed := 0, str })
    else
      match b.str.read b.capacity with
      | (.got bs, str) => (.got (bs.take n), { b with filled := bs, consumed := (bs.take n).length, str })
      | (r, str) => (r, { b with filled := [], consumed := 0, str })
  else
    let bs := (b.filled.drop b.consumed).take n
    (.got bs, { b with consumed := b.consumed + bs.length })

/-- `std::io::default_read_exact`, called by `read_exact`, `src/io/data_types/native_numerics.rs:20` -/
def readExactLoop : (fuel : Nat) → (n : Nat) → (acc : Bytes) → GrowReader → R Bytes × GrowReader
  | 0, _, _, b => (.error .hang, b)
  | fuel + 1, n, acc, b =>
    if n = 0 then (.ok acc, b)
    else
      match b.read n with
      | (.got bs, b) =>
        if bs = [] then (R.err (.ioError .unexpectedEof), b)
        else readExactLoop fuel (n - bs.length) (acc ++ bs) b
      | (.interrupted, b) => readExactLoop fuel n acc b
      | (.failed code, b) => (R.err (.ioError (.other code)), b)

/-- `BufReader::read_exact` (`src/io/data_types/native_numerics.rs:20,25`) -/
def readExact (b : GrowReader) (n : Nat) : R Bytes × GrowReader :=
  if n ≤ b.filled.length - b.consumed then
    (.ok ((b.filled.drop b.consumed).take n), { b with consumed := b.consumed + n })
  else readExactLoop (n + b.str.dev.script.length + 1) n [] b

/-- `BufReader::seek(SeekFrom::Start(position))` (`src/io/reader.rs:30-34`) -/
def seekStart (b : GrowReader) (position : Nat) : Option IoKind × GrowReader :=
  match b.str.seekStart position with
  | (some kind, str) => (some kind, { b with str })
  | (none, str) => (none, { b with filled := [], consumed := 0, str })

/-- `BufReader::seek(SeekFrom::Current(offset))`, called by `seek_relative`, `src/io/reader.rs:38` -/
def seekCurrent (b : GrowReader) (offset : Int) : Option IoKind × GrowReader :=
  let remainder : Int := (b.filled.length : Int) - b.consumed
  if -(2 ^ 63) ≤ offset - remainder then
    match b.str.seekCurrent (offset - remainder) with
    | (some kind, str) => (some kind, { b with str })
    | (none, str) => (none, { b with filled := [], consumed := 0, str })
  else
    match b.str.seekCurrent (-remainder) with
    | (some kind, str) => (some kind, { b with str })
    | (none, str) =>
      match str.seekCurrent offset with
      | (some kind, str) => (some kind, { b with filled := [], consumed := 0, str })
      | (none, str) => (none, { b with filled := [], consumed := 0, str })

/-- `BufReader::seek_relative` (`src/io/reader.rs:37-40`) -/
def seekRelative (b : GrowReader) (offset : Int) : Option IoKind × GrowReader :=
  let q : Int := (b.consumed : Int) + offset
  if 0 ≤ q ∧ q ≤ b.filled.length then (none, { b with consumed := q.toNat })
  else b.seekCurrent offset

/-- Run a program. What `src/io/reader.rs:61-91` does for the callers. -/
def run {α : Type} : Act α → GrowReader → R α × GrowReader
  | .ret a, b => (.ok a, b)
  | .stop e, b => (.error e, b)
  | .exact n next, b =>
    match b.readExact n with
    | (.error e, b) => (.error e, b)
    | (.ok bs, b) => run (next bs) b
  | .move offset next, b =>
    match b.seekRelative offset with
    | (some kind, b) => (R.err (.ioError kind), b)
    | (none, b) => run next b

/-- Run a program that assigns (`src/io/reader.rs:61-91`): its result, and the assignments made. -/
def runProg {σ α : Type} : Prog σ α → GrowReader → (R α × List σ) × GrowReader
  | .ret a, b => ((.ok a, []), b)
  | .stop e, b => ((.error e, []), b)
  | .exact n next, b =>
    match b.readExact n with
    | (.error e, b) => ((.error e, []), b)
    | (.ok bs, b) => runProg (next bs) b
  | .move offset next, b =>
    match b.seekRelative offset with
    | (some kind, b) => ((R.err (.ioError kind), []), b)
    | (none, b) => runProg next b
  | .store s next, b =>
    let ((r, ss), b) := runProg next b
    ((r, s :: ss), b)

end GrowReader

/-- `src/meta_data.rs:176-203` `Segment::read` with `src/io/reader.rs:44-58` -/
def Growing.readSegment (al : Alloc) (capacity : Nat) (g : Growing) : R Segment × Growing :=
  match (GrowReader.new 0 g).readExact 4 with
  | (.error (.err (.ioError .unexpectedEof)), b) => (R.err .endOfFile, b.str)
  | (.error e, b) => (.error e, b.str)
  | (.ok tag, b) =>
    if tag ≠ tdsmTag then (R.err (.headerPatternNotMatched tag), b.str)
    else
      match b.readExact 4 with
      | (.error e, b) => (.error e, b.str)
      | (.ok buf, b) =>
        let toc := ToC.fromU32 (decNat .little buf)
        let (r, b) := (GrowReader.new capacity b.str).run (Act.segment al (if toc.bigEndian then .big else .little) toc)
        (r, b.str)

/-- the loop of `build_index`, `src/file/mod.rs:62-73` -/
def Growing.openLoop (al : Alloc) (capacity : Nat) : (fuel : Nat) → Index → Growing → R Index × Growing
  | 0, _, g => (.error .hang, g)
  | fuel + 1, ix, g =>
    match g.readSegment al capacity with
    | (.error (.err .endOfFile), g) => (.ok ix, g)
    | (.error e, g) => (.error e, g)
    | (.ok segment, g) =>
      match ix.addSegment segment with
      | (.error e, _) => (.error e, g)
      | (.ok next, ix) =>
        match g.seekStart next with
        | (some _, g) => (.ok ix, g)
        | (none, g) => Growing.openLoop al capacity fuel ix g

/-- `src/file/mod.rs:56-75` `build_index` -/
def Growing.buildIndex (al : Alloc) (capacity : Nat) (g : Growing) : R Index × Growing :=
  match g.seekStart 0 with
  | (some kind, g) => (R.err (.ioError kind), g)
  | (none, g) => g.openLoop al capacity (g.total / leadInBytes + 1) Index.new

/-- Run a program on a stream that grows, through a fresh `BufReader`, after `to_file_position`
    (`src/io/reader.rs:30-34`). -/
def Runner.growing {α : Type} (capacity : Nat) : Runner Growing α := fun start a g =>
  match (GrowReader.new capacity g).seekStart start with
  | (some kind, b) => ((R.err (.ioError kind), []), b.str)
  | (none, b) =>
    let (r, b) := b.runProg a
    (r, b.str)

/-- `read_channels_from` of a file opened with the index `ix`, while the stream grows: whether it succeeds, the slices
    afterwards, and the stream (`src/file/channel_reader.rs:120-139`) -/
def Growing.readChannelsInto (al : Alloc) (capacity : Nat) (ty : STy) (ix : Index) (g : Growing) (channels : List ChannelPath)
    (start : Nat) (outputs : List (List ty.Val)) : R Unit × List (List ty.Val) × Growing :=
  let (r, log, g) := readChannelsLog al ty (Runner.growing capacity) ix channels start outputs g
  (r, log.foldl CellStore.apply outputs, g)

/-- `read_channel_from` in the same way (`src/file/channel_reader.rs:79-92`) -/
def Growing.readChannelInto (al : Alloc) (capacity : Nat) (ty : STy) (ix : Index) (g : Growing) (channel : ChannelPath)
    (start : Nat) (output : List ty.Val) : R Unit × List ty.Val × Growing :=
  let (r, log, g) := readChannelLog al ty (Runner.growing capacity) ix channel start output g
  (r, (log.foldl CellStore.apply [output]).headD [], g)

end Tedium
