import Verif.Model.Stores

/-!
# Reading from a stream of which nothing is known

`TdmsFile<F>` works for every `F: Read + Seek` (`src/file/mod.rs:31-36`). `Model/Device.lean` and `Model/Growing.lean` are about
streams that give back what is in a file. Here the stream is any implementation of the two traits: what it answers may
have nothing to do with what it answered before. The reader is the same `BufReader`, and the programs that run over it
are those of `Model/Act.lean` and `Model/Stores.lean`.

Simplified: `read_exact` repeats a `read` that is interrupted, with the same arguments. Here `read` is what it comes to in
the end; a stream that is interrupted for ever is not one of these.
-/

namespace Tedium

/-- Any implementation of `Read + Seek`, with states `σ`. The parameter `F` of `src/file/mod.rs:31-36`. -/
structure Source (σ : Type) where
  /-- `Read::read` into a buffer of that many bytes; no bytes is the end of the file. Only as many as fit count. -/
  read : σ → Nat → Except IoKind Bytes × σ
  /-- `seek(SeekFrom::Start(position))`, and the error if it fails -/
  seekStart : σ → Nat → Option IoKind × σ
  /-- `seek(SeekFrom::Current(offset))`, and the error if it fails -/
  seekCurrent : σ → Int → Option IoKind × σ

/-- `std::io::BufReader` (`src/io/reader.rs:61,77`), as in `Model/Device.lean`, over any stream -/
structure AnyReader (σ : Type) where
  capacity : Nat
  filled : Bytes
  consumed : Nat
  str : σ

namespace AnyReader
variable {σ : Type} (F : Source σ)

/-- `BufReader::new` (`src/io/reader.rs:68,84`) -/
def new (capacity : Nat) (str : σ) : AnyReader σ := ⟨capacity, [], 0, str⟩

/-- `BufReader::read`, called by `read_exact`, `src/io/data_types/native_numerics.rs:20` -/
def read (b : AnyReader σ) (n : Nat) : Except IoKind Bytes × AnyReader σ :=
  if b.consumed = b.filled.length then
    if n ≥ b.capacity then
      match F.read b.str n with
      | (.ok bs, str) => (.ok (bs.take n), { b with filled := [], consumed := 0, str })
      | (.error kind, str) => (.error kind, { b with filled := [], consumed := 0, str })
    else
      match F.read b.str b.capacity with
      | (.ok bs, str) => (.ok ((bs.take b.capacity).take n),
          { b with filled := bs.take b.capacity, consumed := ((bs.take b.capacity).take n).length, str })
      | (.error kind, str) => (.error kind, { b with filled := [], consumed := 0, str })
  else
    let bs := (b.filled.drop b.consumed).take n
    (.ok bs, { b with consumed := b.consumed + bs.length })

/-- `std::io::default_read_exact`, called by `read_exact`, `src/io/data_types/native_numerics.rs:20` -/
def readExactLoop : (fuel : Nat) → (n : Nat) → (acc : Bytes) → AnyReader σ → R Bytes × AnyReader σ
  | 0, _, _, b => (.error .hang, b)
  | fuel + 1, n, acc, b =>
    if n = 0 then (.ok acc, b)
    else
      match b.read F n with
      | (.ok bs, b) =>
        if bs = [] then (R.err (.ioError .unexpectedEof), b)
        else readExactLoop fuel (n - bs.length) (acc ++ bs) b
      | (.error kind, b) => (R.err (.ioError kind), b)

/-- `BufReader::read_exact` (`src/io/data_types/native_numerics.rs:20,25`) -/
def readExact (b : AnyReader σ) (n : Nat) : R Bytes × AnyReader σ :=
  if n ≤ b.filled.length - b.consumed then
    (.ok ((b.filled.drop b.consumed).take n), { b with consumed := b.consumed + n })
  else b.readExactLoop F (n + 1) n []

/-- `BufReader::seek(SeekFrom::Start(position))` (`src/io/reader.rs:30-34`) -/
def seekStart (b : AnyReader σ) (position : Nat) : Option IoKind × AnyReader σ :=
  match F.seekStart b.str position with
  | (some kind, str) => (some kind, { b with str })
  | (none, str) => (none, { b with filled := [], consumed := 0, str })

/-- `BufReader::seek(SeekFrom::Current(offset))`, called by `seek_relative`, `src/io/reader.rs:38` -/
def seekCurrent (b : AnyReader σ) (offset : Int) : Option IoKind × AnyReader σ :=
  let remainder : Int := (b.filled.length : Int) - b.consumed
  if -(2 ^ 63) ≤ offset - remainder then
    match F.seekCurrent b.str (offset - remainder) with
    | (some kind, str) => (some kind, { b with str })
    | (none, str) => (none, { b with filled := [], consumed := 0, str })
  else
    match F.seekCurrent b.str (-remainder) with
    | (some kind, str) => (some kind, { b with str })
    | (none, str) =>
      match F.seekCurrent str offset with
      | (some kind, str) => (some kind, { b with filled := [], consumed := 0, str })
      | (none, str) => (none, { b with filled := [], consumed := 0, str })

/-- `BufReader::seek_relative` (`src/io/reader.rs:37-40`) -/
def seekRelative (b : AnyReader σ) (offset : Int) : Option IoKind × AnyReader σ :=
  let q : Int := (b.consumed : Int) + offset
  if 0 ≤ q ∧ q ≤ b.filled.length then (none, { b with consumed := q.toNat })
  else b.seekCurrent F offset

/-- Run a program. What `src/io/reader.rs:61-91` does for the callers. -/
def run {α : Type} : Act α → AnyReader σ → R α × AnyReader σ
  | .ret a, b => (.ok a, b)
  | .stop e, b => (.error e, b)
  | .exact n next, b =>
    match b.readExact F n with
    | (.error e, b) => (.error e, b)
    | (.ok bs, b) => run (next bs) b
  | .move offset next, b =>
    match b.seekRelative F offset with
    | (some kind, b) => (R.err (.ioError kind), b)
    | (none, b) => run next b

/-- Run a program that assigns (`src/io/reader.rs:61-91`): its result, and the assignments made. -/
def runProg {τ α : Type} : Prog τ α → AnyReader σ → (R α × List τ) × AnyReader σ
  | .ret a, b => ((.ok a, []), b)
  | .stop e, b => ((.error e, []), b)
  | .exact n next, b =>
    match b.readExact F n with
    | (.error e, b) => ((.error e, []), b)
    | (.ok bs, b) => runProg (next bs) b
  | .move offset next, b =>
    match b.seekRelative F offset with
    | (some kind, b) => ((R.err (.ioError kind), []), b)
    | (none, b) => runProg next b
  | .store s next, b =>
    let ((r, ss), b) := runProg next b
    ((r, s :: ss), b)

end AnyReader

namespace Source
variable {σ : Type} (F : Source σ)

/-- `src/meta_data.rs:176-203` `Segment::read` with `src/io/reader.rs:44-58` -/
def readSegment (al : Alloc) (capacity : Nat) (s : σ) : R Segment × σ :=
  match (AnyReader.new 0 s).readExact F 4 with
  | (.error (.err (.ioError .unexpectedEof)), b) => (R.err .endOfFile, b.str)
  | (.error e, b) => (.error e, b.str)
  | (.ok tag, b) =>
    if tag ≠ tdsmTag then (R.err (.headerPatternNotMatched tag), b.str)
    else
      match b.readExact F 4 with
      | (.error e, b) => (.error e, b.str)
      | (.ok buf, b) =>
        let toc := ToC.fromU32 (decNat .little buf)
        let (r, b) := (AnyReader.new capacity b.str).run F (Act.segment al (if toc.bigEndian then .big else .little) toc)
        (r, b.str)

/-- the loop of `build_index`, `src/file/mod.rs:62-73` -/
def openLoop (al : Alloc) (capacity : Nat) : (fuel : Nat) → Index → σ → R Index × σ
  | 0, _, s => (.error .hang, s)
  | fuel + 1, ix, s =>
    match F.readSegment al capacity s with
    | (.error (.err .endOfFile), s) => (.ok ix, s)
    | (.error e, s) => (.error e, s)
    | (.ok segment, s) =>
      match ix.addSegment segment with
      | (.error e, _) => (.error e, s)
      | (.ok next, ix) =>
        match F.seekStart s next with
        | (some _, s) => (.ok ix, s)
        | (none, s) => openLoop al capacity fuel ix s

/-- `src/file/mod.rs:56-75` `build_index`. A segment starts at least 28 bytes behind the one before, and addresses have 64
    bits, so there cannot be more segments than the loop is allowed. -/
def buildIndex (al : Alloc) (capacity : Nat) (s : σ) : R Index × σ :=
  match F.seekStart s 0 with
  | (some kind, s) => (R.err (.ioError kind), s)
  | (none, s) => F.openLoop al capacity (u64Lim / leadInBytes + 1) Index.new s

/-- Run a program on the stream, through a fresh `BufReader`, after `to_file_position` (`src/io/reader.rs:30-34`). -/
def runner {α : Type} (capacity : Nat) : Runner σ α := fun start a s =>
  match (AnyReader.new capacity s).seekStart F start with
  | (some kind, b) => ((R.err (.ioError kind), []), b.str)
  | (none, b) =>
    let (r, b) := b.runProg F a
    (r, b.str)

/-- `read_channels_from` of a file opened with the index `ix`: whether it succeeds, the slices afterwards, and the stream
    (`src/file/channel_reader.rs:120-139`) -/
def readChannelsInto (al : Alloc) (capacity : Nat) (ty : STy) (ix : Index) (s : σ) (channels : List ChannelPath)
    (start : Nat) (outputs : List (List ty.Val)) : R Unit × List (List ty.Val) × σ :=
  let (r, log, s) := readChannelsLog al ty (F.runner capacity) ix channels start outputs s
  (r, log.foldl CellStore.apply outputs, s)

/-- `read_channel_from` in the same way (`src/file/channel_reader.rs:79-92`) -/
def readChannelInto (al : Alloc) (capacity : Nat) (ty : STy) (ix : Index) (s : σ) (channel : ChannelPath)
    (start : Nat) (output : List ty.Val) : R Unit × List ty.Val × σ :=
  let (r, log, s) := readChannelLog al ty (F.runner capacity) ix channel start output s
  (r, (log.foldl CellStore.apply [output]).headD [], s)

end Source
end Tedium
