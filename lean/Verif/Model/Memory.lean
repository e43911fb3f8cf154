import Verif.Model.Source

/-!
# Strings and the memory they are read into

`read_string_with_length` (`src/io/data_types/strings.rs:8-25`) has the only `unsafe` block of the crate: it makes a buffer
of the length of the string without initialising it, and has `read_exact` fill it. `Model/Source.lean` passes the bytes
that a stream gives. Here a stream gets the buffer itself, with bytes in it that may never have been written, puts
bytes into it as it likes, and says how many there are; nothing makes it tell the truth.

Numbers are read into arrays of zeros of at most 16 bytes, strings into buffers that are not initialised. A buffer that is
shorter than that of the `BufReader` is never passed to the stream. So with the capacity of 8192 bytes that
`BufReader::new` has, only strings matter. (Simplified: every buffer counts as not initialised.)

Simplified: as in `Model/Source.lean`, `read` is what it comes to after the interruptions; the stream has no `read_exact` of
its own. A stream that looks at bytes of the buffer which were never written is not one of these: for such a stream
getting the buffer is already undefined.
-/

namespace Tedium

/-- A byte of a buffer; `none` if it was never written (`src/io/data_types/strings.rs:9-20`). -/
abbrev MemCell := Option UInt8

/-- Any implementation of `Read + Seek` without `unsafe`, with states `σ`. The parameter `F` of `src/file/mod.rs:31-36`. -/
structure SafeStream (σ : Type) where
  /-- `Read::read` into this buffer: how many bytes the stream says that it has put there, which it has put where, and
      the stream afterwards. Called from `src/meta_data.rs:178,195` and by `BufReader`. -/
  read : σ → List MemCell → (Except IoKind Nat × (Nat → Option UInt8)) × σ
  /-- `seek(SeekFrom::Start(position))`, and the error if it fails -/
  seekStart : σ → Nat → Option IoKind × σ
  /-- `seek(SeekFrom::Current(offset))`, and the error if it fails -/
  seekCurrent : σ → Int → Option IoKind × σ

/-- The buffer from the byte with the number `i` on after bytes were put into it (`src/io/data_types/strings.rs:22`). -/
def putBytesFrom (puts : Nat → Option UInt8) : Nat → List MemCell → List MemCell
  | _, [] => []
  | i, c :: cs => (puts i).or c :: putBytesFrom puts (i + 1) cs

/-- The buffer after bytes were put into it (`src/io/data_types/strings.rs:22`). -/
def putBytes (puts : Nat → Option UInt8) (buf : List MemCell) : List MemCell := putBytesFrom puts 0 buf

/-- A stream, and what has happened to memory: the lengths of the buffers with bytes that were never written that the stream
    got, and whether such a byte was used (`src/io/data_types/strings.rs:19-23`). -/
structure Seen (σ : Type) where
  str : σ
  handed : List Nat
  undefined : Bool

/-- Before anything has been read (`src/file/mod.rs:49`). -/
def Seen.new {σ : Type} (s : σ) : Seen σ := ⟨s, [], false⟩

/-- `Read::read` of the stream (`src/meta_data.rs:178,195`) -/
def Seen.read {σ : Type} (M : SafeStream σ) (s : Seen σ) (buf : List MemCell) : Except IoKind Nat × List MemCell × Seen σ :=
  match M.read s.str buf with
  | ((r, puts), str) =>
    (r, putBytes puts buf, { s with str, handed := if buf.all Option.isSome then s.handed else s.handed ++ [buf.length] })

/-- The filled buffer is used (`src/io/data_types/strings.rs:23`, `src/io/data_types/native_numerics.rs:21`). If a byte of
    it was never written, nothing is known from there on, and the model stops. -/
def Seen.use {σ : Type} (s : Seen σ) (buf : List MemCell) : R Bytes × Seen σ :=
  if buf.all Option.isSome then (.ok (buf.map (Option.getD · 0)), s) else (.error .hang, { s with undefined := true })

/-- `std::io::BufReader` (`src/io/reader.rs:61,77`) with the whole of its buffer, of which the first `filled` bytes are from
    the stream. It fills the buffer with zeros before the stream gets it for the first time. -/
structure MemReader (σ : Type) where
  store : Bytes
  filled : Nat
  consumed : Nat
  seen : Seen σ

namespace MemReader
variable {σ : Type} (M : SafeStream σ)

/-- `BufReader::new` (`src/io/reader.rs:68,84`) -/
def new (capacity : Nat) (seen : Seen σ) : MemReader σ := ⟨List.replicate capacity 0, 0, 0, seen⟩

/-- The bytes from the stream that have not been consumed (`src/io/reader.rs:61,77`). -/
def buffered (b : MemReader σ) : Bytes := (b.store.take b.filled).drop b.consumed

/-- `BufReader::read`, called by `read_exact`, `src/io/data_types/strings.rs:22`: how many bytes were put into the buffer, and
    the buffer. A stream that says that it has put more bytes into the buffer of the `BufReader` than fit makes it panic. -/
def read (b : MemReader σ) (buf : List MemCell) : R Nat × List MemCell × MemReader σ :=
  if b.consumed = b.filled then
    if buf.length ≥ b.store.length then
      match b.seen.read M buf with
      | (.ok n, buf, seen) => (.ok n, buf, { b with filled := 0, consumed := 0, seen })
      | (.error kind, buf, seen) => (R.err (.ioError kind), buf, { b with filled := 0, consumed := 0, seen })
    else
      match b.seen.read M (b.store.map some) with
      | (.ok n, store, seen) =>
        let store := store.map (Option.getD · 0)
        if n ≤ store.length then
          let bs := (store.take n).take buf.length
          (.ok bs.length, bs.map some ++ buf.drop bs.length, ⟨store, n, bs.length, seen⟩)
        else (R.panic .expect, buf, { b with seen })
      | (.error kind, store, seen) => (R.err (.ioError kind), buf, ⟨store.map (Option.getD · 0), 0, 0, seen⟩)
  else
    let bs := b.buffered.take buf.length
    (.ok bs.length, bs.map some ++ buf.drop bs.length, { b with consumed := b.consumed + bs.length })

/-- `std::io::default_read_exact`, called by `read_exact`, `src/io/data_types/strings.rs:22`: `done` is the front of the buffer
    that counts as filled. `buf = &mut buf[n..]` panics if `n` is more than there is. -/
def readExactLoop : (fuel : Nat) → (done rest : List MemCell) → MemReader σ → R (List MemCell) × MemReader σ
  | 0, _, _, b => (.error .hang, b)
  | fuel + 1, done, rest, b =>
    if rest = [] then (.ok done, b)
    else
      match b.read M rest with
      | (.error e, _, b) => (.error e, b)
      | (.ok n, rest, b) =>
        if n = 0 then (R.err (.ioError .unexpectedEof), b)
        else if n ≤ rest.length then readExactLoop fuel (done ++ rest.take n) (rest.drop n) b
        else (R.panic .sliceRange, b)

/-- `BufReader::read_exact` into a buffer (`src/io/data_types/strings.rs:22`), and the use of it -/
def readExact (b : MemReader σ) (buf : List MemCell) : R Bytes × MemReader σ :=
  if buf.length ≤ b.filled - b.consumed then
    (.ok (b.buffered.take buf.length), { b with consumed := b.consumed + buf.length })
  else
    match b.readExactLoop M (buf.length + 1) [] buf with
    | (.error e, b) => (.error e, b)
    | (.ok cells, b) => ((b.seen.use cells).1, { b with seen := (b.seen.use cells).2 })

/-- `BufReader::seek(SeekFrom::Start(position))` (`src/io/reader.rs:30-34`) -/
def seekStart (b : MemReader σ) (position : Nat) : Option IoKind × MemReader σ :=
  match M.seekStart b.seen.str position with
  | (some kind, str) => (some kind, { b with seen := { b.seen with str } })
  | (none, str) => (none, { b with filled := 0, consumed := 0, seen := { b.seen with str } })

/-- `BufReader::seek(SeekFrom::Current(offset))`, called by `seek_relative`, `src/io/reader.rs:38` -/
def seekCurrent (b : MemReader σ) (offset : Int) : Option IoKind × MemReader σ :=
  let remainder : Int := (b.filled : Int) - b.consumed
  if -(2 ^ 63) ≤ offset - remainder then
    match M.seekCurrent b.seen.str (offset - remainder) with
    | (some kind, str) => (some kind, { b with seen := { b.seen with str } })
    | (none, str) => (none, { b with filled := 0, consumed := 0, seen := { b.seen with str } })
  else
    match M.seekCurrent b.seen.str (-remainder) with
    | (some kind, str) => (some kind, { b with seen := { b.seen with str } })
    | (none, str) =>
      match M.seekCurrent str offset with
      | (some kind, str) => (some kind, { b with filled := 0, consumed := 0, seen := { b.seen with str } })
      | (none, str) => (none, { b with filled := 0, consumed := 0, seen := { b.seen with str } })

/-- `BufReader::seek_relative` (`src/io/reader.rs:37-40`) -/
def seekRelative (b : MemReader σ) (offset : Int) : Option IoKind × MemReader σ :=
  let q : Int := (b.consumed : Int) + offset
  if 0 ≤ q ∧ q ≤ b.filled then (none, { b with consumed := q.toNat })
  else b.seekCurrent M offset

/-- Run a program. What `src/io/reader.rs:61-91` does for the callers. -/
def run {α : Type} : Act α → MemReader σ → R α × MemReader σ
  | .ret a, b => (.ok a, b)
  | .stop e, b => (.error e, b)
  | .exact n next, b =>
    match b.readExact M (List.replicate n none) with
    | (.error e, b) => (.error e, b)
    | (.ok bs, b) => run (next bs) b
  | .move offset next, b =>
    match b.seekRelative M offset with
    | (some kind, b) => (R.err (.ioError kind), b)
    | (none, b) => run next b

/-- Run a program that assigns (`src/io/reader.rs:61-91`): its result, and the assignments made. -/
def runProg {τ α : Type} : Prog τ α → MemReader σ → (R α × List τ) × MemReader σ
  | .ret a, b => ((.ok a, []), b)
  | .stop e, b => ((.error e, []), b)
  | .exact n next, b =>
    match b.readExact M (List.replicate n none) with
    | (.error e, b) => ((.error e, []), b)
    | (.ok bs, b) => runProg (next bs) b
  | .move offset next, b =>
    match b.seekRelative M offset with
    | (some kind, b) => ((R.err (.ioError kind), []), b)
    | (none, b) => runProg next b
  | .store s next, b =>
    let ((r, ss), b) := runProg next b
    ((r, s :: ss), b)

end MemReader

namespace SafeStream
variable {σ : Type} (M : SafeStream σ)

/-- `src/meta_data.rs:176-203` `Segment::read` with `src/io/reader.rs:44-58`. The tag and the flags are read from the stream
    itself, into arrays of zeros (`src/meta_data.rs:177,194`). -/
def readSegment (al : Alloc) (capacity : Nat) (s : Seen σ) : R Segment × Seen σ :=
  match (MemReader.new 0 s).readExact M (List.replicate 4 (some 0)) with
  | (.error (.err (.ioError .unexpectedEof)), b) => (R.err .endOfFile, b.seen)
  | (.error e, b) => (.error e, b.seen)
  | (.ok tag, b) =>
    if tag ≠ tdsmTag then (R.err (.headerPatternNotMatched tag), b.seen)
    else
      match b.readExact M (List.replicate 4 (some 0)) with
      | (.error e, b) => (.error e, b.seen)
      | (.ok buf, b) =>
        let toc := ToC.fromU32 (decNat .little buf)
        let (r, b) := (MemReader.new capacity b.seen).run M (Act.segment al (if toc.bigEndian then .big else .little) toc)
        (r, b.seen)

/-- the loop of `build_index`, `src/file/mod.rs:62-73` -/
def openLoop (al : Alloc) (capacity : Nat) : (fuel : Nat) → Index → Seen σ → R Index × Seen σ
  | 0, _, s => (.error .hang, s)
  | fuel + 1, ix, s =>
    match M.readSegment al capacity s with
    | (.error (.err .endOfFile), s) => (.ok ix, s)
    | (.error e, s) => (.error e, s)
    | (.ok segment, s) =>
      match ix.addSegment segment with
      | (.error e, _) => (.error e, s)
      | (.ok next, ix) =>
        match M.seekStart s.str next with
        | (some _, str) => (.ok ix, { s with str })
        | (none, str) => openLoop al capacity fuel ix { s with str }

/-- `src/file/mod.rs:56-75` `build_index`. There cannot be more segments than the loop is allowed, as in
    `Source.buildIndex`. -/
def buildIndex (al : Alloc) (capacity : Nat) (s : Seen σ) : R Index × Seen σ :=
  match M.seekStart s.str 0 with
  | (some kind, str) => (R.err (.ioError kind), { s with str })
  | (none, str) => M.openLoop al capacity (u64Lim / leadInBytes + 1) Index.new { s with str }

/-- Run a program on the stream, through a fresh `BufReader`, after `to_file_position` (`src/io/reader.rs:30-34`). -/
def runner {α : Type} (capacity : Nat) : Runner (Seen σ) α := fun start a s =>
  match (MemReader.new capacity s).seekStart M start with
  | (some kind, b) => ((R.err (.ioError kind), []), b.seen)
  | (none, b) =>
    let (r, b) := b.runProg M a
    (r, b.seen)

/-- `read_channels_from` of a file opened with the index `ix`: whether it succeeds, the slices afterwards, and the stream
    (`src/file/channel_reader.rs:120-139`) -/
def readChannelsInto (al : Alloc) (capacity : Nat) (ty : STy) (ix : Index) (s : Seen σ) (channels : List ChannelPath)
    (start : Nat) (outputs : List (List ty.Val)) : R Unit × List (List ty.Val) × Seen σ :=
  let (r, log, s) := readChannelsLog al ty (M.runner capacity) ix channels start outputs s
  (r, log.foldl CellStore.apply outputs, s)

/-- `read_channel_from` in the same way (`src/file/channel_reader.rs:79-92`) -/
def readChannelInto (al : Alloc) (capacity : Nat) (ty : STy) (ix : Index) (s : Seen σ) (channel : ChannelPath)
    (start : Nat) (output : List ty.Val) : R Unit × List ty.Val × Seen σ :=
  let (r, log, s) := readChannelLog al ty (M.runner capacity) ix channel start output s
  (r, (log.foldl CellStore.apply [output]).headD [], s)

end SafeStream
end Tedium
