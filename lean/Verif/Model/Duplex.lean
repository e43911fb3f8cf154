import Verif.Model.Source
import Verif.Model.Stream

/-!
# Writing to a stream of which nothing is known

`TdmsFile<F>` can be written for every `F: Write + Read + Seek` (`src/file/mod.rs:155`). `Model/Stream.lean` has streams that keep
what they accept, and do what a list says. Here the stream is any implementation of the traits, as in
`Model/Source.lean` for reading. The writer is the same `BufWriter`. It records which bytes the stream has said to
accept; the code has no such record.

Simplified: `write_all` and `flush_buf` repeat a `write` that is interrupted, with the same arguments. Here `write` is what it
comes to in the end. A stream that says it accepted more than it was given counts as one that accepted all (the
trait forbids it, and `BufWriter` would panic).
-/

namespace Tedium

/-- Any implementation of `Read + Write + Seek`, with states `σ`. The parameter `F` of `src/file/mod.rs:155`. -/
structure Duplex (σ : Type) extends Source σ where
  /-- `Write::write`: how many of the bytes were accepted -/
  write : σ → Bytes → Except IoKind Nat × σ
  /-- `Write::flush`, and the error if it fails -/
  flush : σ → Option IoKind × σ
  /-- `seek(SeekFrom::End(0))`, and the error if it fails -/
  seekEnd : σ → Option IoKind × σ

/-- The loop of `std::io::Write::write_all`, and that of `BufWriter::flush_buf`, as in `Stream.push`: the error if any, the bytes
    that were accepted, the others, and the stream. The number is at least the number of bytes. Called by
    `src/io/data_types/native_numerics.rs:29`, `src/io/writer.rs:96`, through the `BufWriter`. -/
def Duplex.push {σ : Type} (F : Duplex σ) : (fuel : Nat) → (offered : Bytes) → σ → Option IoKind × Bytes × Bytes × σ
  | 0, offered, s => (none, [], offered, s)
  | _ + 1, [], s => (none, [], [], s)
  | fuel + 1, b :: bs, s =>
    match F.write s (b :: bs) with
    | (.error kind, s) => (some kind, [], b :: bs, s)
    | (.ok 0, s) => (some .writeZero, [], b :: bs, s)
    | (.ok (n + 1), s) =>
      let (r, accepted, rest, s) := F.push fuel ((b :: bs).drop (n + 1)) s
      (r, (b :: bs).take (n + 1) ++ accepted, rest, s)

/-- `std::io::BufWriter` (`src/io/writer.rs:83,101`), and what the stream has accepted from it -/
structure AnyOut (σ : Type) where
  capacity : Nat
  buf : Bytes
  str : σ
  accepted : Bytes

namespace AnyOut
variable {σ : Type} (F : Duplex σ)

/-- `BufWriter::flush_buf`, called by `src/io/writer.rs:96,114` -/
def flushBuf (w : AnyOut σ) : Option IoKind × AnyOut σ :=
  let (r, accepted, rest, str) := F.push w.buf.length w.buf w.str
  (r, { w with buf := rest, str, accepted := w.accepted ++ accepted })

/-- `BufWriter::write_all` and `write_all_cold` (`src/io/data_types/native_numerics.rs:29,33`) -/
def writeAll (w : AnyOut σ) (bs : Bytes) : Option IoKind × AnyOut σ :=
  if bs.length < w.capacity - w.buf.length then (none, { w with buf := w.buf ++ bs })
  else
    match (if bs.length > w.capacity - w.buf.length then w.flushBuf F else (none, w)) with
    | (some kind, w) => (some kind, w)
    | (none, w) =>
      if bs.length ≥ w.capacity then
        let (r, accepted, _, str) := F.push bs.length bs w.str
        (r, { w with str, accepted := w.accepted ++ accepted })
      else (none, { w with buf := w.buf ++ bs })

/-- the `write_all` calls of `write_segment` (`src/io/writer.rs:52-70`), each followed by `?` -/
def writePieces (w : AnyOut σ) : List Bytes → Option IoKind × AnyOut σ
  | [] => (none, w)
  | bs :: pieces =>
    match w.writeAll F bs with
    | (some kind, w) => (some kind, w)
    | (none, w) => w.writePieces pieces

/-- `BufWriter::flush` (`src/io/writer.rs:95-98,113-116`): `flush_buf`, and then the stream's own `flush` -/
def flush (w : AnyOut σ) : Option IoKind × AnyOut σ :=
  match w.flushBuf F with
  | (some kind, w) => (some kind, w)
  | (none, w) =>
    let (r, str) := F.flush w.str
    (r, { w with str })

end AnyOut

/-- `src/file/mod.rs:31-36` `TdmsFile<F>` -/
structure AnyFile (σ : Type) where
  index : Index
  str : σ

/-- `src/file/file_writer.rs:12-16` `TdmsFileWriter` -/
structure AnyFileWriter (σ : Type) where
  index : Index
  out : AnyOut σ

namespace AnyFileWriter
variable {σ : Type} (F : Duplex σ)

/-- Writing one segment and indexing it (`src/file/file_writer.rs:89-92`, `152` and `161-164`) -/
def segment (split : Bytes → List Bytes) (w : AnyFileWriter σ) (s : Segment × Bytes) : R Unit × AnyFileWriter σ :=
  match w.out.writePieces F (split s.2) with
  | (some kind, out) => (R.err (.ioError kind), { w with out })
  | (none, out) =>
    let (r, index) := w.index.addSegment s.1
    (r.map (fun _ => ()), { index, out })

/-- `src/file/file_writer.rs:39-48,110-164` `write_channels`, as in `Model/File.lean` -/
def writeChannels {α : Type} (S : Storage α) (split : Bytes → List Bytes) (e : Endian) (w : AnyFileWriter σ)
    (channels : List ChannelPath) (vals : List α) (layout : DataLayout) : R Unit × AnyFileWriter σ :=
  if channels.length = 0 then (R.err .noChannels, w)
  else if vals.length % channels.length ≠ 0 then
    (R.err (.badDataBlockLength vals.length channels.length), w)
  else
    let objects := (channels.map ChannelPath.path).zip (TdmsFile.dataStructure S vals channels.length)
    let (matchesLive, raw) := w.index.checkWriteValues objects
    let md : Option MetaData :=
      if matchesLive then none
      else some { objects := raw.map (fun (p, i) =>
        { path := p, properties := [], rawDataIndex := i }) }
    let toc : ToC :=
      { containsNewObjectList := !matchesLive, dataIsInterleaved := layout = .interleaved }
    w.segment F split (writeSegment e toc md (some (TdmsFile.sliceData S e vals)))

/-- `src/file/file_writer.rs:68-94` `write_properties` -/
def writeProperties (split : Bytes → List Bytes) (e : Endian) (w : AnyFileWriter σ) (path : PropertyPath)
    (properties : List (Text × PropertyValue)) : R Unit × AnyFileWriter σ :=
  let object : ObjectMetaData := { path := path.path, properties, rawDataIndex := .none }
  w.segment F split (writeSegment e {} (some { objects := [object] }) none)

/-- `src/file/file_writer.rs:97-99` `sync` -/
def sync (w : AnyFileWriter σ) : R Unit × AnyFileWriter σ :=
  match w.out.flush F with
  | (some kind, out) => (R.err (.ioError kind), { w with out })
  | (none, out) => (.ok (), { w with out })

/-- Dropping the writer (`src/file/file_writer.rs:12-16`): `impl Drop for BufWriter` does `flush_buf` and ignores the result. The
    file, and what the stream has accepted from the writer. -/
def drop (w : AnyFileWriter σ) : AnyFile σ × Bytes :=
  (⟨w.index, (w.out.flushBuf F).2.str⟩, (w.out.flushBuf F).2.accepted)

end AnyFileWriter

/-- `src/file/mod.rs:179-188` `TdmsFile::writer`: the error if the seek fails, with the file -/
def AnyFile.writer {σ : Type} (F : Duplex σ) (capacity : Nat) (t : AnyFile σ) : Except (TdmsError × AnyFile σ) (AnyFileWriter σ) :=
  match F.seekEnd t.str with
  | (some kind, str) => .error (.ioError kind, { t with str })
  | (none, str) => .ok ⟨t.index, ⟨capacity, [], str, []⟩⟩

end Tedium
