import Verif.Spec.History

/-!
# Writing to a stream that can fail

`Model/File.lean` models the writer over a stream that accepts everything. Here is the same writer over
`std::io::BufWriter` and a stream whose `write` calls may accept any number of bytes, be interrupted or
fail (`src/io/writer.rs`, `src/file/file_writer.rs`, and the parts of `std::io` they call).

Simplifications: the stream's own `flush` succeeds (it does nothing for `File` and `Cursor`; `Model/Medium.lean` has it
as it is); the stream does not panic; the division of a segment's bytes into `write_all` calls is a parameter (`split`).
-/

namespace Tedium

/-- What one call of `Write::write` on the stream does. The parameter `F: Write` of `src/file/mod.rs:155`. -/
inductive WriteOutcome where
  /-- `Ok(n)` (at most what was offered) -/
  | accept (n : Nat)
  /-- `Err` of kind `Interrupted` -/
  | interrupted
  /-- `Err` of another kind -/
  | fail (kind : IoKind)
  deriving DecidableEq, Repr

/-- The stream: its contents, with the position at the end (`src/file/mod.rs:183` seeks there), and what it
    will do in the coming `write` calls. When the list is used up it accepts everything. -/
structure Stream where
  disk : Bytes
  script : List WriteOutcome
  deriving DecidableEq, Repr

/-- `std::io::Write::write_all`, and the loop of `BufWriter::flush_buf`: `Ok(0)` becomes an error of kind
    `WriteZero`, interrupted calls are repeated, other errors are returned. Returns the error if any, the
    bytes that were not accepted, and the stream. Called by `src/io/data_types/native_numerics.rs:29`,
    `src/io/writer.rs:96`, through the `BufWriter`. -/
def Stream.push (disk : Bytes) : (offered : Bytes) → List WriteOutcome → Option IoKind × Bytes × Stream
  | [], script => (none, [], ⟨disk, script⟩)
  | b :: bs, [] => (none, [], ⟨disk ++ b :: bs, []⟩)
  | b :: bs, .interrupted :: script => Stream.push disk (b :: bs) script
  | b :: bs, .fail kind :: script => (some kind, b :: bs, ⟨disk, script⟩)
  | b :: bs, .accept 0 :: script => (some .writeZero, b :: bs, ⟨disk, script⟩)
  | b :: bs, .accept (n + 1) :: script =>
    Stream.push (disk ++ (b :: bs).take (n + 1)) ((b :: bs).drop (n + 1)) script

/-- `std::io::BufWriter` (`src/io/writer.rs:83,101`) -/
structure BufWriter where
  capacity : Nat
  buf : Bytes
  stream : Stream
  deriving DecidableEq, Repr

namespace BufWriter

/-- `BufWriter::flush_buf`; the bytes that were not accepted stay in the buffer. `BufWriter::flush`
    (`sync`, `src/io/writer.rs:95-98,113-116`) is the same under the assumption that the stream's `flush`
    succeeds. -/
def flush (w : BufWriter) : Option IoKind × BufWriter :=
  let (r, rest, stream) := Stream.push w.stream.disk w.buf w.stream.script
  (r, { w with buf := rest, stream })

/-- `BufWriter::write_all` and `write_all_cold`. When the stream's `write_all` fails the part of `bs` that
    was not accepted is lost (`src/io/data_types/native_numerics.rs:29,33`). -/
def writeAll (w : BufWriter) (bs : Bytes) : Option IoKind × BufWriter :=
  if bs.length < w.capacity - w.buf.length then (none, { w with buf := w.buf ++ bs })
  else
    match (if bs.length > w.capacity - w.buf.length then w.flush else (none, w)) with
    | (some kind, w) => (some kind, w)
    | (none, w) =>
      if bs.length ≥ w.capacity then
        let (r, _, stream) := Stream.push w.stream.disk bs w.stream.script
        (r, { w with stream })
      else (none, { w with buf := w.buf ++ bs })

/-- the `write_all` calls of `write_segment` (`src/io/writer.rs:52-70`), each followed by `?` -/
def writePieces (w : BufWriter) : List Bytes → Option IoKind × BufWriter
  | [] => (none, w)
  | bs :: pieces =>
    match w.writeAll bs with
    | (some kind, w) => (some kind, w)
    | (none, w) => w.writePieces pieces

/-- `impl Drop for BufWriter`: flush, and ignore the result; the buffer is gone. What remains is the
    contents of the stream. Of the writer of `src/io/writer.rs:83`, when the writer of `src/file/file_writer.rs:12-16` is
    dropped. -/
def drop (w : BufWriter) : Bytes := w.flush.2.stream.disk

end BufWriter

/-- `src/file/file_writer.rs:12-16` `TdmsFileWriter`: the index it borrows from the file, and the writer. -/
structure FileWriter where
  index : Index
  out : BufWriter
  deriving DecidableEq, Repr

/-- `src/file/mod.rs:179-188` `TdmsFile::writer` -/
def TdmsFile.writer (t : TdmsFile) (capacity : Nat) (script : List WriteOutcome) : FileWriter :=
  ⟨t.index, ⟨capacity, [], ⟨t.bytes, script⟩⟩⟩

namespace FileWriter

/-- Writing one segment and indexing it: `writer.write_segment(..)?; index.add_segment(segment)?`
    (`src/file/file_writer.rs:89-92`, `152` and `161-164`). -/
def segment (split : Bytes → List Bytes) (w : FileWriter) (s : Segment × Bytes) : R Unit × FileWriter :=
  match w.out.writePieces (split s.2) with
  | (some kind, out) => (R.err (.ioError kind), { w with out })
  | (none, out) =>
    let (r, index) := w.index.addSegment s.1
    (r.map (fun _ => ()), { index, out })

/-- `src/file/file_writer.rs:39-48,110-164` `write_channels`: as `TdmsFile.writeChannels` in
    `Model/File.lean`, over the fallible stream. -/
def writeChannels {α : Type} (S : Storage α) (split : Bytes → List Bytes) (e : Endian) (w : FileWriter)
    (channels : List ChannelPath) (vals : List α) (layout : DataLayout) : R Unit × FileWriter :=
  if channels.length = 0 then (R.err .noChannels, w)
  else if vals.length % channels.length ≠ 0 then
    (R.err (.badDataBlockLength vals.length channels.length), w)
  else
    let objects := (channels.map ChannelPath.path).zip (TdmsFile.dataStructure S vals channels.length)
    let (matchesLive, raw) := w.index.checkWriteValues objects
    let md : Option MetaData :=
      if matchesLive then none
      else some { objects := raw.map (fun (p, i) =>
        { path := p, properties := [], rawDataIndex := i }) }
    let toc : ToC :=
      { containsNewObjectList := !matchesLive, dataIsInterleaved := layout = .interleaved }
    w.segment split (writeSegment e toc md (some (TdmsFile.sliceData S e vals)))

/-- `src/file/file_writer.rs:68-94` `write_properties` -/
def writeProperties (split : Bytes → List Bytes) (e : Endian) (w : FileWriter) (path : PropertyPath)
    (properties : List (Text × PropertyValue)) : R Unit × FileWriter :=
  let object : ObjectMetaData := { path := path.path, properties, rawDataIndex := .none }
  w.segment split (writeSegment e {} (some { objects := [object] }) none)

/-- `src/file/file_writer.rs:97-99` `sync` -/
def sync (w : FileWriter) : R Unit × FileWriter :=
  match w.out.flush with
  | (some kind, out) => (R.err (.ioError kind), { w with out })
  | (none, out) => (.ok (), { w with out })

/-- Dropping the writer gives the file back: the index as the writer left it, over the stream
    (`src/file/file_writer.rs:12-16`). -/
def drop (w : FileWriter) : TdmsFile := ⟨w.index, w.out.drop⟩

end FileWriter
end Tedium
