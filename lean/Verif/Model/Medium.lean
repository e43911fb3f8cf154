import Verif.Spec.Faults

/-!
# What the stream keeps when the power fails

`Model/Stream.lean` follows the bytes into the stream. What a stream has accepted need not be on the medium: a file of
the operating system is in its cache first. Here the stream's own `flush` is modelled (`src/io/writer.rs:96,114`; it
may fail), and how many of the accepted bytes are on the medium.

Simplifications: bytes reach the medium in the order in which they were written, and what was in the stream when the
writer was made is on the medium.
-/

namespace Tedium

/-- What one call of the stream's own `Write::flush` does. The parameter `F: Write` of `src/file/mod.rs:155`. -/
inductive FlushOutcome where
  /-- `Ok(())`, and nothing is done: `std::fs::File` (the stream of `src/file/mod.rs:38-76`) and `Cursor` -/
  | nothing
  /-- `Ok(())`, and everything accepted is on the medium -/
  | persists
  /-- an error, of any kind (also `Interrupted`: `BufWriter::flush` does not repeat the call) -/
  | fail (kind : IoKind)
  deriving DecidableEq, Repr

/-- The writer of `src/file/file_writer.rs:12-16` over a stream of which the first `kept` bytes are on the medium, and
    what the stream will do in the coming `flush` calls. When the list is used up they do nothing. -/
structure Medium where
  writer : FileWriter
  kept : Nat
  flushes : List FlushOutcome
  deriving DecidableEq, Repr

/-- `src/file/mod.rs:179-188` `TdmsFile::writer`, on a file all of which is on the medium -/
def TdmsFile.medium (t : TdmsFile) (capacity : Nat) (script : List WriteOutcome) (flushes : List FlushOutcome) : Medium :=
  ⟨t.writer capacity script, t.bytes.length, flushes⟩

namespace Medium

/-- The bytes that are left when the power fails. Of the stream of `src/io/writer.rs:83,101`. -/
def left (m : Medium) : Bytes := m.writer.out.stream.disk.take m.kept

/-- `src/file/file_writer.rs:97-99` `sync`, with `src/io/writer.rs:95-98,113-116`: `BufWriter::flush` is `flush_buf`
    and then, if that succeeds, the stream's own `flush`. -/
def sync (m : Medium) : R Unit × Medium :=
  match m.writer.sync with
  | (.error e, writer) => (.error e, { m with writer })
  | (.ok (), writer) =>
    match m.flushes with
    | [] => (.ok (), { m with writer })
    | .nothing :: flushes => (.ok (), { m with writer, flushes })
    | .persists :: flushes => (.ok (), ⟨writer, writer.out.stream.disk.length, flushes⟩)
    | .fail kind :: flushes => (R.err (.ioError kind), { m with writer, flushes })

/-- One call of the writer (`src/file/file_writer.rs:39-48,68-99`). Only `sync` calls the stream's `flush`. -/
def call (al : Alloc) (split : Bytes → List Bytes) (m : Medium) : Call → R Unit × Medium
  | .op op =>
    let (r, writer) := Faults.run al split m.writer (.op op)
    (r, { m with writer })
  | .sync => m.sync

/-- The system moves the next `n` accepted bytes to the medium by itself, at any time. Not code of the project: it
    is what the stream of `src/io/writer.rs:83,101` may do. -/
def writeBack (n : Nat) (m : Medium) : Medium :=
  { m with kept := min (m.kept + n) m.writer.out.stream.disk.length }

/-- Dropping the writer (`src/file/file_writer.rs:12-16`): `impl Drop for BufWriter` only does `flush_buf`. The stream
    with its contents, and how much of it is on the medium. -/
def drop (m : Medium) : Bytes × Nat := (m.writer.drop.bytes, m.kept)

end Medium
end Tedium
