import Verif.Model.Basic

/-!
# The write buffer (`src/io/writer.rs:83-117`)

`LittleEndianWriter`/`BigEndianWriter` write through `std::io::BufWriter`. Which bytes the buffer
has passed on at a given moment is not specified by the crate, so the model lets it pass on any
prefix of the pending bytes at any moment (`spill`).
-/

namespace Tedium

/-- `src/io/writer.rs:83` `LittleEndianWriter(BufWriter<W>)`: what the underlying stream holds and
    what is still in memory. -/
structure BufW where
  disk : Bytes
  pending : Bytes
  deriving DecidableEq, Repr

/-- What can happen to the buffer. `std::io::BufWriter` of `src/io/writer.rs:83-88`: `src/io/writer.rs:89-91` writes,
    `src/io/writer.rs:95-98` flushes. -/
inductive BufEvent where
  /-- `write_all` of some bytes (`src/io/writer.rs:89-91`) -/
  | write (bs : Bytes)
  /-- the buffer passes on its first `n` bytes -/
  | spill (n : Nat)
  /-- `sync` (`src/io/writer.rs:95-98`: `flush`), and dropping the writer -/
  | sync
  deriving DecidableEq, Repr

namespace BufW

/-- `src/file/mod.rs:179-188`: a fresh writer over a stream positioned at its end -/
def new (disk : Bytes) : BufW := ⟨disk, []⟩

/-- effect of one event. `std::io::BufWriter` of `src/io/writer.rs:83-98`. -/
def step (b : BufW) : BufEvent → BufW
  | .write bs => { b with pending := b.pending ++ bs }
  | .spill n => ⟨b.disk ++ b.pending.take n, b.pending.drop n⟩
  | .sync => ⟨b.disk ++ b.pending, []⟩

/-- effect of a sequence of events. `std::io::BufWriter` of `src/io/writer.rs:83-98`. -/
def run (b : BufW) : List BufEvent → BufW
  | [] => b
  | ev :: evs => run (b.step ev) evs

end BufW
end Tedium
