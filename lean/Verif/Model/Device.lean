import Verif.Model.Act

/-!
# Reading from a stream with a position, through `BufReader`

`Model/File.lean` reads the file contents directly. Here the file is a stream with a position that stays where
the last operation left it, `read` may return fewer bytes than asked for, be interrupted or fail, `seek`
may fail, and everything goes through a fresh `std::io::BufReader` as in the code (`src/io/reader.rs:61-71`).

Not modelled: a stream that panics. A stream to which others append is in `Model/Growing.lean`.
-/

namespace Tedium

/-- What one call of `Read::read` or `Seek::seek` on the stream does. The parameter `F: Read + Seek` of
    `src/file/mod.rs:31-34`. -/
inductive ReadOutcome where
  /-- `read` returns at most `n + 1` bytes; `seek` succeeds -/
  | short (n : Nat)
  /-- `read` fails with kind `Interrupted`; `seek` succeeds -/
  | interrupted
  /-- an error of another kind -/
  | fail (code : Nat)
  /-- `read` returns `Ok(0)` although the end may not be reached, or fails with kind `UnexpectedEof`, which
      `read_exact` does not tell apart; `seek` fails with that kind -/
  | ended
  deriving DecidableEq, Repr

/-- The kind of the error that a caller of `read_exact` or `seek` gets from it, if any. As it gets to
    `src/file/mod.rs:60`, `src/io/reader.rs:33`, `src/io/data_types/native_numerics.rs:20`. -/
def ReadOutcome.failure : ReadOutcome → Option IoKind
  | .short _ | .interrupted => none
  | .fail code => some (.other code)
  | .ended => some .unexpectedEof

/-- The stream: `file: F` of `TdmsFile<F>` (`src/file/mod.rs:33-36`), with what it will do in the coming calls. When
    the list is used up everything succeeds, and `read` returns as many bytes as it can. -/
structure Device where
  bytes : Bytes
  pos : Nat
  script : List ReadOutcome
  deriving DecidableEq, Repr

/-- What `read` returns. Of the parameter `F: Read` of `src/file/mod.rs:31-34`. -/
inductive ReadResult where
  | got (bs : Bytes)
  | interrupted
  | failed (code : Nat)
  deriving DecidableEq, Repr

namespace Device

/-- `Read::read` into a buffer of `n` bytes. Of the parameter `F: Read` of `src/file/mod.rs:31-34`. -/
def read (d : Device) (n : Nat) : ReadResult × Device :=
  let there := (d.bytes.drop d.pos).take n
  match d.script with
  | [] => (.got there, { d with pos := d.pos + there.length })
  | .short k :: script => (.got (there.take (k + 1)), { d with pos := d.pos + (there.take (k + 1)).length, script })
  | .interrupted :: script => (.interrupted, { d with script })
  | .fail code :: script => (.failed code, { d with script })
  | .ended :: script => (.got [], { d with script })

/-- whether the next `seek` fails. Of the parameter `F: Seek` of `src/file/mod.rs:31-34`. -/
def seekOutcome (d : Device) : Option IoKind × Device :=
  match d.script with
  | [] => (none, d)
  | o :: script => (o.failure, { d with script })

/-- `seek(SeekFrom::Start(position))` (`src/file/mod.rs:60,66`) -/
def seekStart (d : Device) (position : Nat) : Option IoKind × Device :=
  match d.seekOutcome with
  | (some kind, d) => (some kind, d)
  | (none, d) => (none, { d with pos := position })

/-- `seek(SeekFrom::End(0))` (`src/file/mod.rs:183`) -/
def seekEnd (d : Device) : Option IoKind × Device :=
  match d.seekOutcome with
  | (some kind, d) => (some kind, d)
  | (none, d) => (none, { d with pos := d.bytes.length })

/-- `seek(SeekFrom::Current(offset))`: a position outside `0..2^64` is `ErrorKind::InvalidInput`. Called by
    `seek_relative`, `src/io/reader.rs:38`. -/
def seekCurrent (d : Device) (offset : Int) : Option IoKind × Device :=
  match d.seekOutcome with
  | (some kind, d) => (some kind, d)
  | (none, d) =>
    let q : Int := (d.pos : Int) + offset
    if q < 0 ∨ 2 ^ 64 ≤ q then (some .invalidInput, d) else (none, { d with pos := q.toNat })

end Device

/-- `std::io::BufReader`: the bytes `filled` end at the position of the stream, and `consumed` of them have been
    consumed (`src/io/reader.rs:61,77`). -/
structure BufReader where
  capacity : Nat
  filled : Bytes
  consumed : Nat
  dev : Device
  deriving DecidableEq, Repr

namespace BufReader

/-- `BufReader::new` (`src/io/reader.rs:68,84`); the capacity is a parameter. With capacity 0 every read goes to the
    stream directly: that stands for reading from the stream without a `BufReader`. -/
def new (capacity : Nat) (dev : Device) : BufReader := ⟨capacity, [], 0, dev⟩

/-- `BufReader::read` into a buffer of `n` bytes, with `fill_buf`. Called by `read_exact`,
    `src/io/data_types/native_numerics.rs:20`. -/
def read (b : BufReader) (n : Nat) : ReadResult × BufReader :=
  if b.consumed = b.filled.length then
    if n ≥ b.capacity then
      let (r, dev) := b.dev.read n
      (r, { b with filled := [], consumed := 0, dev })
    else
      match b.dev.read b.capacity with
      | (.got bs, dev) => (.got (bs.take n), { b with filled := bs, consumed := (bs.take n).length, dev })
      | (r, dev) => (r, { b with filled := [], consumed := 0, dev })
  else
    let bs := (b.filled.drop b.consumed).take n
    (.got bs, { b with consumed := b.consumed + bs.length })

/-- `std::io::default_read_exact`: `Ok(0)` is the end of the file, interrupted calls are repeated. Called by
    `read_exact`, `src/io/data_types/native_numerics.rs:20`. -/
def readExactLoop : (fuel : Nat) → (n : Nat) → (acc : Bytes) → BufReader → R Bytes × BufReader
  | 0, _, _, b => (.error .hang, b)
  | fuel + 1, n, acc, b =>
    if n = 0 then (.ok acc, b)
    else
      match b.read n with
      | (.got bs, b) =>
        if bs = [] then (R.err (.ioError .unexpectedEof), b)
        else readExactLoop fuel (n - bs.length) (acc ++ bs) b
      | (.interrupted, b) => readExactLoop fuel n acc b
      | (.failed code, b) => (R.err (.ioError (.other code)), b)

/-- `BufReader::read_exact` (`src/io/data_types/native_numerics.rs:20,25`) -/
def readExact (b : BufReader) (n : Nat) : R Bytes × BufReader :=
  if n ≤ b.filled.length - b.consumed then
    (.ok ((b.filled.drop b.consumed).take n), { b with consumed := b.consumed + n })
  else readExactLoop (n + b.dev.script.length + 1) n [] b

/-- `BufReader::seek(SeekFrom::Start(position))` (`src/io/reader.rs:30-34`) -/
def seekStart (b : BufReader) (position : Nat) : Option IoKind × BufReader :=
  match b.dev.seekStart position with
  | (some kind, dev) => (some kind, { b with dev })
  | (none, dev) => (none, { b with filled := [], consumed := 0, dev })

/-- `BufReader::seek(SeekFrom::Current(offset))`: what is in the buffer is subtracted; when that does not fit
    into 64 bits there are two seeks. Called by `seek_relative`, `src/io/reader.rs:38`. -/
def seekCurrent (b : BufReader) (offset : Int) : Option IoKind × BufReader :=
  let remainder : Int := (b.filled.length : Int) - b.consumed
  if -(2 ^ 63) ≤ offset - remainder then
    match b.dev.seekCurrent (offset - remainder) with
    | (some kind, dev) => (some kind, { b with dev })
    | (none, dev) => (none, { b with filled := [], consumed := 0, dev })
  else
    match b.dev.seekCurrent (-remainder) with
    | (some kind, dev) => (some kind, { b with dev })
    | (none, dev) =>
      match dev.seekCurrent offset with
      | (some kind, dev) => (some kind, { b with filled := [], consumed := 0, dev })
      | (none, dev) => (none, { b with filled := [], consumed := 0, dev })

/-- `BufReader::seek_relative` (`src/io/reader.rs:37-40`): inside the buffer only the position in it changes. -/
def seekRelative (b : BufReader) (offset : Int) : Option IoKind × BufReader :=
  let q : Int := (b.consumed : Int) + offset
  if 0 ≤ q ∧ q ≤ b.filled.length then (none, { b with consumed := q.toNat })
  else b.seekCurrent offset

/-- Run a program. What `src/io/reader.rs:61-91` does for the callers. -/
def run {α : Type} : Act α → BufReader → R α × BufReader
  | .ret a, b => (.ok a, b)
  | .stop e, b => (.error e, b)
  | .exact n next, b =>
    match b.readExact n with
    | (.error e, b) => (.error e, b)
    | (.ok bs, b) => run (next bs) b
  | .move offset next, b =>
    match b.seekRelative offset with
    | (some kind, b) => (R.err (.ioError kind), b)
    | (none, b) => run next b

end BufReader
end Tedium
