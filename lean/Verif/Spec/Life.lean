import Verif.Model.Duplex
import Verif.Model.Medium

/-! # The life of a file on any stream -/

namespace Tedium
namespace Life
variable {σ : Type} (F : Duplex σ) (al : Alloc) (split : Bytes → List Bytes)

/-- One call of the writer. -/
def run (w : AnyFileWriter σ) : Call → R Unit × AnyFileWriter σ
  | .op (.write e ty channels vals layout) => w.writeChannels F (ty.storage al) split e channels vals layout
  | .op (.props e path properties) => w.writeProperties F split e path properties
  | .sync => w.sync F

/-- The writer after the calls, whatever their results. -/
def after (w : AnyFileWriter σ) (calls : List Call) : AnyFileWriter σ :=
  calls.foldl (fun w c => (run F al split w c).2) w

/-- The results of the calls. -/
def results (w : AnyFileWriter σ) : List Call → List (R Unit)
  | [] => []
  | c :: calls => (run F al split w c).1 :: results (run F al split w c).2 calls

/-- The result is an error that the stream reported. -/
def ioFailed : R Unit → Bool
  | .error (.err (.ioError _)) => true
  | _ => false

/-- The writes among the calls that do not end with an I/O error. -/
def done (w : AnyFileWriter σ) : List Call → List Op
  | [] => []
  | .sync :: calls => done (run F al split w .sync).2 calls
  | .op op :: calls =>
    if ioFailed (run F al split w (.op op)).1 then done (run F al split w (.op op)).2 calls
    else op :: done (run F al split w (.op op)).2 calls

/-- No write among the calls ends with an I/O error. (A `sync` may.) -/
def NoWriteFails (w : AnyFileWriter σ) (calls : List Call) : Prop :=
  ∀ pre op post, calls = pre ++ .op op :: post → ioFailed (run F al split (after F al split w pre) (.op op)).1 = false

/-- The bytes of the segment that a write makes, on a file with this index. -/
def segmentBytes (ix : Index) (op : Op) : Bytes := (op.run al ⟨ix, []⟩).2.bytes

/-- The bytes of the segments that the calls make, one after the other, whether they are written or not. -/
def offered (w : AnyFileWriter σ) : List Call → Bytes
  | [] => []
  | .sync :: calls => offered (run F al split w .sync).2 calls
  | .op op :: calls => segmentBytes al w.index op ++ offered (run F al split w (.op op)).2 calls

/-- The results of calls on a writer over a stream that keeps what it accepts, and does what lists say. -/
def mediumResults (m : Medium) : List Call → List (R Unit)
  | [] => []
  | c :: calls => (m.call al split c).1 :: mediumResults (m.call al split c).2 calls

/-- That writer after the calls. -/
def mediumAfter (m : Medium) (calls : List Call) : Medium := calls.foldl (fun m c => (m.call al split c).2) m

/-- What is done with an open file: a read, or a writer is made, calls are made on it, and it is dropped. -/
inductive Use where
  | readOne (ty : STy) (channel : ChannelPath) (start : Nat) (output : List ty.Val)
  | readMany (ty : STy) (channels : List ChannelPath) (start : Nat) (outputs : List (List ty.Val))
  | write (calls : List Call)

/-- The results of the calls, and the file afterwards. -/
def use (capacity : Nat) (t : AnyFile σ) : Use → List (R Unit) × AnyFile σ
  | .readOne ty channel start output =>
    let (r, _, str) := F.toSource.readChannelInto al capacity ty t.index t.str channel start output
    ([r], { t with str })
  | .readMany ty channels start outputs =>
    let (r, _, str) := F.toSource.readChannelsInto al capacity ty t.index t.str channels start outputs
    ([r], { t with str })
  | .write calls =>
    match t.writer F capacity with
    | .error (e, t) => ([R.err e], t)
    | .ok w => (results F al split w calls, ((after F al split w calls).drop F).1)

/-- The writes among the calls of a use that do not end with an I/O error. -/
def useDone (capacity : Nat) (t : AnyFile σ) : Use → List Op
  | .write calls =>
    match t.writer F capacity with
    | .error _ => []
    | .ok w => done F al split w calls
  | _ => []

/-- The uses of a file, with the capacities of the buffers, and what others make of the stream before each. -/
def Uses (σ : Type) : Type := List (Nat × (σ → σ) × Use)

/-- The file after the uses. -/
def live (t : AnyFile σ) : Uses σ → AnyFile σ
  | [] => t
  | (capacity, meddle, u) :: us => live (use F al split capacity { t with str := meddle t.str } u).2 us

/-- The results of all calls. -/
def liveResults (t : AnyFile σ) : Uses σ → List (R Unit)
  | [] => []
  | (capacity, meddle, u) :: us =>
    (use F al split capacity { t with str := meddle t.str } u).1 ++
      liveResults (use F al split capacity { t with str := meddle t.str } u).2 us

/-- All writes that did not end with an I/O error. -/
def liveDone (t : AnyFile σ) : Uses σ → List Op
  | [] => []
  | (capacity, meddle, u) :: us =>
    useDone F al split capacity { t with str := meddle t.str } u ++
      liveDone (use F al split capacity { t with str := meddle t.str } u).2 us

/-- A stream that keeps what it is given: it has contents, `view`; a `write` accepts at least one byte and puts what it accepts at
    the end of the contents, once the stream is at its end (`AtEnd`); `flush` and `seek` do not change them. Files and
    cursors are such streams as long as nobody else uses them, and so is anything wrapped around them that hands on what it
    gets. -/
structure Keeps (AtEnd : σ → Prop) (view : σ → Bytes) : Prop where
  write : ∀ s bs, AtEnd s → bs ≠ [] →
    ∃ n s', F.write s bs = (.ok (n + 1), s') ∧ AtEnd s' ∧ view s' = view s ++ bs.take (n + 1)
  flush : ∀ s, AtEnd s → ∃ s', F.flush s = (none, s') ∧ AtEnd s' ∧ view s' = view s
  seek : ∀ s, ∃ s', F.seekEnd s = (none, s') ∧ AtEnd s' ∧ view s' = view s

/-- The results of the calls on a perfect stream. -/
def perfectResults (t : TdmsFile) : List Call → List (R Unit)
  | [] => []
  | .sync :: calls => .ok () :: perfectResults t calls
  | .op op :: calls => (op.run al t).1 :: perfectResults (op.run al t).2 calls

end Life
end Tedium
