import Verif.Model.Memory

/-!
# What a stream may do with a buffer

The vocabulary of C86. A `MemCell` is a byte of memory, `none` if it was never written.
-/

namespace Tedium

/-- A stream that is honest: when it says that it has put `n` bytes into the buffer, then the first `n` bytes of the buffer
    have been written, before or by this `read`. -/
def SafeStream.Honest {σ : Type} (M : SafeStream σ) : Prop :=
  ∀ s buf n puts s', M.read s buf = ((.ok n, puts), s') → ∀ i, i < n → buf[i]? = some none → puts i ≠ none

/-- A stream that does with buffers what it should: where the stream `F` of C83 answers with bytes, it puts these bytes into
    the front of the buffer, and says how many these are; what it does behind these is its own business. -/
structure SafeStream.Serves {σ : Type} (M : SafeStream σ) (F : Source σ) : Prop where
  seekStart : M.seekStart = F.seekStart
  seekCurrent : M.seekCurrent = F.seekCurrent
  state : ∀ s buf, (M.read s buf).2 = (F.read s buf.length).2
  failed : ∀ s buf kind, (F.read s buf.length).1 = .error kind → (M.read s buf).1.1 = .error kind
  count : ∀ s buf bs, (F.read s buf.length).1 = .ok bs → (M.read s buf).1.1 = .ok (min bs.length buf.length)
  bytes : ∀ s buf bs, (F.read s buf.length).1 = .ok bs → ∀ i, i < bs.length → i < buf.length → (M.read s buf).1.2 i = bs[i]?

/-- The simplest such stream: it touches nothing but the bytes that it gives. -/
def Source.serve {σ : Type} (F : Source σ) : SafeStream σ where
  read s buf := match F.read s buf.length with
    | (.ok bs, s) => ((.ok (min bs.length buf.length), fun i => bs[i]?), s)
    | (.error kind, s) => ((.error kind, fun _ => none), s)
  seekStart := F.seekStart
  seekCurrent := F.seekCurrent

/-- A read of a file that is open. -/
inductive ReadCall where
  | one (ty : STy) (channel : ChannelPath) (start : Nat) (output : List ty.Val)
  | joint (ty : STy) (channels : List ChannelPath) (start : Nat) (outputs : List (List ty.Val))

/-- The stream, and what happened to memory, after a read. -/
def SafeStream.after {σ : Type} (M : SafeStream σ) (al : Alloc) (capacity : Nat) (ix : Index) (s : Seen σ) : ReadCall → Seen σ
  | .one ty c start out => (M.readChannelInto al capacity ty ix s c start out).2.2
  | .joint ty cs start outs => (M.readChannelsInto al capacity ty ix s cs start outs).2.2

/-- The stream, and what happened to memory, after the file was opened and, if that succeeded, read so. -/
def SafeStream.history {σ : Type} (M : SafeStream σ) (al : Alloc) (capacity : Nat) (s : σ) (calls : List ReadCall) : Seen σ :=
  match M.buildIndex al capacity (Seen.new s) with
  | (.error _, s) => s
  | (.ok ix, s) => calls.foldl (M.after al capacity ix) s

end Tedium
