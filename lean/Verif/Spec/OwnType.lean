import Verif.Spec.Writes

/-!
# Sample types of one's own

`TdmsStorageType` is a public trait (`src/io/data_types/mod.rs:122-141`), so a program can make a type of its own a sample type.
`Storage` is an implementation of the trait. Here is what a sound implementation is, and what a history of calls is that
writes values of such a type next to values of the library's types.
-/

namespace Tedium
open WriteSpec

/-- The library's types of which every sequence of bytes of the right length is a value: integers, floats and complex
    floats. -/
def PlainTy (ty : STy) : Prop := Format.ordinaryTy ty = true ∧ ty ≠ .bool

/-- The implementation `S` reads and writes values in the place of values of the library's type `ty`: it says that its
    values are of the data type of these and have their size, it reads and writes exactly so many bytes, and it
    reads what it writes. It reads the data types that are read as `ty`, and perhaps others of that size. -/
structure StandsFor {α : Type} (al : Alloc) (S : Storage α) (ty : STy) (dec : Endian → Bytes → α) : Prop where
  plain : PlainTy ty
  natural : S.natural = (ty.storage al).natural
  size : S.memSize = (ty.storage al).memSize
  supports : ∀ dt ∈ (ty.storage al).supported, dt ∈ S.supported
  same_size : ∀ dt ∈ S.supported, dt.size = S.memSize ∧ Format.ordinary dt = true
  reads : ∀ e f p, p + S.memSize ≤ f.length →
    S.read e f p = .ok (dec e ((f.drop p).take S.memSize), p + S.memSize)
  writes : ∀ e v, (S.write e v).length = S.memSize
  back : ∀ e v, dec e (S.write e v) = v

/-- A call on a writer: one that writes values of the library's types or properties, or one that writes values of the type
    `α`. The byte order is that of `TdmsFile::writer` (`src/file/mod.rs:179-188`). -/
inductive AnyOp (α : Type) where
  | lib (op : Op)
  | own (channels : List ChannelPath) (vals : List α) (layout : DataLayout)

/-- The call on an open file. -/
def AnyOp.run {α : Type} (al : Alloc) (S : Storage α) (t : TdmsFile) : AnyOp α → R Unit × TdmsFile
  | .lib op => op.run al t
  | .own channels vals layout => t.writeChannels S .little channels vals layout

/-- Calls one after the other. -/
def runAny {α : Type} (al : Alloc) (S : Storage α) (t : TdmsFile) (ops : List (AnyOp α)) : TdmsFile :=
  ops.foldl (fun t op => (op.run al S t).2) t

/-- The call writes in the byte order of `TdmsFile::writer`. -/
def AnyOp.Little {α : Type} : AnyOp α → Prop
  | .lib (.write e ..) => e = .little
  | .lib (.props e ..) => e = .little
  | .own .. => True

/-- The values of one's own type that a call gives to the channel with path `p`. -/
def AnyOp.valuesFor {α : Type} (p : Text) : AnyOp α → List α
  | .lib _ => []
  | .own channels vals layout =>
    match (channels.map ChannelPath.path).idxOf? p with
    | some i => column layout channels.length i vals
    | none => []

/-- All of them, in order. -/
def ownWritten {α : Type} (p : Text) (ops : List (AnyOp α)) : List α := ops.flatMap (AnyOp.valuesFor p)

/-- The call with the values of one's own type replaced by the values `f` of the library's type. -/
def AnyOp.toOp {α : Type} (ty : STy) (f : α → ty.Val) : AnyOp α → Op
  | .lib op => op
  | .own channels vals layout => .write .little ty channels (vals.map f) layout

/-- The call names the channel with path `p`, as one of the library's type. -/
def AnyOp.LibNames {α : Type} (p : Text) : AnyOp α → Prop
  | .lib op => Names p op
  | .own .. => False

/-- The call names the channel with path `p`, as one of one's own type. -/
def AnyOp.OwnNames {α : Type} (p : Text) : AnyOp α → Prop
  | .lib _ => False
  | .own channels _ _ => ∃ c ∈ channels, c.path = p

end Tedium
