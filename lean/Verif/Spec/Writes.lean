import Verif.Spec.History
import Verif.Spec.Samples
import Verif.Spec.WellFormed

/-!
# What a history of writes puts into a channel

Independent of the index: which values a call gives to each channel, and which calls follow one
another without running into the defects recorded in `DESIGN.md` (a channel list that is compared with
the previous one position by position, and lengths that are not compared at all).
-/

namespace Tedium.WriteSpec
open SegSpec

/-- The values of channel number `i` in a table of `k` channels: interleaved tables are stored row
    after row, contiguous tables channel after channel. -/
def column {α : Type} (layout : DataLayout) (k i : Nat) (vals : List α) : List α :=
  match layout with
  | .interleaved => (List.range (vals.length / k)).filterMap (fun row => vals[row * k + i]?)
  | .contigious => (vals.drop (i * (vals.length / k))).take (vals.length / k)

/-- The values found for channel number `i` of `k` when a contiguous table is taken for a sequence of
    chunks with `m` values per channel each (rows of an interleaved table are the same anyway). -/
def inChunks {α : Type} (layout : DataLayout) (m k i : Nat) (vals : List α) : List α :=
  match layout with
  | .interleaved => column .interleaved k i vals
  | .contigious =>
    (List.range (vals.length / k)).filterMap (fun s => vals[s / m * (k * m) + i * m + s % m]?)

/-- The table of `k` channels that is stored channel after channel in `vals`, stored row after row
    instead: position `j` is row `j / k` of channel number `j % k`. -/
def byRows {α : Type} (k : Nat) (vals : List α) : List α :=
  (List.range vals.length).filterMap (fun j => vals[j % k * (vals.length / k) + j / k]?)

/-- The second history differs from the first one in that some contiguous tables are written row after
    row, and in the byte orders. -/
inductive Relayout : List Op → List Op → Prop
  | nil : Relayout [] []
  | props {e e' : Endian} {path : PropertyPath} {properties : List (Text × PropertyValue)} {ops ops' : List Op} :
      Relayout ops ops' → Relayout (.props e path properties :: ops) (.props e' path properties :: ops')
  | same {e e' : Endian} {ty : STy} {channels : List ChannelPath} {vals : List ty.Val} {layout : DataLayout}
      {ops ops' : List Op} : Relayout ops ops' →
      Relayout (.write e ty channels vals layout :: ops) (.write e' ty channels vals layout :: ops')
  | rows {e e' : Endian} {ty : STy} {channels : List ChannelPath} {vals : List ty.Val} {ops ops' : List Op} :
      Relayout ops ops' →
      Relayout (.write e ty channels vals .contigious :: ops)
        (.write e' ty channels (byRows channels.length vals) .interleaved :: ops')

/-- The history with every contiguous table written row after row. -/
def rowAfterRow (ops : List Op) : List Op :=
  ops.map fun
    | .write e ty channels vals .contigious => .write e ty channels (byRows channels.length vals) .interleaved
    | op => op

/-- The values of type `ty` that a call gives to the channel with path `p`. -/
def valuesFor (ty : STy) (p : Text) : Op → List ty.Val
  | .props .. => []
  | .write _ ty' channels vals layout =>
    if h : ty' = ty then
      match (channels.map ChannelPath.path).idxOf? p with
      | some i => column layout channels.length i (h ▸ vals)
      | none => []
    else []

/-- All values of type `ty` that a history gives to the channel with path `p`, in order. -/
def written (ty : STy) (p : Text) (ops : List Op) : List ty.Val := ops.flatMap (valuesFor ty p)

/-- The call names the channel with path `p`. -/
def Names (p : Text) : Op → Prop
  | .props .. => False
  | .write _ _ channels _ _ => ∃ c ∈ channels, c.path = p

/-- The type of the values of a call, for calls that write values. -/
def typeOf : Op → Option STy
  | .props .. => none
  | .write _ ty _ _ _ => some ty

/-- The types whose values take as many bytes in the file as in memory. -/
def SizedTy (ty : STy) : Prop := ty ≠ .extended ∧ ty ≠ .string

/-- Two channel lists differ at a position that both have, or there is no previous list. -/
def Diverges (previous next : List Text) : Prop :=
  previous = [] ∨ ∃ pair ∈ previous.zip next, pair.1 ≠ pair.2

instance (previous next : List Text) : Decidable (Diverges previous next) := by
  unfold Diverges; infer_instance

/-- The channels of the last call that changed the channel list and, if they all had the same type
    and number of values, these. -/
structure Last where
  channels : List Text
  format : Option (STy × Nat)

/-- Nothing has been written. -/
def Last.none : Last := ⟨[], Option.none⟩

/-- A table of values that can be written: it has channels, all different, and as many values for each
    of them, at least one, of an ordinary type. -/
structure Table (ty : STy) (channels : List ChannelPath) (vals : List ty.Val) : Prop where
  ordinary : Format.ordinaryTy ty = true
  some_channel : channels ≠ []
  distinct : (channels.map ChannelPath.path).Nodup
  some_value : vals ≠ []
  whole : channels.length ∣ vals.length

/-- The table goes to the same channels as the last one, has the same type, and as many values for
    each channel as the last one, or a multiple of that (for one channel, or interleaved). -/
def Continues (last : Last) (ty : STy) (channels : List ChannelPath) (n : Nat) (layout : DataLayout) : Prop :=
  last.channels = channels.map ChannelPath.path ∧
  ∃ m, last.format = some (ty, m) ∧ (n = m ∨ m ∣ n ∧ (channels.length = 1 ∨ layout = .interleaved))

/-- The call can be made after `last`. -/
def Follows (last : Last) : Op → Prop
  | .props .. => True
  | .write _ ty channels vals layout => Table ty channels vals ∧
      (Diverges last.channels (channels.map ChannelPath.path) ∨
       Continues last ty channels (vals.length / channels.length) layout)

/-- What a call makes of `last`. -/
def Last.after (last : Last) : Op → Last
  | .props .. => last
  | .write _ ty channels vals _ =>
    if Diverges last.channels (channels.map ChannelPath.path) then
      ⟨channels.map ChannelPath.path, some (ty, vals.length / channels.length)⟩
    else last

/-- The channel list in force after a history on a new file: the list of the last data write whose list
    differed, at a position that both have, from the one in force before. -/
def inForce (ops : List Op) : List Text := (ops.foldl Last.after Last.none).channels

/-- No call names a channel twice. -/
def Distinct : Op → Prop
  | .props .. => True
  | .write _ _ channels _ _ => (channels.map ChannelPath.path).Nodup

/-- The call writes properties. -/
def IsProps : Op → Prop
  | .props .. => True
  | .write .. => False

/-- All calls of a history can be made one after the other. -/
def Compatible (last : Last) : List Op → Prop
  | [] => True
  | op :: ops => Follows last op ∧ Compatible (last.after op) ops

/-- The arguments of the call are not rejected. -/
def Accepted : Op → Bool
  | .props .. => true
  | .write _ _ channels vals _ => !channels.isEmpty && vals.length % channels.length == 0

/-- Names, counts and property values fit into the file format, and no extended floats or strings are
    written to channels. -/
def OpFits : Op → Prop
  | .props _ path properties => Text.Fits path.path ∧ properties.length < 2 ^ 32 ∧
      ∀ p ∈ properties, Text.Fits p.1 ∧ p.2.Fits
  | .write _ ty channels _ _ => SizedTy ty ∧ channels.length < 2 ^ 32 ∧ ∀ c ∈ channels, Text.Fits c.path

/-- The call writes properties, or at least one value of a type other than extended float and string (or
    has no channels and is rejected). -/
def Storable : Op → Prop
  | .props .. => True
  | .write _ ty channels vals _ => SizedTy ty ∧ (vals = [] → channels = [])

/-- The call writes values whose bytes start with four zeros. -/
def StartsWithZeros (al : Alloc) : Op → Prop
  | .props .. => False
  | .write e ty _ vals _ => [0, 0, 0, 0] <+: vals.flatMap ((ty.storage al).write e)

/-- Every data write of the history differs from the list in force at a position that both have, or its
    bytes start with four zeros. -/
def Described (al : Alloc) (last : Last) : List Op → Prop
  | [] => True
  | .props .. :: ops => Described al last ops
  | .write e ty channels vals layout :: ops =>
      (Diverges last.channels (channels.map ChannelPath.path) ∨ StartsWithZeros al (.write e ty channels vals layout)) ∧
      Described al (last.after (.write e ty channels vals layout)) ops

/-- The number of bytes of the values of a call. -/
def dataBytes (al : Alloc) : Op → Nat
  | .props .. => 0
  | .write e ty _ vals _ => (vals.flatMap ((ty.storage al).write e)).length

/-- The bytes of the data that are read as if they were metadata: four if the call repeats the channel
    list in force, or only adds or drops channels at its end. -/
def takenForMetadata (last : Last) : Op → Nat
  | .props .. => 0
  | .write _ _ channels _ _ => if Diverges last.channels (channels.map ChannelPath.path) then 0 else 4

/-- All calls of a history return `Ok`. -/
def AllSucceed (al : Alloc) (t : TdmsFile) (ops : List Op) : Prop :=
  ∀ pre op post, ops = pre ++ op :: post → (op.run al (runOps al t pre)).1 = .ok ()

/-- What a history wrote to a channel is what is read from it, for every channel whose values are all of
    one type: all calls succeed, the channel has as many samples as values were written to it, and
    reading all of them gives these values, in order. -/
def ReadsBack (al : Alloc) (t : TdmsFile) (ops : List Op) : Prop :=
  AllSucceed al t ops ∧
  ∀ (ty : STy) (c : ChannelPath), (∀ op ∈ ops, Names c.path op → typeOf op = some ty) → (∃ op ∈ ops, Names c.path op) →
    (runOps al t ops).channelLength c = .ok (some (written ty c.path ops).length) ∧
    ∀ out : List ty.Val, out.length = (written ty c.path ops).length →
      (runOps al t ops).readChannelFrom (ty.storage al) c 0 out = .ok (written ty c.path ops)

/-- After both histories all calls have succeeded, and every channel whose values are all of one type has the same
    length, and reading all of it gives the same. -/
def SameContents (al : Alloc) (t : TdmsFile) (ops ops' : List Op) : Prop :=
  AllSucceed al t ops ∧ AllSucceed al t ops' ∧
  ∀ (ty : STy) (c : ChannelPath), (∀ op ∈ ops, Names c.path op → typeOf op = some ty) → (∃ op ∈ ops, Names c.path op) →
    (runOps al t ops).channelLength c = (runOps al t ops').channelLength c ∧
    ∀ out : List ty.Val, out.length = (written ty c.path ops).length →
      (runOps al t ops).readChannelFrom (ty.storage al) c 0 out = (runOps al t ops').readChannelFrom (ty.storage al) c 0 out

/-- The second history differs from the first one only in the values that are written. -/
inductive SameShape : List Op → List Op → Prop
  | nil : SameShape [] []
  | props {e : Endian} {path : PropertyPath} {properties : List (Text × PropertyValue)} {ops ops' : List Op} :
      SameShape ops ops' → SameShape (.props e path properties :: ops) (.props e path properties :: ops')
  | write {e : Endian} {ty : STy} {channels : List ChannelPath} {vals vals' : List ty.Val} {layout : DataLayout}
      {ops ops' : List Op} : vals'.length = vals.length → SameShape ops ops' →
      SameShape (.write e ty channels vals layout :: ops) (.write e ty channels vals' layout :: ops')

/-- Every data write of the history is a table, and no two calls write values of different types to one
    channel. -/
structure Tables (ops : List Op) : Prop where
  tables : ∀ e ty channels vals layout, Op.write e ty channels vals layout ∈ ops → Table ty channels vals
  types : ∀ op ∈ ops, ∀ op' ∈ ops, ∀ p, Names p op → Names p op' → typeOf op = typeOf op'

/-- The index of the file is what the segments `segs` describe, and the file ends where they end: it
    has no trailing bytes, and its last segment is complete. -/
structure Exact (segs : List Segment) (t : TdmsFile) : Prop where
  refines : replay Index.new segs = .ok t.index
  ends : endOf segs = t.bytes.length

/-- In addition, a chunk of data of the current channels has fixed-size values and a size that fits. -/
structure Steady (segs : List Segment) (t : TdmsFile) : Prop where
  exact' : Exact segs t
  sized : ∀ m ∈ activeLayouts segs, m.totalSizeBytes = Option.none ∧ 0 < m.dataType.size
  chunk : chunkBytes segs < 2 ^ 63

/-- The active channels are `ps`; their types are among `supported`, and each has `m` values per
    chunk. -/
structure Uniform (supported : List DataType) (segs : List Segment) (ps : List Text) (m : Nat) : Prop where
  active : active segs = ps
  layout : ∀ p ∈ ps, ∃ l, layoutOf (entries segs) p = some l ∧ l.dataType ∈ supported ∧ l.numberOfValues = m ∧
    l.totalSizeBytes = Option.none

/-- `last` describes the active channels of the segments. -/
structure LastIs (al : Alloc) (segs : List Segment) (last : Last) : Prop where
  channels : active segs = last.channels
  format : ∀ ty m, last.format = some (ty, m) → 0 < m ∧ Uniform (ty.storage al).supported segs last.channels m

end Tedium.WriteSpec
