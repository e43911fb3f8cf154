import Verif.Spec.Library
import Verif.Spec.Open

/-!
# The library as a store, on files that exist

`Spec/Library` for programs that begin with a file that is there already, whoever wrote it: what the store holds at the beginning
is said from the segments of the file (`Spec/Segments`, `Spec/Samples`).
-/

namespace Tedium.Library
open SegSpec WriteSpec

/-- What a file holds whose channels have the types `ty`: the objects its segments list, the last value of each property, and the
    samples of the channels that have raw data. -/
def storeIn (ty : Text → STy) (f : Bytes) (segs : List Segment) : Store where
  objects := Listed (entries segs)
  value p n := lastValue (propertiesOf (entries segs) p) n
  content p :=
    if (dataPrefixes segs).any (fun pre => decide (p ∈ active pre)) then
      some ⟨ty p, channelSamples (Format.decode (ty p)) f segs p⟩
    else none

/-- The file consists of the segments `fs`, and is open as `t`. Its raw data is regular, its channels have the ordinary types `ty`
    throughout, and `last` says what is known of its last data segment. -/
structure Existing (al : Alloc) (fs : List FileSegment) (t : TdmsFile) (ty : Text → STy) (last : Last) : Prop where
  generous : Generous al
  fits : ∀ s ∈ fs, s.Fits
  opened : TdmsFile.new al (fs.flatMap FileSegment.encode) = .ok t
  regular : ∀ pre ∈ dataPrefixes (fs.map FileSegment.segment), Regular t.bytes pre
  typed : ∀ pre ∈ dataPrefixes (fs.map FileSegment.segment), ∀ p ∈ active pre, Format.ordinaryTy (ty p) = true ∧
    ∀ m, layoutOf (entries pre) p = some m → m.dataType = ((ty p).storage al).natural
  channels : active (fs.map FileSegment.segment) = last.channels
  format : ∀ ty m, last.format = some (ty, m) → 0 < m ∧
    Uniform [(ty.storage al).natural] (fs.map FileSegment.segment) last.channels m

/-- The channels can be read together after these calls on a file of the segments `segs` (which the store `s` describes): as in
    `Together`, and the same for channels that share a segment of the file. -/
structure TogetherOn (segs : List Segment) (s : Store) (ops : List Op) {ty : STy} (cs : List (ChannelPath × List ty.Val)) : Prop where
  ordinary : Format.ordinaryTy ty = true
  distinct : cs.Pairwise (fun c d => c.1.path ≠ d.1.path)
  buffers : ∀ c ∈ cs, ∀ d ∈ cs, (∃ op ∈ ops, Names c.1.path op ∧ Names d.1.path op) → c.2.length = d.2.length
  level : ∀ c ∈ cs, ∀ d ∈ cs, ∀ pre op post, ops = pre ++ op :: post → Names c.1.path op → Names d.1.path op →
    (pre.foldl Store.after s).count c.1.path = (pre.foldl Store.after s).count d.1.path
  file : ∀ c ∈ cs, ∀ d ∈ cs, ∀ pre ∈ dataPrefixes segs, c.1.path ∈ active pre → d.1.path ∈ active pre →
    c.2.length = d.2.length ∧ sampleCount pre.dropLast c.1.path = sampleCount pre.dropLast d.1.path

/-- The programs of which the library is known to behave as a store, on a file of the segments `segs` that is open as `t` and that
    the store `s` describes: as in `Proper`, and the program writes to the channels of the file values of the types they have. -/
structure ProperOn (al : Alloc) (segs : List Segment) (t : TdmsFile) (s : Store) (last : Last) (cmds : List Command) : Prop where
  compatible : Compatible last (calls cmds)
  types : ∀ op ∈ calls cmds, ∀ op' ∈ calls cmds, ∀ p, Names p op → Names p op' → typeOf op = typeOf op'
  fileTypes : ∀ op ∈ calls cmds, ∀ p, Names p op → ∀ c, s.content p = some c → typeOf op = some c.1
  size : (runOps al t (calls cmds)).bytes.length < 2 ^ 63
  reopens : Command.reopen ∈ cmds → (∀ op ∈ calls cmds, OpFits op) ∧ Described al last (calls cmds)
  lists : ∀ cmd ∈ cmds, Lists cmd → (∀ op ∈ calls cmds, Tidy op) ∧ ∀ p, s.objects p → ∃ o : Obj, o.SlashFree ∧ o.toPath.path = p
  together : ∀ pre ty cs start post, cmds = pre ++ .ask (.readMany ty cs start) :: post → TogetherOn segs s (calls pre) cs

end Tedium.Library
