import Verif.Props.Listing
import Verif.Spec.Writes

/-!
# The library as a store

What the library is to its user: a store of objects with properties and samples. Nothing here mentions segments, an index, bytes
or the file format. A program is a list of commands; the store says what each of them replies.
-/

namespace Tedium.Library
open SegSpec WriteSpec

/-- What there is to see: which objects there are, the value of each property, and the type and samples of the objects that have
    any. -/
structure Store where
  objects : Text → Prop
  value : Text → Text → Option PropertyValue
  content : Text → Option ((ty : STy) × List ty.Val)

/-- A new file. -/
def Store.empty : Store := ⟨fun _ => False, fun _ _ => none, fun _ => none⟩

/-- Samples of type `ty` after those that are there. -/
def extend {ty : STy} (vals : List ty.Val) : Option ((ty : STy) × List ty.Val) → (ty : STy) × List ty.Val
  | none => ⟨ty, vals⟩
  | some ⟨ty', old⟩ => if h : ty = ty' then ⟨ty', old ++ h ▸ vals⟩ else ⟨ty', old⟩

/-- What a call that is not rejected makes of the store: properties get the values given last, channels the samples of their
    column of the table. -/
def Store.after (s : Store) : Op → Store
  | .props _ path properties =>
    { s with
      objects := fun p => s.objects p ∨ p = path.path
      value := fun p n => if p = path.path then (lastValue properties n).or (s.value p n) else s.value p n }
  | .write _ _ channels vals layout =>
    { s with
      objects := fun p => s.objects p ∨ ∃ c ∈ channels, c.path = p
      content := fun p => match (channels.map ChannelPath.path).idxOf? p with
        | none => s.content p
        | some i => some (extend (column layout channels.length i vals) (s.content p)) }

/-- The store after a history of calls on a new file. -/
def storeOf (ops : List Op) : Store := ops.foldl Store.after Store.empty

/-- What can be asked. -/
inductive Query where
  | property (path : PropertyPath) (name : Text)
  | properties (path : PropertyPath)
  | length (c : ChannelPath)
  | read (ty : STy) (c : ChannelPath) (start : Nat) (out : List ty.Val)
  | readMany (ty : STy) (cs : List (ChannelPath × List ty.Val)) (start : Nat)
  | groups
  | channels (group : Text)

/-- What a call can return: for reads, the buffers afterwards. -/
inductive Reply where
  | done
  | value (v : Option PropertyValue)
  | values (ps : Option (List (Text × PropertyValue)))
  | length (n : Option Nat)
  | samples (ty : STy) (out : List ty.Val)
  | samplesMany (ty : STy) (outs : List (List ty.Val))
  | groups (gs : List Text)
  | channels (cs : List ChannelPath)

/-- The number of samples of an object. -/
def Store.count (s : Store) (p : Text) : Nat :=
  match s.content p with
  | none => 0
  | some ⟨_, vals⟩ => vals.length

/-- Samples read as values of type `ty`: samples of that type are read as they are, and bytes can be read as booleans. -/
def readAs (ty : STy) (c : (ty : STy) × List ty.Val) : Option (List ty.Val) :=
  match ty, c with
  | .bool, ⟨.u8, vals⟩ => some (vals.map fun v : BitVec 8 => v != 0)
  | ty, ⟨ty', vals⟩ => if h : ty' = ty then some (h ▸ vals) else none

/-- The samples of an object as values of type `ty`, if they can be read as such. -/
def Store.samplesAs (s : Store) (ty : STy) (p : Text) : List ty.Val :=
  match s.content p with
  | none => []
  | some c => (readAs ty c).getD []

/-- The object has samples that cannot be read as values of type `ty`. -/
def Store.OtherType (s : Store) (ty : STy) (p : Text) : Prop := ∃ c, s.content p = some c ∧ readAs ty c = none

/-- A read from sample `start` on into the buffer would have to store samples of another type. -/
def Store.Refuses (s : Store) (ty : STy) (p : Text) (start : Nat) (out : List ty.Val) : Prop :=
  s.OtherType ty p ∧ start < s.count p ∧ out ≠ []

/-- The error for reading an object as values of type `ty` that has samples of type `ty'`. -/
def mismatch (al : Alloc) (ty' ty : STy) : R Reply :=
  R.err (.dataTypeMismatch (ty'.storage al).natural (ty.storage al).natural)

/-- The store replies `r` to the query. Only one thing is left open: if several channels that are read together have samples of
    other types, the error can name the type of any of them. -/
def Store.Answers (al : Alloc) (s : Store) : Query → R Reply → Prop
  | .property path name, r =>
    (s.objects path.path → r = .ok (.value (s.value path.path name))) ∧
    (¬ s.objects path.path → r = R.err (.missingObject path.path))
  | .properties path, r =>
    (s.objects path.path → ∃ ps, r = .ok (.values (some ps)) ∧ ps.Pairwise (fun a b => textCmp a.1 b.1 = .lt) ∧
      ∀ n v, (n, v) ∈ ps ↔ s.value path.path n = some v) ∧
    (¬ s.objects path.path → r = .ok (.values none))
  | .length c, r =>
    (s.objects c.path → r = .ok (.length (some (s.count c.path)))) ∧
    (¬ s.objects c.path → r = .ok (.length none))
  | .read ty c start out, r =>
    (s.objects c.path → ¬ s.Refuses ty c.path start out →
      r = .ok (.samples ty (overlay out ((s.samplesAs ty c.path).drop start)))) ∧
    (s.objects c.path → s.Refuses ty c.path start out →
      ∀ ty' vals, s.content c.path = some ⟨ty', vals⟩ → r = mismatch al ty' ty) ∧
    (¬ s.objects c.path → r = R.err (.missingObject c.path))
  | .readMany ty cs start, r =>
    ((∀ c ∈ cs, s.objects c.1.path) → (∀ c ∈ cs, ¬ s.Refuses ty c.1.path start c.2) →
      r = .ok (.samplesMany ty (cs.map fun c => overlay c.2 ((s.samplesAs ty c.1.path).drop start)))) ∧
    ((∀ c ∈ cs, s.objects c.1.path) → (∃ c ∈ cs, s.Refuses ty c.1.path start c.2) →
      ∃ c ∈ cs, s.Refuses ty c.1.path start c.2 ∧ ∃ ty' vals, s.content c.1.path = some ⟨ty', vals⟩ ∧ r = mismatch al ty' ty) ∧
    (∀ (before : List (ChannelPath × List ty.Val)) (c : ChannelPath × List ty.Val) (after : List (ChannelPath × List ty.Val)),
      cs = before ++ c :: after → (∀ d ∈ before, s.objects d.1.path) → ¬ s.objects c.1.path →
      r = R.err (.missingObject c.1.path))
  | .groups, r =>
    ∃ gs, r = .ok (.groups gs) ∧ gs.Pairwise (fun a b => textCmp a b = .lt) ∧
      ∀ g, g ∈ gs ↔ ∃ o : Obj, o.SlashFree ∧ s.objects o.toPath.path ∧ o.groupOf = some g
  | .channels g, r =>
    ∃ cs, r = .ok (.channels cs) ∧ (cs.map ChannelPath.path).Pairwise (fun a b => textCmp a b = .lt) ∧
      ∀ c, c ∈ cs ↔ s.objects c.path ∧ ∃ name, c = ChannelPath.new g name

/-- What a call replies, and what it leaves. -/
def Store.call (s : Store) : Op → R Reply × Store
  | .props e path properties => (.ok .done, s.after (.props e path properties))
  | .write e ty channels vals layout =>
    if channels.length = 0 then (R.err .noChannels, s)
    else if vals.length % channels.length ≠ 0 then (R.err (.badDataBlockLength vals.length channels.length), s)
    else (.ok .done, s.after (.write e ty channels vals layout))

/-- A command of a program: a call that writes, a question, or closing the file and opening it again. -/
inductive Command where
  | call (op : Op)
  | ask (q : Query)
  | reopen

/-- The question, asked of the library. -/
def Query.run (al : Alloc) (t : TdmsFile) : Query → R Reply
  | .property path name => (t.readProperty path name).map .value
  | .properties path => .ok (.values (t.readAllProperties path))
  | .length c => (t.channelLength c).map .length
  | .read ty c start out => (t.readChannelFrom (ty.storage al) c start out).map (.samples ty)
  | .readMany ty cs start => (t.readChannelsFrom (ty.storage al) (cs.map (·.1)) start (cs.map (·.2))).map (.samplesMany ty)
  | .groups => t.listGroups.map .groups
  | .channels g => (t.listChannelsInGroup (PropertyPath.group g)).map .channels

/-- The command, given to the library. -/
def Command.run (al : Alloc) (t : TdmsFile) : Command → R Reply × TdmsFile
  | .call op => ((op.run al t).1.map fun _ => .done, (op.run al t).2)
  | .ask q => (q.run al t, t)
  | .reopen => match TdmsFile.new al t.bytes with
    | .ok t' => (.ok .done, t')
    | .error e => (.error e, t)

/-- What the library replies to the commands of a program, one after the other. -/
def replies (al : Alloc) (t : TdmsFile) : List Command → List (Command × R Reply)
  | [] => []
  | cmd :: cmds => (cmd, (cmd.run al t).1) :: replies al (cmd.run al t).2 cmds

/-- These are the replies of a store. -/
def Behaves (al : Alloc) : Store → List (Command × R Reply) → Prop
  | _, [] => True
  | s, (.call op, r) :: rest => r = (s.call op).1 ∧ Behaves al (s.call op).2 rest
  | s, (.ask q, r) :: rest => s.Answers al q r ∧ Behaves al s rest
  | s, (.reopen, r) :: rest => r = .ok .done ∧ Behaves al s rest

/-! ## The programs -/

/-- The calls of a program that write and are not rejected. -/
def calls (cmds : List Command) : List Op :=
  cmds.filterMap fun
    | .call op => if Accepted op then some op else none
    | _ => none

/-- The objects a call names are the file, groups and channels with names without slashes. -/
def Tidy : Op → Prop
  | .props _ path _ => ∃ o : Obj, o.SlashFree ∧ o.toPath = path
  | .write _ _ channels _ _ => ∀ c ∈ channels, ∃ o : Obj, o.SlashFree ∧ o.toPath.path = c.path

/-- The command lists groups or channels. -/
def Lists : Command → Prop
  | .ask .groups => True
  | .ask (.channels _) => True
  | _ => False

/-- The channels can be read together, as values of an ordinary type, after these calls: they are different, and two that have been
    written by one call have buffers of one length, and had as many samples as each other before each such call. -/
structure Together (ops : List Op) {ty : STy} (cs : List (ChannelPath × List ty.Val)) : Prop where
  ordinary : Format.ordinaryTy ty = true
  distinct : cs.Pairwise (fun c d => c.1.path ≠ d.1.path)
  buffers : ∀ c ∈ cs, ∀ d ∈ cs, (∃ op ∈ ops, Names c.1.path op ∧ Names d.1.path op) → c.2.length = d.2.length
  level : ∀ c ∈ cs, ∀ d ∈ cs, ∀ pre op post, ops = pre ++ op :: post → Names c.1.path op → Names d.1.path op →
    (storeOf pre).count c.1.path = (storeOf pre).count d.1.path

/-- The programs of which the library is known to behave as a store: the tables they write follow one another as in C31, with one
    type per channel, and the file stays below 2^63 bytes. If the program opens the file again, names and counts fit into the format, and
    the data writes are as in C32. If it lists objects, their names have no slashes. If it reads channels together, these can be read
    together. -/
structure Proper (al : Alloc) (t : TdmsFile) (cmds : List Command) : Prop where
  compatible : Compatible Last.none (calls cmds)
  types : ∀ op ∈ calls cmds, ∀ op' ∈ calls cmds, ∀ p, Names p op → Names p op' → typeOf op = typeOf op'
  size : (runOps al t (calls cmds)).bytes.length < 2 ^ 63
  reopens : Command.reopen ∈ cmds → Generous al ∧ (∀ op ∈ calls cmds, OpFits op) ∧ Described al Last.none (calls cmds)
  lists : ∀ cmd ∈ cmds, Lists cmd → ∀ op ∈ calls cmds, Tidy op
  together : ∀ pre ty cs start post, cmds = pre ++ .ask (.readMany ty cs start) :: post → Together (calls pre) cs

end Tedium.Library
