import Verif.Spec.Crashes

/-!
# Copying a file through the library

A program that reads all there is in an open file with the calls of the library, and writes it to another file with the calls of the library.
-/

namespace Tedium.Library
open SegSpec WriteSpec

/-- The results for all elements, one after the other, until one fails. -/
def collect {α β : Type} (f : α → R (List β)) : List α → R (List β)
  | [] => .ok []
  | x :: xs => do return (← f x) ++ (← collect f xs)

/-- The call that writes the properties of an object, if there is such an object. -/
def copyProperties (t : TdmsFile) (path : PropertyPath) : List Op :=
  match t.readAllProperties path with
  | none => []
  | some properties => [.props .little path properties]

/-- The call that writes the samples of a channel of type `ty`, if it has any. They are read into a buffer of their number, filled
    with `fill`. -/
def copySamples (al : Alloc) (t : TdmsFile) (ty : STy) (fill : ty.Val) (c : ChannelPath) : R (List Op) := do
  match ← t.channelLength c with
  | none => return []
  | some n => if n = 0 then return [] else
      return [.write .little ty [c] (← t.readChannelFrom (ty.storage al) c 0 (List.replicate n fill)) .contigious]

/-- The calls that make a copy of an open file: first the properties of the file, of its groups and of its channels, then the samples, channel
    by channel. The types of the channels have to be known. -/
def copyOf (al : Alloc) (typeOf : ChannelPath → STy) (fill : (ty : STy) → ty.Val) (t : TdmsFile) : R (List Op) := do
  let groups ← t.listGroups
  let channels ← collect (fun g => t.listChannelsInGroup (.group g)) groups
  let samples ← collect (fun c => copySamples al t (typeOf c) (fill _) c) channels
  return copyProperties t .file ++ groups.flatMap (fun g => copyProperties t (.group g)) ++
    channels.flatMap (fun c => copyProperties t c.inner) ++ samples

/-- The first channel of the first call that writes samples. -/
def firstChannel : List Op → Option Text
  | [] => none
  | .props .. :: ops => firstChannel ops
  | .write _ _ channels _ _ :: _ => channels.head?.map ChannelPath.path

/-- The open file answers all questions about one object, and those for lists of objects, as the store does. -/
def Represents (al : Alloc) (t : TdmsFile) (s : Store) : Prop :=
  ∀ q : Query, (∀ ty cs start, q ≠ .readMany ty cs start) → s.Answers al q (q.run al t)

/-- If the question is for several channels, they are different, and read as values of an ordinary type. -/
def Query.Apart : Query → Prop
  | .readMany ty cs _ => Format.ordinaryTy ty = true ∧ cs.Pairwise (fun c d => c.1.path ≠ d.1.path)
  | _ => True

/-- A store whose objects are the file, groups and channels with names without slashes, where only objects have values, and only
    channels have samples, at least one, of an ordinary type. -/
structure Store.Plain (s : Store) : Prop where
  tidy : ∀ p, s.objects p → ∃ o : Obj, o.SlashFree ∧ o.toPath.path = p
  values : ∀ p n v, s.value p n = some v → s.objects p
  samples : ∀ p ty vals, s.content p = some ⟨ty, vals⟩ → s.objects p ∧ (∃ g c, p = (ChannelPath.new g c).path) ∧
    Format.ordinaryTy ty = true ∧ vals ≠ []

end Tedium.Library
