import Verif.Spec.Copy
import Verif.Spec.Existing

/-!
# Two files made into one

What there is to see in a file to which another one has been appended.
-/

namespace Tedium.Library
open SegSpec WriteSpec

/-- The objects of both stores. A property has its value in the second store, if it has one there, and otherwise that in the first. A
    channel has the samples of the first store, and after them those of the second. -/
def Store.plus (s s' : Store) : Store where
  objects p := s.objects p ∨ s'.objects p
  value p n := (s'.value p n).or (s.value p n)
  content p := match s'.content p with
    | none => s.content p
    | some ⟨_, vals⟩ => some (extend vals (s.content p))

/-- The channels that have samples in both stores have the same type in both. -/
def Store.Agrees (s s' : Store) : Prop := ∀ p c c', s.content p = some c → s'.content p = some c' → c.1 = c'.1

/-- The first call that writes samples starts with another channel than the list in force, or it goes to the same list with the same
    type, and has a multiple of the samples of the last call that changed the list. (Meant for calls with one channel.) -/
def FirstFits (last : Last) : List Op → Prop
  | [] => True
  | .props .. :: ops => FirstFits last ops
  | .write _ ty channels vals _ :: _ => last.channels.head? ≠ (channels.map ChannelPath.path).head? ∨
      last.channels = channels.map ChannelPath.path ∧ ∃ m, last.format = some (ty, m) ∧ m ∣ vals.length

end Tedium.Library
