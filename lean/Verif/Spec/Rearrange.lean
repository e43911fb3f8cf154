import Verif.Spec.Writes

/-!
# The same calls, cut and ordered differently

Two histories that give every channel the same values and every object the same properties: calls
that concern different objects are exchanged, tables are cut into tables of fewer rows, lists of
properties are cut into shorter lists.
-/

namespace Tedium.WriteSpec

/-- The two calls do not write values to the same channel, or properties to the same object. -/
def Apart : Op → Op → Prop
  | .write _ _ channels _ _, .write _ _ channels' _ _ => ∀ c ∈ channels, ∀ c' ∈ channels', c.path ≠ c'.path
  | .props _ path _, .props _ path' _ => path.path ≠ path'.path
  | _, _ => True

/-- One history is the other one with calls exchanged, cut in two, or put together. -/
inductive Rearranged : List Op → List Op → Prop
  | refl (ops : List Op) : Rearranged ops ops
  | symm {a b : List Op} : Rearranged a b → Rearranged b a
  | trans {a b c : List Op} : Rearranged a b → Rearranged b c → Rearranged a c
  | within {a b : List Op} (before after : List Op) : Rearranged a b → Rearranged (before ++ a ++ after) (before ++ b ++ after)
  | exchange (x y : Op) : Apart x y → Rearranged [x, y] [y, x]
  | cutRows (e e₁ e₂ : Endian) (ty : STy) (channels : List ChannelPath) (vals₁ vals₂ : List ty.Val) :
      channels.length ∣ vals₁.length → channels.length ∣ vals₂.length →
      Rearranged [.write e ty channels (vals₁ ++ vals₂) .interleaved]
        [.write e₁ ty channels vals₁ .interleaved, .write e₂ ty channels vals₂ .interleaved]
  | cutChannel (e e₁ e₂ : Endian) (ty : STy) (c : ChannelPath) (vals₁ vals₂ : List ty.Val) (l l₁ l₂ : DataLayout) :
      Rearranged [.write e ty [c] (vals₁ ++ vals₂) l] [.write e₁ ty [c] vals₁ l₁, .write e₂ ty [c] vals₂ l₂]
  | cutProperties (e e₁ e₂ : Endian) (path : PropertyPath) (props₁ props₂ : List (Text × PropertyValue)) :
      Rearranged [.props e path (props₁ ++ props₂)] [.props e₁ path props₁, .props e₂ path props₂]

end Tedium.WriteSpec
