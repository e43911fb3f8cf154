import Verif.Model.Growing

/-! # Two moments of a stream that grows -/

namespace Tedium

/-- `g'` is `g` at a later moment: some of what was to be appended has been appended, in order, and nothing else has
    changed the contents. -/
def Growing.Later (g g' : Growing) : Prop :=
  ∃ now, g.growth = now ++ g'.growth ∧ g'.contents = g.contents ++ now.flatten

/-- No operation on the stream is going to fail. Reads may be short or interrupted. -/
def Growing.Reliable (g : Growing) : Prop := ∀ o ∈ g.dev.script, o.failure = none

end Tedium
