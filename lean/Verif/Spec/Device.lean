import Verif.Model.Device

/-! # Failures of a stream -/

namespace Tedium

/-- None of these operations of the stream fails: reads may be short or interrupted. -/
def NoFailure (used : List ReadOutcome) : Prop := ∀ o ∈ used, o.failure = none

/-- The last of these operations failed with `kind`, and no earlier one failed. -/
def Failed (used : List ReadOutcome) (kind : IoKind) : Prop :=
  ∃ before o, used = before ++ [o] ∧ NoFailure before ∧ o.failure = some kind

end Tedium
