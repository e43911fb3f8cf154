import Verif.Model.Medium

/-! # Sessions that a power failure ends -/

namespace Tedium

/-- What happens: a call of the writer, or the system writes some bytes back by itself. -/
inductive PowerStep where
  | call (c : Call)
  | writeBack (n : Nat)

namespace Power

/-- The state after one step, whatever the result of the call. -/
def step (al : Alloc) (split : Bytes → List Bytes) (m : Medium) : PowerStep → Medium
  | .call c => (m.call al split c).2
  | .writeBack n => m.writeBack n

/-- The state after the steps. -/
def after (al : Alloc) (split : Bytes → List Bytes) (m : Medium) (steps : List PowerStep) : Medium :=
  steps.foldl (step al split) m

/-- The calls among the steps. -/
def calls : List PowerStep → List Call
  | [] => []
  | .call c :: steps => c :: calls steps
  | .writeBack _ :: steps => calls steps

end Power
end Tedium
