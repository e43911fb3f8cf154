import Verif.Spec.Library

/-!
# Programs that play a history

For the question which histories of calls are safe: a program plays a history if the calls it makes are those of the history, up to some
point, with any values. What it asks in between, and which calls it makes that are rejected, is free.
-/

namespace Tedium.Library
open WriteSpec

/-- The command is not a question for several channels at once. -/
def Command.Single : Command → Prop
  | .ask (.readMany ..) => False
  | _ => True

/-- The program plays the history: its calls are the first calls of the history, with these or other values. -/
def Plays (ops : List Op) (cmds : List Command) : Prop := ∃ ops' n, SameShape ops ops' ∧ calls cmds = ops'.take n

end Tedium.Library
