import Verif.Model.Basic

/-! # Objects of a TDMS file, as the user thinks of them -/

namespace Tedium

/-- The file itself, a group, or a channel of a group. -/
inductive Obj where
  | root
  | group (name : Text)
  | channel (group name : Text)
  deriving DecidableEq, Repr

/-- Names differing only in the kind of quote are not distinguished: every `'` counts as `"`. -/
def normName (n : Text) : Text := n.map (fun c => if c = '\'' then '"' else c)

/-- The object with its names normalised. -/
def Obj.norm : Obj → Obj
  | .root => .root
  | .group g => .group (normName g)
  | .channel g c => .channel (normName g) (normName c)

end Tedium
