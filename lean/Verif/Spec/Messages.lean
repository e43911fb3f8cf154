import Verif.Model.Basic

/-! # What a message is expected to tell -/

namespace Tedium

/-- Two errors the user cannot be expected to tell apart by their messages: the same error about the same
    thing, where the cause of an I/O error (which is reported as the error's `source`) and the number of a
    data block do not count. -/
inductive TdmsError.Alike : TdmsError → TdmsError → Prop
  | same (e : TdmsError) : Alike e e
  | cause (k₁ k₂ : IoKind) : Alike (.ioError k₁) (.ioError k₂)
  | block (b₁ b₂ : Nat) : Alike (.dataBlockNotFound b₁) (.dataBlockNotFound b₂)

end Tedium
