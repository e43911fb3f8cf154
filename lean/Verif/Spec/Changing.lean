import Verif.Spec.Writes

/-! # Histories whose data writes all change the channel list -/

namespace Tedium.WriteSpec

/-- Every data write of the history differs from the channel list in force at a position that both have, or
    there is no list in force. -/
def Changing (last : Last) : List Op → Prop
  | [] => True
  | .props .. :: ops => Changing last ops
  | .write e ty channels vals layout :: ops =>
      Diverges last.channels (channels.map ChannelPath.path) ∧
      Changing (last.after (.write e ty channels vals layout)) ops

/-- After every call of the history the file can be opened, and opening it gives the state that the session
    has: the same objects, properties, lengths, places of the data, and bytes. -/
def ReopensThroughout (al : Alloc) (t : TdmsFile) (ops : List Op) : Prop :=
  ∀ n, TdmsFile.new al (runOps al t (ops.take n)).bytes = .ok (runOps al t (ops.take n))

end Tedium.WriteSpec
