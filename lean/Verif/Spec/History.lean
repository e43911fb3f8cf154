import Verif.Model.File
import Verif.Spec.Segments

/-! # Histories of operations

What a user does with a writer: a list of calls, each of which may fail. -/

namespace Tedium

/-- One call of the writer. The byte order is that of the writer. -/
inductive Op where
  | write (e : Endian) (ty : STy) (channels : List ChannelPath) (vals : List ty.Val)
      (layout : DataLayout)
  | props (e : Endian) (path : PropertyPath) (properties : List (Text × PropertyValue))

/-- The call. -/
def Op.run (al : Alloc) (t : TdmsFile) : Op → R Unit × TdmsFile
  | .write e ty channels vals layout => t.writeChannels (ty.storage al) e channels vals layout
  | .props e path properties => t.writeProperties e path properties

/-- All calls, whatever their results. -/
def runOps (al : Alloc) (t : TdmsFile) (ops : List Op) : TdmsFile :=
  ops.foldl (fun t op => (op.run al t).2) t

/-- The properties the history gives to an object, in order. -/
def Op.propsFor (path : Text) : Op → List (Text × PropertyValue)
  | .write .. => []
  | .props _ p ps => if p.path = path then ps else []

/-- The states of a file that a user can get to: open any byte string (or create an empty file), then
    make any calls, successful or not. -/
inductive Session (al : Alloc) : TdmsFile → Prop
  | opened {f : Bytes} {t : TdmsFile} : TdmsFile.new al f = .ok t → Session al t
  | call {t : TdmsFile} (op : Op) : Session al t → Session al (op.run al t).2

namespace SegSpec

/-- Adding segments one after the other, going on after failures. -/
def feed (ix : Index) (segs : List Segment) : Index :=
  segs.foldl (fun ix s => (ix.addSegment s).2) ix

end SegSpec
end Tedium
