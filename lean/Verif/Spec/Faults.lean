import Verif.Model.Stream

/-! # Histories of calls on a stream that can fail -/

namespace Tedium

/-- One call of the writer. -/
inductive Call where
  | op (op : Op)
  | sync

namespace Faults

/-- The call. -/
def run (al : Alloc) (split : Bytes → List Bytes) (w : FileWriter) : Call → R Unit × FileWriter
  | .op (.write e ty channels vals layout) => w.writeChannels (ty.storage al) split e channels vals layout
  | .op (.props e path properties) => w.writeProperties split e path properties
  | .sync => w.sync

/-- The state after the calls, whatever their results. -/
def after (al : Alloc) (split : Bytes → List Bytes) (w : FileWriter) (calls : List Call) : FileWriter :=
  calls.foldl (fun w c => (run al split w c).2) w

/-- The writes among the calls. -/
def writes : List Call → List Op
  | [] => []
  | .op op :: calls => op :: writes calls
  | .sync :: calls => writes calls

/-- The result is an error that the stream reported. -/
def IsIoError (r : R Unit) : Prop := ∃ kind, r = R.err (.ioError kind)

/-- No write among the calls ends with an I/O error. (A `sync` may.) -/
def NoWriteFails (al : Alloc) (split : Bytes → List Bytes) (w : FileWriter) (calls : List Call) : Prop :=
  ∀ pre op post, calls = pre ++ .op op :: post → ¬ IsIoError (run al split (after al split w pre) (.op op)).1

end Faults
end Tedium
