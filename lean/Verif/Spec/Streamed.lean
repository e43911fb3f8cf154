import Verif.Spec.Library
import Verif.Spec.Handle

/-!
# Programs over a stream

The programs of `Spec/Library`, with the stream that the open file works on: what its reads, seeks and writes do is given with each
command. The store of `Spec/Library` says what each command replies.
-/

namespace Tedium.Library
open SegSpec WriteSpec

/-- A command: take a writer (with a buffer of the given capacity, over a stream whose writes do what is listed), make calls with it
    and drop it; ask something; close the file and open it again, on a stream that stands anywhere. -/
inductive StreamCommand where
  | session (capacity : Nat) (writes : List WriteOutcome) (calls : List Call)
  | ask (q : Query)
  | reopen (position : Nat)

/-- A command, and what the reads and seeks of the stream do meanwhile. -/
structure StreamStep where
  reads : List ReadOutcome
  command : StreamCommand

/-- What the command returns. -/
inductive StreamReply where
  | session (r : R (List (R Unit)))
  | ask (r : R Reply)
  | reopen (r : R Unit)

/-- The handle, on a stream that is about to do this. -/
def onStream (h : Handle) (reads : List ReadOutcome) : Handle := ⟨h.index, { h.dev with script := reads }⟩

/-- The question, asked of a handle: reads go to the stream, all else is known from the index. -/
def Query.runOn (al : Alloc) (capacity : Nat) (h : Handle) : Query → R Reply × Handle
  | .read ty c start out =>
    let (r, h) := h.readChannelFrom al capacity ty c start out
    (r.map (.samples ty), h)
  | .readMany ty cs start =>
    let (r, h) := h.readChannelsFrom al capacity ty (cs.map (·.1)) start (cs.map (·.2))
    (r.map (.samplesMany ty), h)
  | q => (q.run al h.file, h)

/-- The command, given to the library. -/
def StreamStep.run (al : Alloc) (split : Bytes → List Bytes) (capacity : Nat) (h : Handle) (step : StreamStep) :
    StreamReply × Handle :=
  match step.command with
  | .session wcapacity writes calls =>
    let (r, h) := (onStream h step.reads).session al split wcapacity writes calls
    (.session r, h)
  | .ask q =>
    let (r, h) := q.runOn al capacity (onStream h step.reads)
    (.ask r, h)
  | .reopen position =>
    match Handle.new al capacity ⟨h.dev.bytes, position, step.reads⟩ with
    | .ok h' => (.reopen (.ok ()), h')
    | .error e => (.reopen (.error e), h)

/-- What the library replies to the commands, one after the other. -/
def streamReplies (al : Alloc) (split : Bytes → List Bytes) (capacity : Nat) (h : Handle) :
    List StreamStep → List (StreamStep × StreamReply)
  | [] => []
  | step :: steps =>
    (step, (step.run al split capacity h).1) :: streamReplies al split capacity (step.run al split capacity h).2 steps

/-- The first operation of the stream that fails does so with this error. -/
def Reports (reads : List ReadOutcome) (kind : IoKind) : Prop := ∃ used rest, reads = used ++ rest ∧ Failed used kind

/-- What a store replies to the calls of a writer, and what they leave. -/
def Store.session (s : Store) : List Call → List (R Unit) × Store
  | [] => ([], s)
  | .sync :: cs => (.ok () :: (s.session cs).1, (s.session cs).2)
  | .op op :: cs => ((s.call op).1.map (fun _ => ()) :: ((s.call op).2.session cs).1, ((s.call op).2.session cs).2)

/-- These are the replies of a store, except that a command may return the error with which an operation of the stream failed, and
    then it has had no effect. -/
def StreamBehaves (al : Alloc) : Store → List (StreamStep × StreamReply) → Prop
  | _, [] => True
  | s, (⟨reads, .session _ _ calls⟩, .session r) :: rest =>
    (∃ kind, Reports reads kind ∧ r = R.err (.ioError kind) ∧ StreamBehaves al s rest) ∨
    (r = .ok (s.session calls).1 ∧ StreamBehaves al (s.session calls).2 rest)
  | s, (⟨reads, .ask q⟩, .ask r) :: rest =>
    ((∃ kind, Reports reads kind ∧ r = R.err (.ioError kind)) ∨ s.Answers al q r) ∧ StreamBehaves al s rest
  | s, (⟨_, .reopen _⟩, .reopen r) :: rest => r = .ok () ∧ StreamBehaves al s rest
  | _, _ => False

/-- The command as commands of `Spec/Library`: a session that was not refused as its calls. -/
def effect : StreamStep × StreamReply → List Command
  | (⟨_, .session _ _ calls⟩, .session (.ok _)) => (Faults.writes calls).map .call
  | (⟨_, .session _ _ _⟩, _) => []
  | (⟨_, .ask q⟩, _) => [.ask q]
  | (⟨_, .reopen _⟩, _) => [.reopen]

/-- Writes of the stream may be short and interrupted but do not fail, and neither do its reads and seeks while the file is
    opened. -/
def StreamStep.Reliable (step : StreamStep) : Prop :=
  match step.command with
  | .session _ writes _ => ∀ o ∈ writes, o = .interrupted ∨ ∃ n, o = .accept (n + 1)
  | .ask _ => True
  | .reopen _ => NoFailure step.reads

end Tedium.Library
