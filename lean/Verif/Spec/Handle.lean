import Verif.Model.Handle
import Verif.Spec.Device

/-! # Histories of calls on one open file -/

namespace Tedium

/-- What a program does with an open file, as far as the stream is concerned: read, or take a writer, make calls
    and drop it. `script` is what the stream's `write` does meanwhile. -/
inductive Event where
  | read (ty : STy) (channel : ChannelPath) (start : Nat) (output : List ty.Val)
  | readMany (ty : STy) (channels : List ChannelPath) (start : Nat) (outputs : List (List ty.Val))
  | write (capacity : Nat) (script : List WriteOutcome) (calls : List Call)

/-- What it gets back. -/
inductive Answer where
  | read (ty : STy) (r : R (List ty.Val))
  | readMany (ty : STy) (r : R (List (List ty.Val)))
  | write (r : R (List (R Unit)))

/-- On a handle. -/
def Handle.event (al : Alloc) (split : Bytes → List Bytes) (capacity : Nat) (h : Handle) : Event → Answer × Handle
  | .read ty channel start output =>
    let (r, h) := h.readChannelFrom al capacity ty channel start output
    (.read ty r, h)
  | .readMany ty channels start outputs =>
    let (r, h) := h.readChannelsFrom al capacity ty channels start outputs
    (.readMany ty r, h)
  | .write wcapacity script calls =>
    let (r, h) := h.session al split wcapacity script calls
    (.write r, h)

/-- On an index and contents, where there is no position and nothing but `write` can fail. -/
def TdmsFile.event (al : Alloc) (split : Bytes → List Bytes) (t : TdmsFile) : Event → Answer × TdmsFile
  | .read ty channel start output => (.read ty (t.readChannelFrom (ty.storage al) channel start output), t)
  | .readMany ty channels start outputs => (.readMany ty (t.readChannelsFrom (ty.storage al) channels start outputs), t)
  | .write wcapacity script calls =>
    let (rs, w) := FileWriter.calls al split (t.writer wcapacity script) calls
    (.write (.ok rs), w.drop)

/-- One after the other. -/
def runEvents {σ : Type} (step : σ → Event → Answer × σ) (s : σ) : List Event → List Answer × σ
  | [] => ([], s)
  | ev :: evs =>
    let (a, s) := step s ev
    let (as, s) := runEvents step s evs
    (a :: as, s)

/-- The handles that a program can get to, whatever the stream does. -/
inductive Reached (al : Alloc) (split : Bytes → List Bytes) (capacity : Nat) : Handle → Prop
  | opened {d : Device} {h : Handle} : Handle.new al capacity d = .ok h → Reached al split capacity h
  | event {h : Handle} (ev : Event) : Reached al split capacity h →
      Reached al split capacity (h.event al split capacity ev).2

end Tedium
