import Verif.Spec.Handle
import Verif.Proofs.Handle
import Verif.Props.Crash

/-! # Open files on streams (C54, C55) -/

namespace Tedium
open SegSpec

/-! ## Reached handles -/

theorem replay_startsFit {segs : List Segment} : ∀ {ix ix' : Index}, StartsFit ix → replay ix segs = .ok ix' →
    StartsFit ix' := by
  induction segs with
  | nil => intro ix ix' h hr; cases hr; exact h
  | cons s segs ih =>
    intro ix ix' h hr
    unfold replay at hr
    have := h.addSegment s
    revert hr this
    cases ix.addSegment s with
    | mk r ix1 =>
      cases r with
      | error e => intro hr; cases hr
      | ok n => intro hr this; exact ih this hr

theorem segment_startsFit {w : FileWriter} (h : StartsFit w.index) (split : Bytes → List Bytes) (s : Segment × Bytes) :
    StartsFit (w.segment split s).2.index := by
  unfold FileWriter.segment
  cases w.out.writePieces (split s.2) with
  | mk r out =>
    cases r with
    | some k => exact h
    | none => exact h.addSegment s.1

theorem calls_startsFit (al : Alloc) (split : Bytes → List Bytes) (cs : List Call) : ∀ {w : FileWriter},
    StartsFit w.index → StartsFit (FileWriter.calls al split w cs).2.index := by
  induction cs with
  | nil => intro w h; exact h
  | cons c cs ih =>
    intro w h
    refine ih (w := (Faults.run al split w c).2) ?_
    cases c with
    | sync =>
      unfold Faults.run FileWriter.sync
      dsimp only
      cases w.out.flush with
      | mk r out => cases r <;> exact h
    | op op =>
      cases op with
      | props e path ps => exact segment_startsFit h split _
      | write e ty channels vals layout =>
        unfold Faults.run FileWriter.writeChannels
        dsimp only
        split
        · exact h
        · split
          · exact h
          · exact segment_startsFit h split _

theorem event_startsFit (al : Alloc) (split : Bytes → List Bytes) (capacity : Nat) {h : Handle} (hs : StartsFit h.index)
    (ev : Event) : StartsFit (h.event al split capacity ev).2.index := by
  cases ev with
  | read ty channel start output =>
    have : (h.readChannelFrom al capacity ty channel start output).2.index = h.index := by
      unfold Handle.readChannelFrom
      repeat' split
      all_goals rfl
    unfold Handle.event
    rw [this]
    exact hs
  | readMany ty channels start outputs =>
    have : (h.readChannelsFrom al capacity ty channels start outputs).2.index = h.index := by
      unfold Handle.readChannelsFrom
      repeat' split
      all_goals rfl
    unfold Handle.event
    rw [this]
    exact hs
  | write wc script calls =>
    unfold Handle.event Handle.session
    cases h.dev.seekEnd with
    | mk r d =>
      cases r with
      | some k => exact hs
      | none => exact calls_startsFit al split calls (w := ⟨h.index, ⟨wc, [], ⟨[], script⟩⟩⟩) hs

theorem opened_startsFit {al : Alloc} {capacity : Nat} {d : Device} {h : Handle}
    (ho : Handle.new al capacity d = .ok h) : StartsFit h.index := by
  unfold Handle.new at ho
  split at ho
  · cases ho
  · rename_i ix dev hb
    cases ho
    unfold Device.buildIndex at hb
    split at hb
    · cases hb
    · exact Device.openLoop_startsFit _ _ _ _ _ StartsFit.new hb

theorem Reached.startsFit {al : Alloc} {split : Bytes → List Bytes} {capacity : Nat} {h : Handle}
    (hr : Reached al split capacity h) : StartsFit h.index := by
  induction hr with
  | opened ho => exact opened_startsFit ho
  | event ev _ ih => exact event_startsFit al split capacity ih ev

/-- C54. Reading a channel, whatever the stream does: if no operation of the stream fails during the call the answer is
    the one that index and contents determine; otherwise the first operation that fails ends the call, and the answer
    is its error. Index and contents stay as they are. -/
theorem read_through_stream (al : Alloc) (split : Bytes → List Bytes) (capacity : Nat) (h : Handle)
    (hr : Reached al split capacity h) (hlen : h.dev.bytes.length < 2 ^ 64) (ty : STy) (channel : ChannelPath)
    (start : Nat) (output : List ty.Val) :
    ∃ r h' used, h.readChannelFrom al capacity ty channel start output = (r, h') ∧
      h'.index = h.index ∧ h'.dev.bytes = h.dev.bytes ∧ h.dev.script = used ++ h'.dev.script ∧
      ((NoFailure used ∧ r = TdmsFile.readChannelFrom (ty.storage al) ⟨h.index, h.dev.bytes⟩ channel start output) ∨
        ∃ kind, Failed used kind ∧ r = .error (.err (.ioError kind))) := by
  obtain ⟨h1, used, h2, h3, h4⟩ := h.readChannelFrom_ran al capacity ty hr.startsFit hlen channel start output
  exact ⟨_, _, used, rfl, h1, h3, h2, h4⟩

/-- The same for several channels. -/
theorem read_many_through_stream (al : Alloc) (split : Bytes → List Bytes) (capacity : Nat) (h : Handle)
    (hr : Reached al split capacity h) (hlen : h.dev.bytes.length < 2 ^ 64) (ty : STy) (channels : List ChannelPath)
    (start : Nat) (outputs : List (List ty.Val)) :
    ∃ r h' used, h.readChannelsFrom al capacity ty channels start outputs = (r, h') ∧
      h'.index = h.index ∧ h'.dev.bytes = h.dev.bytes ∧ h.dev.script = used ++ h'.dev.script ∧
      ((NoFailure used ∧ r = TdmsFile.readChannelsFrom (ty.storage al) ⟨h.index, h.dev.bytes⟩ channels start outputs) ∨
        ∃ kind, Failed used kind ∧ r = .error (.err (.ioError kind))) := by
  obtain ⟨h1, used, h2, h3, h4⟩ := h.readChannelsFrom_ran al capacity ty hr.startsFit hlen channels start outputs
  exact ⟨_, _, used, rfl, h1, h3, h2, h4⟩

/-! ## Opening -/

/-- C54. Opening, whatever the stream does: if no operation of the stream fails the outcome is the one that the contents
    determine. Otherwise the first operation that fails ends the call, and its error is returned, or the index covers
    only the first segments: after a seek to the next segment that failed, or when the stream ended early where
    a segment begins. That last outcome is not an error: the full claim would exclude it. -/
theorem open_through_stream_partial (al : Alloc) (capacity : Nat) (d : Device) (hlen : d.bytes.length < 2 ^ 64) :
    ∃ r d' used, d.buildIndex al capacity = (r, d') ∧ d'.bytes = d.bytes ∧ d.script = used ++ d'.script ∧
      ((NoFailure used ∧ r = Tedium.buildIndex al d.bytes) ∨
        (∃ kind, Failed used kind ∧ r = .error (.err (.ioError kind))) ∨
        ∃ kind pre post last ix, Failed used kind ∧ (pre = [] → kind = .unexpectedEof) ∧ Parses al d.bytes 0 (pre ++ post) last ∧
          replay Index.new pre = .ok ix ∧ r = .ok ix) := by
  obtain ⟨segs, last, hp⟩ := Parses.exists al d.bytes 0
  obtain ⟨used, h1, h2, h3⟩ := d.buildIndex_spec al capacity hlen hp
  refine ⟨_, _, used, rfl, h2, h1, ?_⟩
  rcases h3 with (⟨hn, h3⟩ | ⟨c, hc, h3⟩) | ⟨c, pre, post, ix, hc, hpre, hseg, hrep, hres⟩
  · exact Or.inl ⟨hn, h3.trans (buildIndex_eq hp).symm⟩
  · exact Or.inr (Or.inl ⟨c, hc, h3⟩)
  · exact Or.inr (Or.inr ⟨c, pre, post, last, ix, hc, hpre, by rw [← hseg]; exact hp, hrep, hres⟩)

/-- C54. Short and interrupted reads, the size of the buffer and the position of the stream make no difference to
    opening. -/
theorem open_any_chunking (al : Alloc) (capacity : Nat) (d : Device) (hlen : d.bytes.length < 2 ^ 64)
    (hn : NoFailure d.script) : (d.buildIndex al capacity).1 = Tedium.buildIndex al d.bytes := by
  obtain ⟨r, d', used, h1, _, h3, h4⟩ := open_through_stream_partial al capacity d hlen
  have hno : NoFailure used := fun o ho => hn o (by rw [h3]; exact List.mem_append_left _ ho)
  rw [h1]
  rcases h4 with h4 | ⟨c, hc, _⟩ | ⟨c, _, _, _, _, hc, _⟩
  · exact h4.2
  · exact absurd hno hc.failure
  · exact absurd hno hc.failure

/-! ## Histories -/

/-- C55. A writer session, whatever the stream does: either the seek to the end fails, its error is returned and
    nothing has changed; or it is the session of a writer at the end of the contents, wherever the
    stream stood before. -/
theorem session_through_stream (al : Alloc) (split : Bytes → List Bytes) (wcapacity : Nat) (script : List WriteOutcome)
    (h : Handle) (calls : List Call) :
    ∃ r h' used, h.session al split wcapacity script calls = (r, h') ∧ h.dev.script = used ++ h'.dev.script ∧
      ((∃ kind, Failed used kind ∧ r = .error (.err (.ioError kind)) ∧
          h'.index = h.index ∧ h'.dev.bytes = h.dev.bytes) ∨
        ∃ rs w, NoFailure used ∧ FileWriter.calls al split (TdmsFile.writer ⟨h.index, h.dev.bytes⟩ wcapacity script) calls = (rs, w) ∧
          r = .ok rs ∧ h'.index = w.drop.index ∧ h'.dev.bytes = w.drop.bytes) := by
  obtain ⟨used, h1, h2⟩ := h.session_spec al split wcapacity script calls
  refine ⟨_, _, used, rfl, h1, ?_⟩
  rcases h2 with ⟨c, hc, h3, h4⟩ | ⟨hn, h3, h4⟩
  · exact Or.inl ⟨c, hc, h3, congrArg TdmsFile.index h4, congrArg TdmsFile.bytes h4⟩
  · exact Or.inr ⟨_, _, hn, rfl, h3, congrArg TdmsFile.index h4, congrArg TdmsFile.bytes h4⟩

theorem event_grows (al : Alloc) (split : Bytes → List Bytes) (t : TdmsFile) (ev : Event) :
    t.bytes <+: (t.event al split ev).2.bytes := by
  cases ev with
  | read => exact List.prefix_rfl
  | readMany => exact List.prefix_rfl
  | write wc script calls =>
    have hw : t.writer wc script = FileWriter.behind t.bytes ⟨t.index, ⟨wc, [], ⟨[], script⟩⟩⟩ := by
      unfold TdmsFile.writer FileWriter.behind BufWriter.behind
      dsimp only
      rw [List.append_nil]
    unfold TdmsFile.event
    dsimp only
    rw [hw, FileWriter.calls_behind]
    unfold FileWriter.drop BufWriter.drop
    rw [show (FileWriter.behind t.bytes _).out = BufWriter.behind t.bytes _ from rfl, BufWriter.flush_behind]
    exact List.prefix_append _ _

theorem events_grow (al : Alloc) (split : Bytes → List Bytes) (evs : List Event) : ∀ t : TdmsFile,
    t.bytes <+: (runEvents (TdmsFile.event al split) t evs).2.bytes := by
  induction evs with
  | nil => intro t; exact List.prefix_rfl
  | cons ev evs ih => intro t; exact (event_grows al split t ev).trans (ih _)

theorem event_eq (al : Alloc) (split : Bytes → List Bytes) (capacity : Nat) (h : Handle) (hs : StartsFit h.index)
    (hlen : h.dev.bytes.length < 2 ^ 64) (hn : NoFailure h.dev.script) (ev : Event) :
    (h.event al split capacity ev).1 = (h.file.event al split ev).1 ∧
      (h.event al split capacity ev).2.file = (h.file.event al split ev).2 ∧
      NoFailure (h.event al split capacity ev).2.dev.script := by
  have hno : ∀ {used rest}, h.dev.script = used ++ rest → NoFailure used := fun hu c hc =>
    hn c (by rw [hu]; exact List.mem_append_left _ hc)
  have hrest : ∀ {used rest}, h.dev.script = used ++ rest → NoFailure rest := fun hu c hc =>
    hn c (by rw [hu]; exact List.mem_append_right _ hc)
  cases ev with
  | read ty channel start output =>
    obtain ⟨h1, used, h2, h3, h4⟩ := h.readChannelFrom_ran al capacity ty hs hlen channel start output
    have hr : (h.readChannelFrom al capacity ty channel start output).1
        = h.file.readChannelFrom (ty.storage al) channel start output := by
      rcases h4 with h4 | ⟨c, hc, _⟩
      · exact h4.2
      · exact absurd (hno h2) hc.failure
    refine ⟨congrArg (Answer.read ty) hr, ?_, hrest h2⟩
    show (⟨(h.readChannelFrom al capacity ty channel start output).2.index,
      (h.readChannelFrom al capacity ty channel start output).2.dev.bytes⟩ : TdmsFile) = ⟨h.index, h.dev.bytes⟩
    rw [h1]
    exact congrArg _ h3
  | readMany ty channels start outputs =>
    obtain ⟨h1, used, h2, h3, h4⟩ := h.readChannelsFrom_ran al capacity ty hs hlen channels start outputs
    have hr : (h.readChannelsFrom al capacity ty channels start outputs).1
        = h.file.readChannelsFrom (ty.storage al) channels start outputs := by
      rcases h4 with h4 | ⟨c, hc, _⟩
      · exact h4.2
      · exact absurd (hno h2) hc.failure
    refine ⟨congrArg (Answer.readMany ty) hr, ?_, hrest h2⟩
    show (⟨(h.readChannelsFrom al capacity ty channels start outputs).2.index,
      (h.readChannelsFrom al capacity ty channels start outputs).2.dev.bytes⟩ : TdmsFile) = ⟨h.index, h.dev.bytes⟩
    rw [h1]
    exact congrArg _ h3
  | write wc script calls =>
    obtain ⟨used, h1, h2⟩ := h.session_spec al split wc script calls
    rcases h2 with ⟨c, hc, _⟩ | ⟨_, h2, h3⟩
    · exact absurd (hno h1) hc.failure
    · exact ⟨congrArg Answer.write h2, h3, hrest h1⟩

theorem events_eq (al : Alloc) (split : Bytes → List Bytes) (capacity : Nat) (evs : List Event) : ∀ h : Handle,
    StartsFit h.index → NoFailure h.dev.script →
    (runEvents (TdmsFile.event al split) h.file evs).2.bytes.length < 2 ^ 64 →
    (runEvents (Handle.event al split capacity) h evs).1 = (runEvents (TdmsFile.event al split) h.file evs).1 ∧
      (runEvents (Handle.event al split capacity) h evs).2.file = (runEvents (TdmsFile.event al split) h.file evs).2 := by
  induction evs with
  | nil => intro h _ _ _; exact ⟨rfl, rfl⟩
  | cons ev evs ih =>
    intro h hs hn hlen
    have hl : h.dev.bytes.length < 2 ^ 64 :=
      Nat.lt_of_le_of_lt (events_grow al split (ev :: evs) h.file).length_le hlen
    obtain ⟨e1, e2, e3⟩ := event_eq al split capacity h hs hl hn ev
    have := ih (h.event al split capacity ev).2 (event_startsFit al split capacity hs ev) e3 (by rw [e2]; exact hlen)
    rw [e2] at this
    unfold runEvents
    dsimp only
    exact ⟨by rw [e1, this.1], this.2⟩

/-- C55. On a stream that does not fail (its reads may be short or interrupted, the buffer may have any size, and
    it may stand anywhere when the file is opened), any history of reads and writer sessions on one
    handle gives the answers, the index and the contents that the model without positions gives. -/
theorem handle_history (al : Alloc) (split : Bytes → List Bytes) (capacity : Nat) (d : Device)
    (hlen : d.bytes.length < 2 ^ 64) (hn : NoFailure d.script) (evs : List Event) :
    match TdmsFile.new al d.bytes with
    | .error e => Handle.new al capacity d = .error e
    | .ok t =>
      (runEvents (TdmsFile.event al split) t evs).2.bytes.length < 2 ^ 64 →
      ∃ h, Handle.new al capacity d = .ok h ∧
        (runEvents (Handle.event al split capacity) h evs).1 = (runEvents (TdmsFile.event al split) t evs).1 ∧
        (runEvents (Handle.event al split capacity) h evs).2.index = (runEvents (TdmsFile.event al split) t evs).2.index ∧
        (runEvents (Handle.event al split capacity) h evs).2.dev.bytes
          = (runEvents (TdmsFile.event al split) t evs).2.bytes := by
  have hopen := open_any_chunking al capacity d hlen hn
  obtain ⟨r, d', used, h1, h2, h3, _⟩ := open_through_stream_partial al capacity d hlen
  rw [h1] at hopen
  dsimp only at hopen
  cases r with
  | error e =>
    have ht : TdmsFile.new al d.bytes = .error e := by
      unfold TdmsFile.new
      rw [← hopen]
      rfl
    rw [ht]
    show Handle.new al capacity d = .error e
    unfold Handle.new
    rw [h1]
  | ok ix =>
    have ht : TdmsFile.new al d.bytes = .ok ⟨ix, d.bytes⟩ := by
      unfold TdmsFile.new
      rw [← hopen]
      rfl
    rw [ht]
    intro hfin
    have hnew : Handle.new al capacity d = .ok ⟨ix, d'⟩ := by
      unfold Handle.new
      rw [h1]
    have hfile : (⟨ix, d'⟩ : Handle).file = ⟨ix, d.bytes⟩ := by
      unfold Handle.file
      dsimp only
      rw [h2]
    have := events_eq al split capacity evs ⟨ix, d'⟩ (opened_startsFit hnew)
      (fun c hc => hn c (by rw [h3]; exact List.mem_append_right _ hc)) (by rw [hfile]; exact hfin)
    rw [hfile] at this
    exact ⟨_, hnew, this.1, congrArg TdmsFile.index this.2, congrArg TdmsFile.bytes this.2⟩

/-- A stream with the contents of `windowFile` (three data blocks in two segments) that stands at position 100,
    gives one byte, is interrupted, and gives two bytes. -/
def slowDevice : Device := ⟨fileOf windowFile, 100, [.short 50, .short 0, .interrupted, .short 1, .interrupted]⟩

example : NoFailure slowDevice.script := by
  intro o ho
  revert o
  decide

/-- The events of the example: a read, a writer session with a short write, a read of what was written. -/
def slowEvents : List Event :=
  [.read .u16 (chan "b") 1 (vals16 [0, 0]),
   .write 8192 [.accept 5, .interrupted] [.op (.write .little .u16 [chan "n"] (vals16 [5, 6]) .contigious)],
   .read .u16 (chan "n") 0 (vals16 [0, 0]),
   .read .u16 (chan "b") 1 (vals16 [0, 0])]

/-- The numbers read, if any. -/
def Answer.nums : Answer → List Nat
  | .read .u16 (.ok vs) => List.map BitVec.toNat vs
  | _ => []

/-- The handle on that stream, with a buffer of ten bytes, answers as it should. -/
theorem handle_example : (Handle.new anyAlloc 10 slowDevice).map (fun h =>
      (runEvents (Handle.event anyAlloc (fun b => [b]) 10) h slowEvents).1.map Answer.nums)
    = .ok [[11, 12], [], [5, 6], [11, 12]] := by
  decide +kernel

/-- A handle that is reached, with a read that fails in the middle: that read reports the error, and the next one is
    right again. -/
theorem failing_read_example : (Handle.new anyAlloc 8192 ⟨fileOf windowFile, 0, List.replicate 11 (.short 8191) ++ [.fail 7]⟩).map
      (fun h =>
        let (r1, h) := h.readChannelFrom anyAlloc 8192 .u16 (chan "b") 1 (vals16 [0, 0])
        let (r2, _) := h.readChannelFrom anyAlloc 8192 .u16 (chan "b") 1 (vals16 [0, 0])
        (decide (r1 = R.err (.ioError (.other 7))), (Answer.read .u16 r2).nums))
    = .ok (true, [11, 12]) := by
  decide +kernel

/-- A failing seek while the file is opened: the file opens without its second segment, and without an error. -/
theorem open_seek_failure_counterexample :
    (Device.buildIndex anyAlloc 8192 ⟨fileOf windowFile, 0, [.short 8191, .short 3, .short 3, .short 8191, .fail 5]⟩).1.map
        (fun ix => ix.dataBlocks.length) = .ok 1 ∧
      (Tedium.buildIndex anyAlloc (fileOf windowFile)).map (fun ix => ix.dataBlocks.length) = .ok 2 := by
  decide +kernel

/-- A stream that ends early where the second segment begins: again the file opens without that segment, and
    without an error. -/
theorem open_early_end_counterexample :
    (Device.buildIndex anyAlloc 8192 ⟨fileOf windowFile, 0, [.short 8191, .short 3, .short 3, .short 8191, .short 0, .ended]⟩).1.map
        (fun ix => ix.dataBlocks.length) = .ok 1 ∧
      (Tedium.buildIndex anyAlloc (fileOf windowFile)).map (fun ix => ix.dataBlocks.length) = .ok 2 := by
  decide +kernel

/-- Anywhere else an early end is an error, also after it the next read is right again. -/
theorem early_end_example : (Handle.new anyAlloc 8192 ⟨fileOf windowFile, 0, List.replicate 11 (.short 8191) ++ [.ended]⟩).map
      (fun h =>
        let (r1, h) := h.readChannelFrom anyAlloc 8192 .u16 (chan "b") 1 (vals16 [0, 0])
        let (r2, _) := h.readChannelFrom anyAlloc 8192 .u16 (chan "b") 1 (vals16 [0, 0])
        (decide (r1 = R.err (.ioError .unexpectedEof)), (Answer.read .u16 r2).nums))
    = .ok (true, [11, 12]) := by
  decide +kernel

end Tedium
