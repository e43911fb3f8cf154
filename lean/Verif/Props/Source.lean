import Verif.Proofs.SourceOpen
import Verif.Props.Handle

/-!
# C83: streams that may do anything

`F` is any implementation of `Read + Seek`, and `s` any state of it. Nothing is assumed about what it answers.
-/

namespace Tedium
open SegSpec

/-- The fate of a call that may fail only with an error. -/
def OkOrErr {α : Type} (r : R α) : Prop := (∃ a, r = .ok a) ∨ ∃ e, r = R.err e

/-- **C83, opening.** Opening ends, whatever the stream does. It fails with an error; or it succeeds, and the index is that
    of some list of segments, as if a file had held these; or it panics, which takes a segment, read behind segments that
    were accepted, whose raw data is declared to begin at address `2 ^ 64` or later. -/
theorem any_stream_open {σ : Type} (F : Source σ) (al : Alloc) (capacity : Nat) (s : σ) :
    (∃ e, (F.buildIndex al capacity s).1 = R.err e) ∨
    (∃ segs ix, (F.buildIndex al capacity s).1 = .ok ix ∧ refusal [] segs = none ∧ replay Index.new segs = .ok ix) ∨
    ((F.buildIndex al capacity s).1 = R.panic .overflow ∧
      ∃ pre seg, refusal [] pre = none ∧ unresolved pre seg = false ∧ seg.toc.containsRawData = true ∧
        active (pre ++ [seg]) ≠ [] ∧ seg.rawDataOffset < seg.nextSegmentOffset ∧
        2 ^ 64 ≤ endOf pre + 28 + seg.rawDataOffset) := by
  obtain ⟨segs, last, _, h⟩ := buildIndex_any F al capacity s
  rw [h]
  obtain ⟨h1, h2⟩ := replay_refusal segs [] (ix := Index.new) rfl
  unfold openResult
  cases hr : refusal [] segs with
  | none =>
    obtain ⟨ix, hix⟩ := h2 hr
    rw [hix]
    dsimp only
    by_cases hl : (Fail.err last) = .err .endOfFile
    · rw [if_pos hl]; exact Or.inr (Or.inl ⟨segs, ix, rfl, hr, hix⟩)
    · rw [if_neg hl]; exact Or.inl ⟨last, rfl⟩
  | some e =>
    rw [h1 e hr]
    dsimp only
    obtain ⟨pre, seg, post, h4, h5, h6⟩ := (refusal_some segs []).mp hr
    rw [List.nil_append] at h6
    cases e with
    | err x => exact Or.inl ⟨x, rfl⟩
    | hang =>
      exfalso
      unfold verdict at h6
      dsimp only at h6
      repeat (split at h6; · cases h6)
      cases h6
    | panic p =>
      have hpo := verdict_panics h6
      subst hpo
      exact Or.inr (Or.inr ⟨rfl, pre, seg, h5, verdict_panic.mp h6⟩)

section
variable {σ σ₀ : Type} {F₀ : Source σ₀} {capacity₀ : Nat} {s₀ : σ₀} {ix : Index}
variable (F : Source σ) (al : Alloc) (capacity : Nat) (ty : STy)

/-- The ways in which a read fails. -/
def ReadFail (e : Fail) : Prop := (∃ x, e = .err x) ∨ e = .panic .overflow ∨ e = .panic .divByZero

/-- **C83, reading.** Let `ix` be the index of a file that has been opened, through any stream. Then a read of one channel
    and a read of several channels end, whatever the stream does now: with success or with an error, or with a panic
    because of an arithmetic overflow or a division by zero. -/
theorem any_stream_read (h : (F₀.buildIndex al capacity₀ s₀).1 = .ok ix) (s : σ) (start : Nat) :
    (∀ c out, (F.readChannelInto al capacity ty ix s c start out).1 = .ok () ∨
      ∃ e, (F.readChannelInto al capacity ty ix s c start out).1 = .error e ∧ ReadFail e) ∧
    ∀ cs outs, (F.readChannelsInto al capacity ty ix s cs start outs).1 = .ok () ∨
      ∃ e, (F.readChannelsInto al capacity ty ix s cs start outs).1 = .error e ∧ ReadFail e := by
  obtain ⟨segs, _, hr⟩ := buildIndex_any_ok h
  have hi := (replay_refines hr).inv
  have hE : ∀ e, ReadFail (.err e) := fun e => Or.inl ⟨e, rfl⟩
  have hm : MildAll ReadFail := ⟨Or.inr (Or.inl rfl), Or.inr (Or.inr rfl)⟩
  constructor
  · intro c out
    rcases readChannelLog_sat hE al ty (F.runner_keeps hE capacity) hi c start out s (Or.inl hm) with ⟨⟨⟩, ha, _⟩ | he
    · exact Or.inl ha
    · exact Or.inr he
  · intro cs outs
    rcases readChannelsLog_sat hE al ty (F.runner_keeps hE capacity) hi cs start outs s (Or.inl hm) with ⟨⟨⟩, ha, _⟩ | he
    · exact Or.inl ha
    · exact Or.inr he

/-- An error, and no panic. -/
def IsErr (e : Fail) : Prop := ∃ x, e = .err x

/-- **C83, no panic.** If the metadata that was read when the file was opened is not absurd for the blocks with samples of
    the channels (`TameAt`: sizes that do not overflow, no first channel without values), a read does not panic, whatever
    the stream does now. -/
theorem any_stream_no_panic (h : (F₀.buildIndex al capacity₀ s₀).1 = .ok ix) (s : σ) (start : Nat) :
    (∀ c out, (∀ ls, ix.getChannelDataPositions c = some ls → TameAt ⟨ix, []⟩ ls) →
      OkOrErr (F.readChannelInto al capacity ty ix s c start out).1) ∧
    ∀ cs outs, (∀ c ∈ cs, ∀ ls, ix.getChannelDataPositions c = some ls → TameAt ⟨ix, []⟩ ls) →
      OkOrErr (F.readChannelsInto al capacity ty ix s cs start outs).1 := by
  obtain ⟨segs, _, hr⟩ := buildIndex_any_ok h
  have hi := (replay_refines hr).inv
  have hE : ∀ e, IsErr (.err e) := fun e => ⟨e, rfl⟩
  constructor
  · intro c out hok
    rcases readChannelLog_sat hE al ty (F.runner_keeps hE capacity) hi c start out s
      (Or.inr fun ls hls => ⟨hok ls hls, fun _ => sized_any h hls⟩) with ⟨⟨⟩, ha, _⟩ | ⟨_, he, x, rfl⟩
    · exact Or.inl ⟨_, ha⟩
    · exact Or.inr ⟨x, he⟩
  · intro cs outs hok
    rcases readChannelsLog_sat hE al ty (F.runner_keeps hE capacity) hi cs start outs s
      (Or.inr fun c hc ls hls => ⟨hok c hc ls hls, sized_any h hls⟩) with ⟨⟨⟩, ha, _⟩ | ⟨_, he, x, rfl⟩
    · exact Or.inl ⟨_, ha⟩
    · exact Or.inr ⟨x, he⟩

/-- **C83, buffers.** Whatever the stream does, and whether the read succeeds or not: the buffers keep their lengths, and a
    read of one channel has written some values to the front of its buffer, one cell after the other; the cells behind
    are as they were. -/
theorem any_stream_buffers (s : σ) (start : Nat) :
    (∀ c out, ∃ vs, vs.length ≤ out.length ∧
      (F.readChannelInto al capacity ty ix s c start out).2.1 = vs ++ out.drop vs.length) ∧
    ∀ cs outs, (F.readChannelsInto al capacity ty ix s cs start outs).2.1.map List.length = outs.map List.length := by
  constructor
  · intro c out
    by_cases ho : out = []
    · subst ho
      obtain ⟨out', h1, h2⟩ := applyAll_one (readChannelLog al ty (F.runner capacity) ix c start [] s).2.1 []
      refine ⟨[], Nat.le_refl _, ?_⟩
      show ((readChannelLog al ty (F.runner capacity) ix c start [] s).2.1.foldl CellStore.apply [[]]).headD [] = _
      rw [h2]
      exact List.length_eq_zero_iff.mp h1
    · obtain ⟨vs, h1, h2, _⟩ := readChannelLog_cut al ty (F.runner_fair capacity) ix c start out out s ho (Nat.le_refl _)
      refine ⟨vs, h1, ?_⟩
      show ((readChannelLog al ty (F.runner capacity) ix c start out s).2.1.foldl CellStore.apply [out]).headD [] = _
      rw [h2, apply_run vs 0 out (by omega), Nat.zero_add]
      rfl
  · intro cs outs
    exact applyAll_length _ outs

/-- **C83, shorter buffers.** With the same stream in the same state, reads of one channel with buffers of different
    lengths write the beginnings of one sequence. -/
theorem any_stream_sequence (v₀ : ty.Val) (s : σ) (c : ChannelPath) (start : Nat) :
    ∃ sample : Nat → Option ty.Val, (∀ i, sample i = none → sample (i + 1) = none) ∧
      ∀ (out : List ty.Val) (i : Nat), i < out.length →
        (F.readChannelInto al capacity ty ix s c start out).2.1[i]? = (sample i).or out[i]? := by
  obtain ⟨sample, h1, h2⟩ := readChannelLog_sequence al ty v₀ (F.runner_fair capacity) ix c start s
  exact ⟨sample, h1, fun out i hi => (h2 out).2 i hi⟩

end

/-- **C83, streams that hold a file.** For the streams of `Model/Device.lean` this is what C54 and C75 are about: the
    outcome of opening, the outcome of reading and the buffers are the same, and so is the stream afterwards. -/
theorem any_stream_device (al : Alloc) (capacity : Nat) (d : Device) (hlen : d.bytes.length < 2 ^ 64) :
    Source.device.buildIndex al capacity d = d.buildIndex al capacity ∧
    ∀ (ty : STy) (ix : Index) (start : Nat),
      (∀ c out, Source.device.readChannelInto al capacity ty ix d c start out =
        (let (r, o, h) := Handle.readChannelInto al capacity ty ⟨ix, d⟩ c start out; (r, o, h.dev))) ∧
      ∀ cs outs, Source.device.readChannelsInto al capacity ty ix d cs start outs =
        (let (r, o, h) := Handle.readChannelsInto al capacity ty ⟨ix, d⟩ cs start outs; (r, o, h.dev)) := by
  constructor
  · have hdev : (d.buildIndex al capacity).1 ≠ .error .hang := by
      obtain ⟨r, d', used, h1, _, _, h4⟩ := open_through_stream_partial al capacity d hlen
      rw [h1]
      rcases h4 with ⟨_, h4⟩ | ⟨k, _, h4⟩ | ⟨_, _, _, _, ix, _, _, _, _, h4⟩
      · obtain ⟨segs, last, hp⟩ := Parses.exists al d.bytes 0
        rw [h4, buildIndex_eq hp]
        intro hh
        obtain ⟨e, he⟩ := hp.last
        unfold openResult at hh
        obtain ⟨h1, h2⟩ := replay_refusal segs [] (ix := Index.new) rfl
        cases hr : refusal [] segs with
        | none =>
          obtain ⟨ix, hix⟩ := h2 hr
          rw [hix] at hh
          dsimp only at hh
          split at hh
          · cases hh
          · rw [he] at hh; cases hh
        | some x =>
          rw [h1 x hr] at hh
          cases hh
          obtain ⟨pre, seg, post, _, _, h6⟩ := (refusal_some segs []).mp hr
          unfold verdict at h6
          dsimp only at h6
          repeat (split at h6; · cases h6)
          cases h6
      · rw [h4]; intro h; cases h
      · rw [h4]; intro h; cases h
    unfold Source.buildIndex
    unfold Device.buildIndex at hdev ⊢
    revert hdev
    rw [show Source.device.seekStart d 0 = d.seekStart 0 from rfl]
    cases hs : d.seekStart 0 with
    | mk r d' =>
    cases r with
    | some k => intro _; rfl
    | none =>
      dsimp only
      intro hdev
      have hb : d'.bytes = d.bytes := by
        unfold Device.seekStart Device.seekOutcome at hs
        obtain ⟨bytes, pos, script⟩ := d
        cases script with
        | nil => cases hs; rfl
        | cons o script => cases o <;> cases hs <;> rfl
      rw [← Source.openLoop_device] at hdev ⊢
      have hle : d'.bytes.length / leadInBytes + 1 ≤ u64Lim / leadInBytes + 1 := by
        have : d'.bytes.length / leadInBytes ≤ u64Lim / leadInBytes := Nat.div_le_div_right (by rw [hb]; exact Nat.le_of_lt hlen)
        omega
      have := Source.openLoop_fuel Source.device al capacity (d'.bytes.length / leadInBytes + 1)
        (u64Lim / leadInBytes + 1 - (d'.bytes.length / leadInBytes + 1)) Index.new d' hdev
      rw [show d'.bytes.length / leadInBytes + 1 + (u64Lim / leadInBytes + 1 - (d'.bytes.length / leadInBytes + 1))
        = u64Lim / leadInBytes + 1 by omega] at this
      exact this
  · intro ty ix start
    constructor
    · intro c out
      unfold Source.readChannelInto Handle.readChannelInto
      rw [Source.runner_device]
    · intro cs outs
      unfold Source.readChannelsInto Handle.readChannelsInto
      rw [Source.runner_device]

/-! ## An example -/

/-- A stream that answers each `read` with the next of the given strings, wherever it is told to go. -/
def Source.answers : Source (List Bytes) where
  read s n := match s with
    | [] => (.ok [], [])
    | b :: s => (.ok (b.take n), s)
  seekStart s _ := (none, s)
  seekCurrent s _ := (none, s)

/-- It opens like the file whose bytes it gives, with the first segment only. Then it answers one read with other values
    than the next, and the third with one value and no more. -/
theorem any_stream_example :
    (Source.answers.buildIndex anyAlloc 8192 [(fileOf windowFile).take 4, ((fileOf windowFile).drop 4).take 4,
        (fileOf windowFile).drop 8]).1.map (fun ix =>
      let x := Source.answers.readChannelInto anyAlloc 8192 .u16 ix
        [[1, 0, 0, 0, 2, 0], [4, 0, 0, 0, 5, 0], [6, 0]] (chan "b") 1 (vals16 [0, 0])
      let y := Source.answers.readChannelInto anyAlloc 8192 .u16 ix x.2.2 (chan "b") 1 (vals16 [0, 0])
      let z := Source.answers.readChannelInto anyAlloc 8192 .u16 ix y.2.2 (chan "b") 1 (vals16 [0, 0])
      [(decide (x.1 = .ok ()), List.map BitVec.toNat x.2.1), (decide (y.1 = .ok ()), List.map BitVec.toNat y.2.1),
        (decide (z.1 = R.err (.ioError .unexpectedEof)), List.map BitVec.toNat z.2.1)])
    = .ok [(true, [1, 2]), (true, [4, 5]), (true, [6, 0])] := by
  decide +kernel

/-- No stream that takes the place of that file after it was opened can make reads of the channel panic. -/
theorem any_stream_no_panic_example : ∃ ix : Index,
    (Source.device.buildIndex anyAlloc 8192 ⟨fileOf windowFile, 0, []⟩).1 = .ok ix ∧
    ∀ (σ : Type) (F : Source σ) (s : σ) (start : Nat) (out : List STy.u16.Val),
      OkOrErr (F.readChannelInto anyAlloc 8192 .u16 ix s (chan "b") start out).1 := by
  obtain ⟨t, ht, hr, hlen, _, hreg, _, _⟩ := windowFile_regular
  have hb : t.bytes = fileOf windowFile := (opened ht).1
  have hopen : (Source.device.buildIndex anyAlloc 8192 ⟨fileOf windowFile, 0, []⟩).1 = .ok t.index := by
    rw [(any_stream_device anyAlloc 8192 ⟨fileOf windowFile, 0, []⟩ (by decide +kernel)).1]
    rw [open_any_chunking anyAlloc 8192 _ (by decide +kernel) (fun o ho => absurd ho List.not_mem_nil)]
    unfold TdmsFile.new at ht
    obtain ⟨ix, h1, h2⟩ := bind_ok_iff.mp ht
    cases h2
    exact h1
  refine ⟨t.index, hopen, fun σ F s start out => (any_stream_no_panic F anyAlloc 8192 .u16 hopen s start).1 _ out ?_⟩
  intro ls hls
  have := tame_of_regular hr (by rw [hb]; decide +kernel) (fun pre hp _ => (hreg pre hp).1) hls
  exact this

end Tedium
