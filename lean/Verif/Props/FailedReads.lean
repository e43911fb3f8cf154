import Verif.Proofs.StoresFile
import Verif.Props.Growing
import Verif.Props.Handle

/-!
# C67: what a read leaves in the caller's buffers, also when it fails

`readChannelFrom` and `readChannelsFrom` give the buffers when they succeed. `readChannelInto` and `readChannelsInto`
(`Model/Stores.lean`) give the buffers in any case: they assign one cell at a time, as the code does.
-/

namespace Tedium
open SegSpec WriteSpec Faults ReadSpec
open Prog (run run_length run_take)

/-! ## Agreement -/

/-- C67. The two models of a read agree: on whether it succeeds, on the error, and, if it succeeds, on the buffer. -/
theorem read_into_agrees (al : Alloc) (ty : STy) (t : TdmsFile) (c : ChannelPath) (start : Nat) (out : List ty.Val) :
    (t.readChannelInto al ty c start out).1 = (t.readChannelFrom (ty.storage al) c start out).map (fun _ => ()) ∧
    ∀ r, t.readChannelFrom (ty.storage al) c start out = .ok r → (t.readChannelInto al ty c start out).2 = r := by
  unfold TdmsFile.readChannelInto readChannelLog TdmsFile.readChannelFrom
  dsimp only
  cases t.index.getChannelDataPositions c with
  | none => exact ⟨rfl, nofun⟩
  | some ls =>
    dsimp only
    cases readPlan [ls] start with
    | error e => exact ⟨rfl, nofun⟩
    | ok plan =>
      have h1 := executePlanInto_contents (Act.denote_value al ty) t.index plan [⟨out, 0⟩] t.bytes
      have h2 := executePlanInto_outputs (S := ty.storage al) (rd := Act.value al ty) Runner.contents t.index plan
        [(⟨out, 0⟩ : Progress ty.Val)]
      dsimp only
      refine ⟨?_, ?_⟩
      · rw [h1]
        dsimp only [bind, Except.bind, pure, Except.pure]
        cases executePlan (ty.storage al) t plan [⟨out, 0⟩] <;> rfl
      · intro r hr
        dsimp only [bind, Except.bind, pure, Except.pure] at hr
        cases hps : executePlan (ty.storage al) t plan [⟨out, 0⟩] with
        | error e => rw [hps] at hr; cases hr
        | ok ps =>
          rw [hps] at hr
          cases hr
          exact congrArg (fun x => x.headD []) (h2 ps t.bytes (h1.trans hps)).symm

/-- The same for several channels. -/
theorem read_many_into_agrees (al : Alloc) (ty : STy) (t : TdmsFile) (cs : List ChannelPath) (start : Nat)
    (outs : List (List ty.Val)) :
    (t.readChannelsInto al ty cs start outs).1 = (t.readChannelsFrom (ty.storage al) cs start outs).map (fun _ => ()) ∧
    ∀ r, t.readChannelsFrom (ty.storage al) cs start outs = .ok r → (t.readChannelsInto al ty cs start outs).2 = r := by
  unfold TdmsFile.readChannelsInto readChannelsLog TdmsFile.readChannelsFrom
  have hl : TdmsFile.lookupPositions ⟨t.index, []⟩ cs = t.lookupPositions cs := lookupPositions_congr (fun _ _ => rfl)
  dsimp only
  rw [hl]
  cases t.lookupPositions cs with
  | error e => exact ⟨rfl, nofun⟩
  | ok positions =>
    dsimp only [bind, Except.bind, pure, Except.pure]
    cases readPlan positions start with
    | error e => exact ⟨rfl, nofun⟩
    | ok plan =>
      have h1 := executePlanInto_contents (Act.denote_value al ty) t.index plan (outs.map (fun o => (⟨o, 0⟩ : Progress ty.Val))) t.bytes
      have h2 := executePlanInto_outputs (S := ty.storage al) (rd := Act.value al ty) Runner.contents t.index plan
        (outs.map (fun o => (⟨o, 0⟩ : Progress ty.Val)))
      dsimp only
      refine ⟨?_, ?_⟩
      · rw [h1]
        cases executePlan (ty.storage al) t plan (outs.map (fun o => ⟨o, 0⟩)) <;> rfl
      · intro r hr
        cases hps : executePlan (ty.storage al) t plan (outs.map (fun o => ⟨o, 0⟩)) with
        | error e => rw [hps] at hr; cases hr
        | ok ps =>
          rw [hps] at hr
          cases hr
          rw [h2 ps t.bytes (h1.trans hps), List.map_map]
          congr 1
          exact (List.map_id _).symm

/-- The same over a stream. -/
theorem stream_read_into_agrees (al : Alloc) (capacity : Nat) (ty : STy) (h : Handle) (c : ChannelPath) (start : Nat)
    (out : List ty.Val) :
    (h.readChannelInto al capacity ty c start out).1
      = (h.readChannelFrom al capacity ty c start out).1.map (fun _ => ()) ∧
    (h.readChannelInto al capacity ty c start out).2.2 = (h.readChannelFrom al capacity ty c start out).2 ∧
    ∀ r, (h.readChannelFrom al capacity ty c start out).1 = .ok r → (h.readChannelInto al capacity ty c start out).2.1 = r := by
  unfold Handle.readChannelInto readChannelLog Handle.readChannelFrom
  dsimp only
  cases h.index.getChannelDataPositions c with
  | none => exact ⟨rfl, rfl, nofun⟩
  | some ls =>
    dsimp only
    cases readPlan [ls] start with
    | error e => exact ⟨rfl, rfl, nofun⟩
    | ok plan =>
      have h1 := executePlanInto_stream (S := ty.storage al) (rd := Act.value al ty) capacity h.index plan [⟨out, 0⟩] h.dev
      have h2 := executePlanInto_outputs (S := ty.storage al) (rd := Act.value al ty) (Runner.stream capacity) h.index plan
        [(⟨out, 0⟩ : Progress ty.Val)]
      dsimp only
      rw [← h1]
      have h3 := fun ps => h2 ps h.dev
      revert h3
      cases executePlanInto (ty.storage al) (Act.value al ty) (Runner.stream capacity) h.index plan [⟨out, 0⟩] h.dev with
      | mk r x =>
      intro h3
      cases r with
      | error e => exact ⟨rfl, rfl, nofun⟩
      | ok ps =>
        refine ⟨rfl, rfl, ?_⟩
        intro r hr
        cases hr
        rw [h3 ps rfl]
        rfl

/-- The same over a stream, for several channels. -/
theorem stream_read_many_into_agrees (al : Alloc) (capacity : Nat) (ty : STy) (h : Handle) (cs : List ChannelPath) (start : Nat)
    (outs : List (List ty.Val)) :
    (h.readChannelsInto al capacity ty cs start outs).1
      = (h.readChannelsFrom al capacity ty cs start outs).1.map (fun _ => ()) ∧
    (h.readChannelsInto al capacity ty cs start outs).2.2 = (h.readChannelsFrom al capacity ty cs start outs).2 ∧
    ∀ r, (h.readChannelsFrom al capacity ty cs start outs).1 = .ok r →
      (h.readChannelsInto al capacity ty cs start outs).2.1 = r := by
  unfold Handle.readChannelsInto readChannelsLog Handle.readChannelsFrom
  have hl : TdmsFile.lookupPositions ⟨h.index, []⟩ cs = h.file.lookupPositions cs := lookupPositions_congr (fun _ _ => rfl)
  dsimp only
  rw [hl]
  cases h.file.lookupPositions cs with
  | error e => exact ⟨rfl, rfl, nofun⟩
  | ok positions =>
    dsimp only
    cases readPlan positions start with
    | error e => exact ⟨rfl, rfl, nofun⟩
    | ok plan =>
      have h1 := executePlanInto_stream (S := ty.storage al) (rd := Act.value al ty) capacity h.index plan
        (outs.map (fun o => (⟨o, 0⟩ : Progress ty.Val))) h.dev
      have h2 := executePlanInto_outputs (S := ty.storage al) (rd := Act.value al ty) (Runner.stream capacity) h.index plan
        (outs.map (fun o => (⟨o, 0⟩ : Progress ty.Val)))
      dsimp only
      rw [← h1]
      have h3 := fun ps => h2 ps h.dev
      revert h3
      cases executePlanInto (ty.storage al) (Act.value al ty) (Runner.stream capacity) h.index plan
        (outs.map (fun o => ⟨o, 0⟩)) h.dev with
      | mk r x =>
      intro h3
      cases r with
      | error e => exact ⟨rfl, rfl, nofun⟩
      | ok ps =>
        refine ⟨rfl, rfl, ?_⟩
        intro r hr
        cases hr
        rw [h3 ps rfl, List.map_map]
        congr 1
        exact (List.map_id _).symm

/-! ## What is in the buffer -/

/-- The beginnings of one sequence of samples: what a read leaves, for each buffer that it is given. -/
def FillsFrom {α : Type} (sample : Nat → Option α) (read : List α → List α) : Prop :=
  (∀ i, sample i = none → sample (i + 1) = none) ∧
  ∀ out, (read out).length = out.length ∧ ∀ i, i < out.length → (read out)[i]? = (sample i).or out[i]?

/-- C67. Whether it fails or not, a read of one channel fills the front of the buffer with the beginning of one sequence
    of samples, that depends on the file, the channel and the start only, and leaves all the cells behind as they were.
    Only the length of the buffer and the point where a failing read stops decide how many. -/
theorem read_into_sequence (al : Alloc) (ty : STy) (t : TdmsFile) (c : ChannelPath) (start : Nat) :
    ∃ sample : Nat → Option ty.Val, FillsFrom sample (fun out => (t.readChannelInto al ty c start out).2) :=
  readChannelLog_sequence al ty ty.two_values.choose Runner.contents_fair t.index c start t.bytes

/-- C67. The same over a stream, whatever it does: the length of the buffer makes no difference to the cells in front. -/
theorem stream_read_into_sequence (al : Alloc) (capacity : Nat) (ty : STy) (h : Handle) (c : ChannelPath) (start : Nat) :
    ∃ sample : Nat → Option ty.Val, FillsFrom sample (fun out => (h.readChannelInto al capacity ty c start out).2.1) :=
  readChannelLog_sequence al ty ty.two_values.choose (Runner.stream_fair capacity) h.index c start h.dev

theorem FillsFrom.front {ty : STy} {sample : Nat → Option ty.Val} {read : List ty.Val → List ty.Val} (hs : FillsFrom sample read)
    {n : Nat} {vals : List ty.Val} (h1 : vals.length ≤ n)
    (h2 : ∀ out, out.length = n → read out = vals ++ out.drop vals.length) (out : List ty.Val) (hn : n ≤ out.length) :
    vals <+: read out := by
  obtain ⟨a, b, hab⟩ := ty.two_values
  have key : ∀ i, i < vals.length → sample i = vals[i]? := by
    intro i hi
    have e : ∀ v, (sample i).or (some v) = vals[i]? := by
      intro v
      have := (hs.2 (List.replicate n v)).2 i (by simp; omega)
      rw [h2 _ (by simp), List.getElem?_append_left hi, List.getElem?_replicate, if_pos (by omega)] at this
      exact this.symm
    have ea := e a
    have eb := e b
    cases hsi : sample i with
    | none =>
      rw [hsi] at ea eb
      exact absurd (Option.some.inj (ea.trans eb.symm)) hab
    | some v => rw [hsi] at ea; exact ea
  rw [List.prefix_iff_getElem?]
  intro i hi
  rw [(hs.2 out).2 i (by omega), key i hi, List.getElem?_eq_getElem hi]
  rfl

/-- C67. A failing read has still delivered all that can be read: if a read into `n` cells succeeds and stores `vals`, then a
    read into a longer buffer, even if it fails, begins with `vals`. -/
theorem failed_read_delivers (al : Alloc) (ty : STy) (t : TdmsFile) (c : ChannelPath) (start n : Nat) {vals : List ty.Val}
    (h : Delivers (ty.storage al) t c start n vals) (out : List ty.Val) (hn : n ≤ out.length) :
    vals <+: (t.readChannelInto al ty c start out).2 := by
  obtain ⟨sample, hs⟩ := read_into_sequence al ty t c start
  exact hs.front h.1 (fun o ho => (read_into_agrees al ty t c start o).2 _ (h.2 o ho)) out hn

/-- C67. The same over a stream: a read of `n` cells that would have succeeded, on the same stream in the same state. -/
theorem failed_stream_read_delivers (al : Alloc) (capacity : Nat) (ty : STy) (h : Handle) (c : ChannelPath) (start n : Nat)
    {vals : List ty.Val} (hv : vals.length ≤ n)
    (hr : ∀ out : List ty.Val, out.length = n →
      (h.readChannelFrom al capacity ty c start out).1 = .ok (vals ++ out.drop vals.length))
    (out : List ty.Val) (hn : n ≤ out.length) : vals <+: (h.readChannelInto al capacity ty c start out).2.1 := by
  obtain ⟨sample, hs⟩ := stream_read_into_sequence al capacity ty h c start
  exact hs.front hv (fun o ho => (stream_read_into_agrees al capacity ty h c start o).2.2 _ (hr o ho)) out hn

/-! ## Streams -/

/-- C67. A read over a stream that fails leaves a front part of what the read should have left, and the cells behind it as
    they were. -/
theorem failed_stream_read (al : Alloc) (split : Bytes → List Bytes) (capacity : Nat) (h : Handle)
    (hr : Reached al split capacity h) (hlen : h.dev.bytes.length < 2 ^ 64) (ty : STy) (c : ChannelPath)
    (start : Nat) (out : List ty.Val) :
    ∃ n, n ≤ out.length ∧ (h.readChannelInto al capacity ty c start out).2.1
      = (TdmsFile.readChannelInto al ty ⟨h.index, h.dev.bytes⟩ c start out).2.take n ++ out.drop n := by
  by_cases ho : out = []
  · subst ho
    refine ⟨0, Nat.le_refl _, ?_⟩
    obtain ⟨o, h1, h2⟩ := applyAll_one (readChannelLog al ty (Runner.stream capacity) h.index c start [] h.dev).2.1 ([] : List ty.Val)
    show ((readChannelLog al ty (Runner.stream capacity) h.index c start [] h.dev).2.1.foldl CellStore.apply [[]]).headD [] = _
    rw [h2]
    exact List.length_eq_zero_iff.mp h1
  · obtain ⟨vs, h1, h2, h3⟩ := readChannelInto_run al ty ⟨h.index, h.dev.bytes⟩ c start out ho
    rw [h3]
    refine run_prefix ty (log := (readChannelLog al ty (Runner.stream capacity) h.index c start out h.dev).2.1) ?_ h1
    rw [← h2]
    rcases Option.eq_none_or_eq_some (h.index.getChannelDataPositions c) with hp | ⟨ls, hp⟩
    · unfold readChannelLog
      rw [hp]
      exact List.nil_prefix
    · rw [readChannelLog_unfold al ty _ _ c start out _ hp, readChannelLog_unfold al ty _ _ c start out _ hp]
      rcases executePlanInto_stream_less (S := ty.storage al) (rd := Act.value al ty) capacity hr.startsFit (planOne ls start)
        [⟨out, 0⟩] h.dev hlen with ⟨_, e⟩ | ⟨_, e⟩
      · rw [e]; exact List.prefix_rfl
      · exact e

/-- C67. The same for several channels: the cells assigned by a read that fails are, in the same order, the first of those
    that the read should have assigned, with the same values. -/
theorem failed_stream_read_many_partial (al : Alloc) (split : Bytes → List Bytes) (capacity : Nat) (h : Handle)
    (hr : Reached al split capacity h) (hlen : h.dev.bytes.length < 2 ^ 64) (ty : STy) (cs : List ChannelPath)
    (start : Nat) (outs : List (List ty.Val)) :
    (readChannelsLog al ty (Runner.stream capacity) h.index cs start outs h.dev).2.1
      <+: (readChannelsLog al ty Runner.contents h.index cs start outs h.dev.bytes).2.1 := by
  unfold readChannelsLog
  cases TdmsFile.lookupPositions ⟨h.index, []⟩ cs with
  | error e => exact List.nil_prefix
  | ok positions =>
    dsimp only
    cases readPlan positions start with
    | error e => exact List.nil_prefix
    | ok plan =>
      rcases executePlanInto_stream_less (S := ty.storage al) (rd := Act.value al ty) capacity hr.startsFit plan
        (outs.map (fun o => ⟨o, 0⟩)) h.dev hlen with ⟨_, e⟩ | ⟨_, e⟩
      · dsimp only; rw [e]; exact List.prefix_rfl
      · exact e

/-! ## Files that end too early -/

theorem read_into_front {al : Alloc} {t t' : TdmsFile} (hg : Grows t t') (hi : IndexGrows t.index t'.index) (ty : STy)
    (c : ChannelPath) (start : Nat) (out : List ty.Val) :
    ∃ n, n ≤ out.length ∧
      (t.readChannelInto al ty c start out).2 = (t'.readChannelInto al ty c start out).2.take n ++ out.drop n := by
  by_cases ho : out = []
  · subst ho
    refine ⟨0, Nat.le_refl _, ?_⟩
    obtain ⟨o, h1, h2⟩ := applyAll_one (readChannelLog al ty Runner.contents t.index c start [] t.bytes).2.1 ([] : List ty.Val)
    show ((readChannelLog al ty Runner.contents t.index c start [] t.bytes).2.1.foldl CellStore.apply [[]]).headD [] = _
    rw [h2]
    exact List.length_eq_zero_iff.mp h1
  · obtain ⟨vs, h1, h2, h3⟩ := readChannelInto_run al ty t' c start out ho
    rw [h3]
    refine run_prefix ty (log := (readChannelLog al ty Runner.contents t.index c start out t.bytes).2.1) ?_ h1
    rw [← h2]
    rcases Option.eq_none_or_eq_some (t.index.getChannelDataPositions c) with hpos | ⟨ls, hpos⟩
    · unfold readChannelLog
      rw [hpos]
      exact List.nil_prefix
    · have hpos' : ∃ more, t'.index.getChannelDataPositions c = some (ls ++ more) := by
        unfold Index.getChannelDataPositions at hpos ⊢
        cases hob : t.index.objects.get? c.path with
        | none => rw [hob] at hpos; cases hpos
        | some o =>
          rw [hob] at hpos
          cases hpos
          obtain ⟨o', i1, more, i2⟩ := hi.objects c.path o hob
          exact ⟨more, by rw [i1]; exact congrArg some i2.symm⟩
      obtain ⟨moreLocs, hpos'⟩ := hpos'
      rw [readChannelLog_unfold al ty _ _ c start out _ hpos, readChannelLog_unfold al ty _ _ c start out _ hpos']
      obtain ⟨rest, hrest⟩ := planOne_append ls moreLocs start
      rw [hrest]
      exact executePlanInto_grows hg _ rest _

/-- C67. A read of a file that is not complete leaves a front part of what the same read leaves when the file is complete,
    and the cells behind it as they were, also if it fails. -/
theorem failed_read_of_part {al : Alloc} {f g : Bytes} {t t' : TdmsFile} (h : TdmsFile.new al f = .ok t)
    (h' : TdmsFile.new al (f ++ g) = .ok t') (ty : STy) (c : ChannelPath) (start : Nat) (out : List ty.Val) :
    ∃ n, n ≤ out.length ∧
      (t.readChannelInto al ty c start out).2 = (t'.readChannelInto al ty c start out).2.take n ++ out.drop n := by
  obtain ⟨hb, segs, hp, hr⟩ := opened h
  obtain ⟨hb', segs', hp', hr'⟩ := opened h'
  obtain ⟨more, last, hm⟩ := parses_grow g hp
  obtain ⟨rfl, _⟩ := hp'.unique hm
  rw [replay_append, hr] at hr'
  have hi := IndexGrows.replay hr'
  exact read_into_front ⟨⟨g, by rw [hb, hb']⟩, hi.blocks⟩ hi ty c start out

/-! ## Buffers keep their lengths -/

/-- C67. No read changes the number of buffers or their lengths. -/
theorem read_into_lengths (al : Alloc) (capacity : Nat) (ty : STy) (t : TdmsFile) (h : Handle) (cs : List ChannelPath) (start : Nat)
    (outs : List (List ty.Val)) :
    (t.readChannelsInto al ty cs start outs).2.map List.length = outs.map List.length ∧
    (h.readChannelsInto al capacity ty cs start outs).2.1.map List.length = outs.map List.length :=
  ⟨applyAll_length _ _, applyAll_length _ _⟩

/-! ## Examples -/

/-- The outcome of a read into a buffer, in numbers: whether it succeeded, and the buffer. -/
def intoNums (x : R Unit × List (STy.Val .u16)) : Bool × List Nat := (x.1.isOk, x.2.map BitVec.toNat)

/-- `windowFile` without its last three bytes opens, a read of its last samples fails, and the buffer holds those that are
    still there. A read of fewer samples succeeds. -/
theorem cut_file_example : (TdmsFile.new anyAlloc ((fileOf windowFile).take ((fileOf windowFile).length - 3))).map (fun t =>
      (intoNums (t.readChannelInto anyAlloc .u16 (chan "b") 0 (vals16 [90, 91, 92, 93, 94, 95, 96])),
       intoNums (t.readChannelInto anyAlloc .u16 (chan "b") 0 (vals16 [90, 91, 92, 93])),
       decide ((t.readChannelFrom (STy.storage anyAlloc .u16) (chan "b") 0 (vals16 [90, 91, 92, 93, 94, 95, 96])).isOk = true)))
    = .ok ((false, [10, 11, 12, 13, 14, 95, 96]), (true, [10, 11, 12, 13]), false) := by
  decide +kernel

/-- The whole file. -/
theorem whole_file_example : (TdmsFile.new anyAlloc (fileOf windowFile)).map (fun t =>
      intoNums (t.readChannelInto anyAlloc .u16 (chan "b") 0 (vals16 [90, 91, 92, 93, 94, 95, 96])))
    = .ok (true, [10, 11, 12, 13, 14, 15, 96]) := by
  decide +kernel

/-- A stream that fails in the middle of a read, after the first segment: the buffer holds three samples, as many
    as could have been read without failing. The same read then succeeds. -/
theorem failing_stream_example : (Handle.new anyAlloc 8192 ⟨fileOf windowFile, 0, List.replicate 14 (.short 8191) ++ [.fail 7]⟩).map
      (fun h =>
        let (r0, b0, _) := h.readChannelInto anyAlloc 8192 .u16 (chan "b") 1 (vals16 [90, 91, 92])
        let (r1, b1, h) := h.readChannelInto anyAlloc 8192 .u16 (chan "b") 1 (vals16 [90, 91, 92, 93])
        let (r2, b2, _) := h.readChannelInto anyAlloc 8192 .u16 (chan "b") 1 (vals16 [90, 91, 92, 93])
        (intoNums (r0, b0), intoNums (r1, b1), intoNums (r2, b2)))
    = .ok ((true, [11, 12, 13]), (false, [11, 12, 13, 93]), (true, [11, 12, 13, 14])) := by
  decide +kernel

/-- The calls of a program: `a` and `b`, then `c` and `a`, then `b` and `a`. -/
def threeWrites : List Op :=
  [writeU16 ["a", "b"] [1, 2, 3, 4, 5, 6], writeU16 ["c", "a"] [9, 9, 7, 8], writeU16 ["b", "a"] [6, 6, 10, 11]]

/-- C67 is false for reads of several channels. The file is cut off inside its last segment. Reading `a` and `b` together
    fails, and leaves 1, 7, 8 at the front of the buffer for `a`, although `a` begins with 1, 2, 3, 7, as reading it alone
    shows. -/
theorem failed_joint_read_counterexample :
    (TdmsFile.new anyAlloc ((session threeWrites).bytes.take ((session threeWrites).bytes.length - 3))).map (fun t =>
      let x := t.readChannelsInto anyAlloc .u16 [chan "a", chan "b"] 0 [vals16 [90, 91, 92, 93], vals16 [94]]
      (x.1.isOk, x.2.map (·.map BitVec.toNat), intoNums (t.readChannelInto anyAlloc .u16 (chan "a") 0 (vals16 [90, 91, 92, 93]))))
    = .ok (false, [[1, 7, 8, 93], [4]], (true, [1, 2, 3, 7])) := by
  decide +kernel

end Tedium
