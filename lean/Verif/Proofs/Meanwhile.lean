import Verif.Proofs.Growing
import Verif.Proofs.StoresFile

/-! # Calls on a stream that grows -/

namespace Tedium
open SegSpec Faults

/-! ## Opening -/

/-- `build_index` with a given bound for the number of segments. -/
def Device.openWith (al : Alloc) (capacity fuel : Nat) (d : Device) : R Index × Device :=
  match d.seekStart 0 with
  | (some kind, d) => (R.err (.ioError kind), d)
  | (none, d) => d.openLoop al capacity fuel Index.new

theorem Device.openWith_spec (al : Alloc) (capacity fuel : Nat) (d : Device) (hd : d.bytes.length < 2 ^ 64)
    {segs : List Segment} {last : Fail} (h : Parses al d.bytes 0 segs last) (hfuel : d.bytes.length / leadInBytes < fuel) :
    ∃ used, d.script = used ++ (d.openWith al capacity fuel).2.script ∧ (d.openWith al capacity fuel).2.bytes = d.bytes ∧
      Indexed used (d.openWith al capacity fuel).1 Index.new segs last := by
  unfold Device.openWith
  obtain ⟨used, h1, h2, h3⟩ := d.seekStart_spec 0
  cases hs : d.seekStart 0 with
  | mk r d' =>
  rw [hs] at h1 h2 h3
  cases r with
  | some kind =>
    exact ⟨used, h1, h2, Or.inl (Or.inr ⟨kind, h3, rfl⟩)⟩
  | none =>
    dsimp only at h1 h2 h3 ⊢
    have hfuel : segs.length < fuel := by
      rcases h.length with hl | hl
      · rw [hl]; exact Nat.lt_of_le_of_lt (Nat.zero_le _) hfuel
      · unfold leadInBytes at hfuel; omega
    obtain ⟨used', i1, i2, i3⟩ := Device.openLoop_spec al capacity d.bytes hd h _ Index.new d' hfuel rfl h2 h3.2
    refine ⟨used ++ used', by rw [List.append_assoc, ← i1]; exact h1, i2, ?_⟩
    rcases i3 with i3 | ⟨c, pre, post, ix, hc, rest⟩
    · exact Or.inl (i3.after h3.1)
    · exact Or.inr ⟨c, pre, post, ix, hc.after h3.1, rest⟩

theorem Growing.buildIndex_follows (al : Alloc) (capacity : Nat) (g : Growing) :
    Follows g False (g.buildIndex al capacity).2 (fun d => d.openWith al capacity (g.total / leadInBytes + 1))
      (fun d => ((g.buildIndex al capacity).1, d)) := by
  unfold Growing.buildIndex
  have hr := g.seekStart_follows 0
  have ht : (g.seekStart 0).2.total = g.total := by
    obtain ⟨_, _, _, _, h, _⟩ := hr
    exact h.total
  cases hx : g.seekStart 0 with
  | mk r g1 =>
  rw [hx] at hr ht
  cases r with
  | some kind =>
    refine hr.last False.elim ?_
    intro d d' hd
    unfold Device.openWith
    dsimp only at hd ⊢
    rw [hd]
  | none =>
    dsimp only at ht ⊢
    rw [ht]
    refine hr.then trivial (g1.openLoop_follows al capacity _ Index.new) ?_
    intro d d' hd
    unfold Device.openWith
    dsimp only at hd ⊢
    rw [hd]

/-- The stream that has the final contents from the beginning. -/
theorem Follows.final {β : Type} {g g' : Growing} {good : Prop} {f e : Device → β} (h : Follows g good g' f e) :
    ∃ used sim, g.dev.script = used ++ g'.dev.script ∧ Mirrors used sim g'.dev.script ∧ g.Later g' ∧
      f ⟨g'.contents, g.dev.pos, sim⟩ = e ⟨g'.contents, g'.dev.pos, []⟩ := by
  obtain ⟨used, sim, h1, h2, h3, h4⟩ := h
  have := h4 _ (Or.inl rfl) []
  rw [List.append_nil] at this
  exact ⟨used, sim, h1, h2, h3, this⟩

theorem Growing.contents_le (g : Growing) : g.contents.length ≤ g.total := Nat.le_add_right _ _

theorem Growing.buildIndex_told (al : Alloc) (capacity : Nat) (g : Growing) (hlen : g.total < 2 ^ 64)
    {segs : List Segment} {last : Fail} (h : Parses al (g.buildIndex al capacity).2.contents 0 segs last) :
    g.Later (g.buildIndex al capacity).2 ∧ ∃ used, g.dev.script = used ++ (g.buildIndex al capacity).2.dev.script ∧
      Indexed used (g.buildIndex al capacity).1 Index.new segs last := by
  obtain ⟨used, sim, h1, h2, h3, h4⟩ := (g.buildIndex_follows al capacity).final
  have hle : (g.buildIndex al capacity).2.contents.length ≤ g.total := h3.total ▸ Growing.contents_le _
  refine ⟨h3, used, h1, ?_⟩
  obtain ⟨used', i1, _, i3⟩ := Device.openWith_spec al capacity (g.total / leadInBytes + 1)
    ⟨(g.buildIndex al capacity).2.contents, g.dev.pos, sim⟩ (by dsimp only; omega) h
    (by dsimp only; exact Nat.lt_succ_of_le (Nat.div_le_div_right hle))
  rw [h4] at i1 i3
  dsimp only at i1 i3
  rw [List.append_nil] at i1
  subst i1
  rcases i3 with (⟨hn, i3⟩ | ⟨c, hc, i3⟩) | ⟨c, pre, post, ix, hc, rest⟩
  · exact Or.inl (Or.inl ⟨h2.noFailure hn, i3⟩)
  · exact Or.inl (Or.inr ⟨c, h2.failed hc, i3⟩)
  · exact Or.inr ⟨c, pre, post, ix, h2.failed hc, rest⟩

theorem Growing.buildIndex_startsFit {al : Alloc} {capacity : Nat} {g : Growing} {ix : Index}
    (h : (g.buildIndex al capacity).1 = .ok ix) : StartsFit ix := by
  obtain ⟨used, sim, h1, h2, h3, h4⟩ := (g.buildIndex_follows al capacity).final
  rw [h] at h4
  unfold Device.openWith at h4
  split at h4
  · cases h4
  · exact Device.openLoop_startsFit _ _ _ _ _ StartsFit.new h4

/-! ## Reading -/

/-- What a read did on a stream: what the contents determine, or less because an operation of the stream failed. -/
def Told {α β : Type} (used : List ReadOutcome) (r r' : R α) (log log' : List β) : Prop :=
  (NoFailure used ∧ r = r' ∧ log = log') ∨ ∃ kind, Failed used kind ∧ r = R.err (.ioError kind) ∧ log <+: log'

section
variable {α : Type} (S : Storage α) (rd : Endian → Act α)

theorem executeBlockInto_stream_told (capacity : Nat) {ix : Index} (hs : StartsFit ix) (loc : BlockRead)
    (ps : List (Progress α)) (d : Device) (hd : d.bytes.length < 2 ^ 64) :
    ∃ used, d.script = used ++ (executeBlockInto S rd (Runner.stream capacity) ix loc ps d).2.2.script ∧
      (executeBlockInto S rd (Runner.stream capacity) ix loc ps d).2.2.bytes = d.bytes ∧
      Told used (executeBlockInto S rd (Runner.stream capacity) ix loc ps d).1
        (executeBlockInto S rd Runner.contents ix loc ps d.bytes).1
        (executeBlockInto S rd (Runner.stream capacity) ix loc ps d).2.1
        (executeBlockInto S rd Runner.contents ix loc ps d.bytes).2.1 := by
  unfold executeBlockInto
  dsimp only
  generalize List.any loc.channelIndexes _ = anySkip
  cases hb : ix.getDataBlock loc.dataBlock with
  | none => exact ⟨[], rfl, rfl, Or.inl ⟨.nil, rfl, rfl⟩⟩
  | some b =>
    dsimp only
    cases b.program S rd anySkip (blockRequests 0 loc.channelIndexes ps) with
    | error e => exact ⟨[], rfl, rfl, Or.inl ⟨.nil, rfl, rfl⟩⟩
    | ok a =>
      dsimp only
      have hstart : b.start < 2 ^ 64 := hs b (List.mem_of_getElem? hb)
      have key : ∃ used, d.script = used ++ (Runner.stream capacity b.start a d).2.script ∧
          (Runner.stream capacity b.start a d).2.bytes = d.bytes ∧
          Prog.TellsShort used (Runner.stream capacity b.start a d).1 (a.runOn d.bytes b.start) := by
        unfold Runner.stream BufReader.seekStart
        obtain ⟨used, h1, h2, h3⟩ := d.seekStart_spec b.start
        dsimp only [BufReader.new]
        cases hx : d.seekStart b.start with
        | mk r d' =>
        rw [hx] at h1 h2 h3
        cases r with
        | some kind => exact ⟨used, h1, h2, Or.inr ⟨kind, h3, rfl, List.nil_prefix⟩⟩
        | none =>
          dsimp only at h1 h2 h3 ⊢
          have hat := Stands.new capacity d'
          rw [h2, h3.2] at hat
          obtain ⟨used', i1, i2, i3⟩ := Prog.runBuf_spec hd a b.start _ hat hstart
          exact ⟨used ++ used', by rw [List.append_assoc]; exact h1.trans (congrArg (used ++ ·) i1), i2, i3.after h3.1⟩
      have hc : Runner.contents b.start a d.bytes = (a.runOn d.bytes b.start, d.bytes) := rfl
      rw [hc]
      obtain ⟨used, h1, h2, h3⟩ := key
      refine ⟨used, ?_⟩
      revert h1 h2 h3
      cases Runner.stream capacity b.start a d with
      | mk x d1 =>
      cases a.runOn d.bytes b.start with
      | mk r' ss' =>
      obtain ⟨r, ss⟩ := x
      intro h1 h2 h3
      dsimp only at h1 h2
      rcases h3 with ⟨hn, h3⟩ | ⟨kind, hk, h3, h4⟩
      · cases h3
        cases r' with
        | error e => exact ⟨h1, h2, Or.inl ⟨hn, rfl, rfl⟩⟩
        | ok v => exact ⟨h1, h2, Or.inl ⟨hn, rfl, rfl⟩⟩
      · dsimp only at h3 h4
        subst h3
        refine ⟨h1, h2, Or.inr ⟨kind, hk, rfl, ?_⟩⟩
        have h5 := h4.map (CellStore.inSlice ps)
        cases r' with
        | error e => exact h5
        | ok v => exact h5

theorem executePlanInto_stream_told (capacity : Nat) {ix : Index} (hs : StartsFit ix) (locs : List BlockRead) :
    ∀ (ps : List (Progress α)) (d : Device), d.bytes.length < 2 ^ 64 →
    ∃ used, d.script = used ++ (executePlanInto S rd (Runner.stream capacity) ix locs ps d).2.2.script ∧
      (executePlanInto S rd (Runner.stream capacity) ix locs ps d).2.2.bytes = d.bytes ∧
      Told used (executePlanInto S rd (Runner.stream capacity) ix locs ps d).1
        (executePlanInto S rd Runner.contents ix locs ps d.bytes).1
        (executePlanInto S rd (Runner.stream capacity) ix locs ps d).2.1
        (executePlanInto S rd Runner.contents ix locs ps d.bytes).2.1 := by
  induction locs with
  | nil => intro ps d _; exact ⟨[], rfl, rfl, Or.inl ⟨.nil, rfl, rfl⟩⟩
  | cons loc locs ih =>
    intro ps d hd
    obtain ⟨used, h1, h2, h3⟩ := executeBlockInto_stream_told S rd capacity hs loc ps d hd
    have hdev : (executeBlockInto S rd Runner.contents ix loc ps d.bytes).2.2 = d.bytes := by
      unfold executeBlockInto
      dsimp only
      generalize List.any loc.channelIndexes _ = anySkip
      cases ix.getDataBlock loc.dataBlock with
      | none => rfl
      | some b =>
        dsimp only
        cases b.program S rd anySkip (blockRequests 0 loc.channelIndexes ps) with
        | error e => rfl
        | ok a =>
          dsimp only [Runner.contents]
          cases a.runOn d.bytes b.start with
          | mk r ss => cases r <;> rfl
    unfold executePlanInto
    revert h1 h2 h3 hdev
    cases executeBlockInto S rd (Runner.stream capacity) ix loc ps d with
    | mk r x =>
    cases executeBlockInto S rd Runner.contents ix loc ps d.bytes with
    | mk r' x' =>
    obtain ⟨log, d1⟩ := x
    obtain ⟨log', f1⟩ := x'
    intro h1 h2 h3 hdev
    dsimp only at h1 h2 h3 hdev
    subst hdev
    rcases h3 with ⟨hn, rfl, rfl⟩ | ⟨kind, hk, rfl, h4⟩
    · cases r with
      | error e => exact ⟨used, h1, h2, Or.inl ⟨hn, rfl, rfl⟩⟩
      | ok ps1 =>
        dsimp only
        split
        · exact ⟨used, h1, h2, Or.inl ⟨hn, rfl, rfl⟩⟩
        · obtain ⟨used', i1, i2, i3⟩ := ih ps1 d1 (by rw [h2]; exact hd)
          rw [h2] at i2 i3
          refine ⟨used ++ used', by rw [List.append_assoc, ← i1]; exact h1, i2, ?_⟩
          rcases i3 with ⟨hn', j1, j2⟩ | ⟨kind, hk, j1, j2⟩
          · exact Or.inl ⟨hn.append hn', j1, congrArg (log ++ ·) j2⟩
          · exact Or.inr ⟨kind, hk.after hn, j1, (List.prefix_append_right_inj log).mpr j2⟩
    · refine ⟨used, h1, h2, Or.inr ⟨kind, hk, rfl, ?_⟩⟩
      cases r' with
      | error e => exact h4
      | ok ps' =>
        dsimp only
        split
        · exact h4
        · exact h4.trans (List.prefix_append _ _)

theorem executePlanInto_growing_told (capacity : Nat) {ix : Index} (hs : StartsFit ix) (locs : List BlockRead)
    (ps : List (Progress α)) (g : Growing) (hlen : g.total < 2 ^ 64) :
    g.Later (executePlanInto S rd (Runner.growing capacity) ix locs ps g).2.2 ∧
    ∃ used, g.dev.script = used ++ (executePlanInto S rd (Runner.growing capacity) ix locs ps g).2.2.dev.script ∧
      Told used (executePlanInto S rd (Runner.growing capacity) ix locs ps g).1
        (executePlanInto S rd Runner.contents ix locs ps
          (executePlanInto S rd (Runner.growing capacity) ix locs ps g).2.2.contents).1
        (executePlanInto S rd (Runner.growing capacity) ix locs ps g).2.1
        (executePlanInto S rd Runner.contents ix locs ps
          (executePlanInto S rd (Runner.growing capacity) ix locs ps g).2.2.contents).2.1 := by
  obtain ⟨used, sim, h1, h2, h3, h4⟩ := (executePlanInto_follows S rd capacity ix locs ps g).final
  have hle := Growing.contents_le (executePlanInto S rd (Runner.growing capacity) ix locs ps g).2.2
  rw [h3.total] at hle
  refine ⟨h3, used, h1, ?_⟩
  obtain ⟨used', i1, _, i3⟩ := executePlanInto_stream_told S rd capacity hs locs ps
    ⟨(executePlanInto S rd (Runner.growing capacity) ix locs ps g).2.2.contents, g.dev.pos, sim⟩ (by dsimp only; omega)
  rw [h4] at i1 i3
  dsimp only at i1 i3
  rw [List.append_nil] at i1
  subst i1
  rcases i3 with ⟨hn, i3⟩ | ⟨c, hc, i3⟩
  · exact Or.inl ⟨h2.noFailure hn, i3⟩
  · exact Or.inr ⟨c, h2.failed hc, i3⟩

end

theorem readChannelsLog_told (al : Alloc) (capacity : Nat) (ty : STy) {ix : Index} (hs : StartsFit ix)
    (channels : List ChannelPath) (start : Nat) (outs : List (List ty.Val)) (g : Growing) (hlen : g.total < 2 ^ 64) :
    g.Later (readChannelsLog al ty (Runner.growing capacity) ix channels start outs g).2.2 ∧
    ∃ used, g.dev.script = used ++ (readChannelsLog al ty (Runner.growing capacity) ix channels start outs g).2.2.dev.script ∧
      Told used (readChannelsLog al ty (Runner.growing capacity) ix channels start outs g).1
        (readChannelsLog al ty Runner.contents ix channels start outs
          (readChannelsLog al ty (Runner.growing capacity) ix channels start outs g).2.2.contents).1
        (readChannelsLog al ty (Runner.growing capacity) ix channels start outs g).2.1
        (readChannelsLog al ty Runner.contents ix channels start outs
          (readChannelsLog al ty (Runner.growing capacity) ix channels start outs g).2.2.contents).2.1 := by
  unfold readChannelsLog
  dsimp only
  cases TdmsFile.lookupPositions ⟨ix, []⟩ channels with
  | error e => exact ⟨.refl g, [], rfl, Or.inl ⟨.nil, rfl, rfl⟩⟩
  | ok positions =>
    dsimp only
    cases readPlan positions start with
    | error e => exact ⟨.refl g, [], rfl, Or.inl ⟨.nil, rfl, rfl⟩⟩
    | ok plan =>
      obtain ⟨h1, used, h2, h3⟩ := executePlanInto_growing_told (ty.storage al) (Act.value al ty) capacity hs plan
        (outs.map (fun o => (⟨o, 0⟩ : Progress ty.Val))) g hlen
      refine ⟨h1, used, h2, ?_⟩
      rcases h3 with ⟨hn, h3, h4⟩ | ⟨kind, hk, h3, h4⟩
      · exact Or.inl ⟨hn, by dsimp only; rw [h3], h4⟩
      · exact Or.inr ⟨kind, hk, by dsimp only; rw [h3]; rfl, h4⟩

theorem readChannelLog_told (al : Alloc) (capacity : Nat) (ty : STy) {ix : Index} (hs : StartsFit ix)
    (channel : ChannelPath) (start : Nat) (out : List ty.Val) (g : Growing) (hlen : g.total < 2 ^ 64) :
    g.Later (readChannelLog al ty (Runner.growing capacity) ix channel start out g).2.2 ∧
    ∃ used, g.dev.script = used ++ (readChannelLog al ty (Runner.growing capacity) ix channel start out g).2.2.dev.script ∧
      Told used (readChannelLog al ty (Runner.growing capacity) ix channel start out g).1
        (readChannelLog al ty Runner.contents ix channel start out
          (readChannelLog al ty (Runner.growing capacity) ix channel start out g).2.2.contents).1
        (readChannelLog al ty (Runner.growing capacity) ix channel start out g).2.1
        (readChannelLog al ty Runner.contents ix channel start out
          (readChannelLog al ty (Runner.growing capacity) ix channel start out g).2.2.contents).2.1 := by
  unfold readChannelLog
  dsimp only
  cases ix.getChannelDataPositions channel with
  | none => exact ⟨.refl g, [], rfl, Or.inl ⟨.nil, rfl, rfl⟩⟩
  | some ls =>
    dsimp only
    cases readPlan [ls] start with
    | error e => exact ⟨.refl g, [], rfl, Or.inl ⟨.nil, rfl, rfl⟩⟩
    | ok plan =>
      obtain ⟨h1, used, h2, h3⟩ := executePlanInto_growing_told (ty.storage al) (Act.value al ty) capacity hs plan
        [(⟨out, 0⟩ : Progress ty.Val)] g hlen
      refine ⟨h1, used, h2, ?_⟩
      rcases h3 with ⟨hn, h3, h4⟩ | ⟨kind, hk, h3, h4⟩
      · exact Or.inl ⟨hn, by dsimp only; rw [h3], h4⟩
      · exact Or.inr ⟨kind, hk, by dsimp only; rw [h3]; rfl, h4⟩

end Tedium
