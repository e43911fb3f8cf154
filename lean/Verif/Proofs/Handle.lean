import Verif.Model.Handle
import Verif.Proofs.Act
import Verif.Proofs.Device
import Verif.Proofs.Open
import Verif.Proofs.Stream

/-! # Reading and writing through a handle -/

namespace Tedium
open SegSpec

/-- An operation on the stream `d` ended with `x`: the contents are unchanged, and the result is the expected one
    or the error of an operation of the stream that failed. -/
def Ran {α : Type} (d : Device) (x : R α × Device) (expected : R α) : Prop :=
  ∃ used, d.script = used ++ x.2.script ∧ x.2.bytes = d.bytes ∧ Tells used x.1 expected

theorem Ran.still {α : Type} (d : Device) (r : R α) : Ran d (r, d) r := ⟨[], rfl, rfl, .still r⟩

theorem Ran.step {α β : Type} {d : Device} {x : R α × Device} {expected : R α} (h : Ran d x expected)
    (ek : α → R β) {y : R β × Device} {ey : R β} (hy : ∀ e, x.1 = .error e → y = (.error e, x.2))
    (hk : ∀ v, x.1 = .ok v → Ran x.2 y (ek v)) (he : ∀ e, expected = .error e → ey = .error e)
    (hv : ∀ v, expected = .ok v → ey = ek v) : Ran d y ey := by
  obtain ⟨used, h1, h2, h3⟩ := h
  obtain ⟨r, d'⟩ := x
  cases r with
  | error e =>
    rw [hy e rfl]
    refine ⟨used, h1, h2, ?_⟩
    rcases h3 with ⟨hn, h3⟩ | ⟨c, hc, h3⟩
    · exact Or.inl ⟨hn, (he e h3.symm).symm⟩
    · cases h3
      exact Or.inr ⟨c, hc, rfl⟩
  | ok v =>
    obtain ⟨used', i1, i2, i3⟩ := hk v rfl
    dsimp only at h1 h2 h3 i1 i2 i3 ⊢
    refine ⟨used ++ used', by rw [List.append_assoc, ← i1, h1], i2.trans h2, ?_⟩
    rw [hv v h3.ok.2]
    exact i3.after h3.ok.1

theorem Device.seekStart_spec (d : Device) (p : Nat) : ∃ used, d.script = used ++ (d.seekStart p).2.script ∧
    (d.seekStart p).2.bytes = d.bytes ∧
    match (d.seekStart p).1 with
    | none => NoFailure used ∧ (d.seekStart p).2.pos = p
    | some kind => Failed used kind := by
  obtain ⟨used, h1, h2, h3, h4⟩ := d.seekOutcome_spec
  refine ⟨used, ?_⟩
  unfold Device.seekStart
  cases ho : d.seekOutcome with
  | mk r d' =>
  rw [ho] at h1 h2 h4
  cases r with
  | some kind => exact ⟨h1, h2, h4⟩
  | none => exact ⟨h1, h2, h4, rfl⟩

theorem Device.seekEnd_spec (d : Device) : ∃ used, d.script = used ++ d.seekEnd.2.script ∧
    d.seekEnd.2.bytes = d.bytes ∧
    match d.seekEnd.1 with
    | none => NoFailure used ∧ d.seekEnd.2.pos = d.bytes.length
    | some kind => Failed used kind := by
  obtain ⟨used, h1, h2, h3, h4⟩ := d.seekOutcome_spec
  refine ⟨used, ?_⟩
  unfold Device.seekEnd
  cases ho : d.seekOutcome with
  | mk r d' =>
  rw [ho] at h1 h2 h4
  cases r with
  | some kind => exact ⟨h1, h2, h4⟩
  | none => exact ⟨h1, h2, h4, congrArg List.length h2⟩

/-- Seeking and running a program on a fresh reader. -/
theorem Device.runAt_ran {α : Type} (capacity : Nat) {start : Nat} (hs : start < 2 ^ 64) (a : Act α) (d : Device)
    (hd : d.bytes.length < 2 ^ 64) :
    Ran d (d.runAt capacity start a) (((Rd.seek start >>= fun _ => a.denote) d.bytes 0).map Prod.fst) := by
  show Ran d (d.runAt capacity start a) ((a.denote d.bytes start).map Prod.fst)
  unfold Device.runAt BufReader.seekStart
  obtain ⟨used, h1, h2, h3⟩ := d.seekStart_spec start
  dsimp only [BufReader.new]
  cases hx : d.seekStart start with
  | mk r d' =>
  rw [hx] at h1 h2 h3
  cases r with
  | some kind =>
    exact ⟨used, h1, h2, Or.inr ⟨kind, h3, rfl⟩⟩
  | none =>
    dsimp only at h1 h2 h3 ⊢
    have hat := Stands.new capacity d'
    rw [h2, h3.2] at hat
    obtain ⟨used', i1, i2, i3⟩ := BufReader.run_spec hd a start _ hat hs
    exact ⟨used ++ used', by rw [List.append_assoc]; exact h1.trans (congrArg _ i1), i2, i3.after h3.1⟩

/-! ## Blocks -/

section
variable {α : Type} {S : Storage α} {rd : Endian → Act α}

theorem map_fst {β γ : Type} (x : R (β × γ)) : (do let r ← x; return r.1) = x.map Prod.fst := by cases x <;> rfl

theorem readDev_ran (h : ∀ e, (rd e).denote = S.read e) (capacity : Nat) (b : DataBlock) (hs : b.start < 2 ^ 64)
    (reqs : List (ChannelRequest α)) (d : Device) (hd : d.bytes.length < 2 ^ 64) :
    Ran d (b.readDev S rd capacity reqs d) (b.read S d.bytes reqs) := by
  unfold DataBlock.readDev DataBlock.read
  cases buildRecordPlan S b.channels reqs with
  | error e => exact Ran.still d _
  | ok plan =>
    cases b.layout with
    | contigious =>
      have := Device.runAt_ran capacity hs (Act.contigReadFrom S (rd b.byteOrder) b.length plan 0) d hd
      rw [Act.denote_contigReadFrom (h b.byteOrder)] at this
      show Ran d _ (do let r ← contigReadFrom S b.byteOrder b.start b.length plan 0 d.bytes 0; return r.1)
      rw [map_fst]
      exact this
    | interleaved =>
      have := Device.runAt_ran capacity hs (Act.interRead S (rd b.byteOrder) b.length plan) d hd
      rw [Act.denote_interRead (h b.byteOrder)] at this
      show Ran d _ (do let r ← interRead S b.byteOrder b.start b.length plan d.bytes 0; return r.1)
      rw [map_fst]
      exact this

theorem readWithSkipDev_ran (h : ∀ e, (rd e).denote = S.read e) (capacity : Nat) (b : DataBlock) (hs : b.start < 2 ^ 64)
    (reqs : List (ChannelRequest α)) (d : Device) (hd : d.bytes.length < 2 ^ 64) :
    Ran d (b.readWithSkipDev S rd capacity reqs d) (b.readWithSkip S d.bytes reqs) := by
  unfold DataBlock.readWithSkipDev DataBlock.readWithSkip
  dsimp only
  cases buildRecordPlan S b.channels reqs with
  | error e => exact Ran.still d _
  | ok plan =>
    cases b.layout with
    | contigious =>
      have := Device.runAt_ran capacity hs (Act.contigReadSkip S (rd b.byteOrder) b.length plan (reqs.map (·.skip))) d hd
      rw [Act.denote_contigReadSkip (h b.byteOrder)] at this
      show Ran d _ (do let r ← contigReadSkip S b.byteOrder b.start b.length plan (reqs.map (·.skip)) d.bytes 0; return r.1)
      rw [map_fst]
      exact this
    | interleaved =>
      have := Device.runAt_ran capacity hs
        (Act.interRead S (rd b.byteOrder) b.length (setSkips (reqs.map (·.skip)) plan)) d hd
      rw [Act.denote_interRead (h b.byteOrder)] at this
      show Ran d _ (do let r ← interRead S b.byteOrder b.start b.length (setSkips (reqs.map (·.skip)) plan) d.bytes 0; return r.1)
      rw [map_fst]
      exact this

/-- Every data block starts at an address of 64 bits. -/
def StartsFit (ix : Index) : Prop := ∀ b ∈ ix.dataBlocks, b.start < 2 ^ 64

theorem executeBlockDev_ran (h : ∀ e, (rd e).denote = S.read e) (capacity : Nat) {ix : Index} (hs : StartsFit ix)
    (loc : BlockRead) (ps : List (Progress α)) (d : Device) (hd : d.bytes.length < 2 ^ 64) :
    Ran d (executeBlockDev S rd capacity ix loc ps d) (executeBlock S ⟨ix, d.bytes⟩ loc ps) := by
  unfold executeBlockDev executeBlock
  dsimp only
  cases hb : ix.getDataBlock loc.dataBlock with
  | none => exact Ran.still d _
  | some b =>
    have hbs : b.start < 2 ^ 64 := hs b (List.mem_of_getElem? hb)
    dsimp only
    generalize hany : List.any _ _ = anySkip
    have hr : Ran d (if anySkip then b.readWithSkipDev S rd capacity (blockRequests 0 loc.channelIndexes ps) d
          else b.readDev S rd capacity (blockRequests 0 loc.channelIndexes ps) d)
        (if anySkip then b.readWithSkip S d.bytes (blockRequests 0 loc.channelIndexes ps)
          else b.read S d.bytes (blockRequests 0 loc.channelIndexes ps)) := by
      cases anySkip with
      | true => exact readWithSkipDev_ran h capacity b hbs _ d hd
      | false => exact readDev_ran h capacity b hbs _ d hd
    refine hr.step (fun v => .ok (addSamples v.1 loc.channelIndexes (storeOutputs (planOutputs v.2) 0 ps))) ?_ ?_ ?_ ?_
    · generalize (if anySkip = true then _ else _ : R (Nat × List (RecordEntry α)) × Device) = x
      obtain ⟨r, d'⟩ := x
      intro e he
      cases he
      rfl
    · generalize (if anySkip = true then _ else _ : R (Nat × List (RecordEntry α)) × Device) = x
      obtain ⟨r, d'⟩ := x
      intro e he
      cases he
      exact Ran.still _ _
    · intro e he
      rw [he]
    · intro v hv
      rw [hv]

theorem executePlanDev_ran (h : ∀ e, (rd e).denote = S.read e) (capacity : Nat) {ix : Index} (hs : StartsFit ix)
    (locs : List BlockRead) : ∀ (ps : List (Progress α)) (d : Device), d.bytes.length < 2 ^ 64 →
    Ran d (executePlanDev S rd capacity ix locs ps d) (executePlan S ⟨ix, d.bytes⟩ locs ps) := by
  induction locs with
  | nil => intro ps d _; exact Ran.still d _
  | cons loc locs ih =>
    intro ps d hd
    unfold executePlanDev executePlan
    have hr := executeBlockDev_ran h capacity hs loc ps d hd
    have hb : (executeBlockDev S rd capacity ix loc ps d).2.bytes = d.bytes := by
      obtain ⟨_, _, h2, _⟩ := hr
      exact h2
    refine hr.step (fun ps => if ps.all Progress.isComplete then .ok ps else executePlan S ⟨ix, d.bytes⟩ locs ps)
      ?_ ?_ ?_ ?_
    · revert hr hb
      cases executeBlockDev S rd capacity ix loc ps d with
      | mk r d' =>
        intro _ _ e he
        cases he
        rfl
    · revert hr hb
      cases executeBlockDev S rd capacity ix loc ps d with
      | mk r d' =>
        intro _ hb v hv
        cases hv
        dsimp only at hb ⊢
        split
        · exact Ran.still _ _
        · rw [← hb]
          exact ih v _ (by rw [hb]; exact hd)
    · intro e he
      rw [he]
    · intro v hv
      rw [hv]

end

/-! ## Reads -/

/-- The same for a handle. -/
def Handle.Ran {α : Type} (h : Handle) (x : R α × Handle) (expected : R α) : Prop :=
  x.2.index = h.index ∧ Tedium.Ran h.dev (x.1, x.2.dev) expected

theorem Handle.Ran.still {α : Type} (h : Handle) (r : R α) : h.Ran (r, h) r := ⟨rfl, Tedium.Ran.still _ _⟩

theorem Handle.execute_ran {β : Type} (al : Alloc) (capacity : Nat) (ty : STy) (h : Handle) (hs : StartsFit h.index)
    (hd : h.dev.bytes.length < 2 ^ 64) (plan : List BlockRead) (ps : List (Progress ty.Val))
    (k : List (Progress ty.Val) → β) :
    h.Ran (match executePlanDev (ty.storage al) (Act.value al ty) capacity h.index plan ps h.dev with
        | (.error e, dev) => (.error e, { h with dev })
        | (.ok ps, dev) => (.ok (k ps), { h with dev }))
      (do return k (← executePlan (ty.storage al) h.file plan ps)) := by
  have hr := executePlanDev_ran (Act.denote_value al ty) capacity hs plan ps h.dev hd
  show h.Ran _ (Except.bind (executePlan (ty.storage al) ⟨h.index, h.dev.bytes⟩ plan ps) _)
  revert hr
  cases executePlanDev (ty.storage al) (Act.value al ty) capacity h.index plan ps h.dev with
  | mk r d =>
    intro hr
    cases r with
    | error e =>
      refine ⟨rfl, hr.step (fun v => .ok (k v)) (fun e he => by cases he; rfl) nofun (fun e he => by rw [he]; rfl)
        (fun v hv => by rw [hv]; rfl)⟩
    | ok v =>
      refine ⟨rfl, hr.step (fun v => .ok (k v)) nofun (fun v hv => by cases hv; exact Tedium.Ran.still _ _)
        (fun e he => by rw [he]; rfl) (fun v hv => by rw [hv]; rfl)⟩

theorem Handle.readChannelFrom_ran (al : Alloc) (capacity : Nat) (ty : STy) (h : Handle) (hs : StartsFit h.index)
    (hd : h.dev.bytes.length < 2 ^ 64) (channel : ChannelPath) (start : Nat) (output : List ty.Val) :
    h.Ran (h.readChannelFrom al capacity ty channel start output)
      (h.file.readChannelFrom (ty.storage al) channel start output) := by
  unfold Handle.readChannelFrom TdmsFile.readChannelFrom
  rw [show h.file.index = h.index from rfl]
  cases h.index.getChannelDataPositions channel with
  | none => exact Handle.Ran.still _ _
  | some ls =>
    dsimp only
    cases readPlan [ls] start with
    | error e => exact Handle.Ran.still _ _
    | ok plan => exact h.execute_ran al capacity ty hs hd plan [⟨output, 0⟩] (fun ps => (ps.map (·.output)).headD [])

theorem Handle.readChannelsFrom_ran (al : Alloc) (capacity : Nat) (ty : STy) (h : Handle) (hs : StartsFit h.index)
    (hd : h.dev.bytes.length < 2 ^ 64) (channels : List ChannelPath) (start : Nat) (outputs : List (List ty.Val)) :
    h.Ran (h.readChannelsFrom al capacity ty channels start outputs)
      (h.file.readChannelsFrom (ty.storage al) channels start outputs) := by
  unfold Handle.readChannelsFrom TdmsFile.readChannelsFrom
  cases h.file.lookupPositions channels with
  | error e => exact Handle.Ran.still _ _
  | ok positions =>
    show Handle.Ran _ _ (do
      let plan ← readPlan positions start
      let ps ← executePlan (ty.storage al) h.file plan (outputs.map (fun o => ⟨o, 0⟩))
      return ps.map (·.output))
    dsimp only
    cases readPlan positions start with
    | error e => exact Handle.Ran.still _ _
    | ok plan =>
      exact h.execute_ran al capacity ty hs hd plan (outputs.map (fun o => ⟨o, 0⟩)) (fun ps => ps.map (·.output))

/-! ## Opening -/

/-- Reading without a buffer leaves nothing in one. -/
theorem BufReader.loop_plain : ∀ (fuel n : Nat) (acc : Bytes) (b : BufReader), b.capacity = 0 → b.filled = [] →
    b.consumed = 0 → (readExactLoop fuel n acc b).2.capacity = 0 ∧ (readExactLoop fuel n acc b).2.filled = [] ∧
      (readExactLoop fuel n acc b).2.consumed = 0 := by
  intro fuel
  induction fuel with
  | zero => intro n acc b h1 h2 h3; exact ⟨h1, h2, h3⟩
  | succ fuel ih =>
    intro n acc b h1 h2 h3
    unfold readExactLoop
    split
    · exact ⟨h1, h2, h3⟩
    · have hr : b.read n = ((b.dev.read n).1, { b with filled := [], consumed := 0, dev := (b.dev.read n).2 }) := by
        unfold BufReader.read
        rw [if_pos (by rw [h2, h3]; rfl), if_pos (by rw [h1]; exact Nat.zero_le _)]
      rw [hr]
      cases (b.dev.read n).1 with
      | got bs =>
        dsimp only
        split
        · exact ⟨h1, rfl, rfl⟩
        · exact ih _ _ _ h1 rfl rfl
      | interrupted => exact ih _ _ _ h1 rfl rfl
      | failed c => exact ⟨h1, rfl, rfl⟩

theorem BufReader.readExact_plain (b : BufReader) (n : Nat) (h1 : b.capacity = 0) (h2 : b.filled = [])
    (h3 : b.consumed = 0) : (b.readExact n).2.capacity = 0 ∧ (b.readExact n).2.filled = [] ∧
      (b.readExact n).2.consumed = 0 := by
  unfold BufReader.readExact
  split
  · rename_i h
    refine ⟨h1, h2, ?_⟩
    show b.consumed + n = 0
    rw [h2, List.length_nil] at h
    omega
  · exact loop_plain _ _ _ _ h1 h2 h3

theorem Stands.plain {f : Bytes} {p : Nat} {b : BufReader} (h : Stands f p b) (h2 : b.filled = []) : b.dev.pos = p := by
  obtain ⟨_, ⟨s, h3, _, h4⟩, h5⟩ := h
  rw [h2, List.length_nil] at h3 h5
  omega

theorem exact_ok {n : Nat} {f : Bytes} {p : Nat} {x : Bytes × Nat} (h : Rd.exact n f p = .ok x) (hn : 0 < n) :
    x.2 = p + n ∧ p + n ≤ f.length := by
  unfold Rd.exact at h
  split at h
  · cases h
    exact ⟨rfl, by omega⟩
  · cases h

theorem Device.readSegment_ran (al : Alloc) (capacity : Nat) (d : Device) (hd : d.bytes.length < 2 ^ 64) :
    Ran d (d.readSegment al capacity) ((Segment.read al d.bytes d.pos).map Prod.fst) ∨
      ∃ used, d.script = used ++ (d.readSegment al capacity).2.script ∧
        (d.readSegment al capacity).2.bytes = d.bytes ∧ Failed used .unexpectedEof ∧
        (d.readSegment al capacity).1 = R.err .endOfFile := by
  unfold Device.readSegment Segment.read
  obtain ⟨used, h1, h2, h3, h4⟩ := BufReader.readExact_spec (Stands.new 0 d) 4
  have hplain := (BufReader.new 0 d).readExact_plain 4 rfl rfl rfl
  cases hr : (BufReader.new 0 d).readExact 4 with
  | mk r b =>
  rw [hr] at h1 h2 h3 h4 hplain
  dsimp only at h1 h2 h3 h4 hplain
  cases r with
  | error e =>
    rcases h3 with ⟨hn, h3⟩ | ⟨c, hc, h3⟩
    · cases hx : Rd.exact 4 d.bytes d.pos with
      | ok x => rw [hx] at h3; cases h3
      | error e' =>
        have he' : e' = .err (.ioError .unexpectedEof) := by
          unfold Rd.exact at hx
          split at hx
          · cases hx
          · cases hx; rfl
        rw [hx] at h3
        cases h3
        subst he'
        exact Or.inl ⟨used, h1, h2, Or.inl ⟨hn, rfl⟩⟩
    · cases h3
      cases c with
      | unexpectedEof => exact Or.inr ⟨used, h1, h2, hc, rfl⟩
      | _ => exact Or.inl ⟨used, h1, h2, Or.inr ⟨_, hc, rfl⟩⟩
  | ok tag =>
    left
    have hn := h3.ok.1
    obtain ⟨hx, hat⟩ := h4 tag rfl
    rw [hx]
    dsimp only
    by_cases htag : tag ≠ tdsmTag
    · rw [if_pos htag, if_pos htag]
      exact ⟨used, h1, h2, Or.inl ⟨hn, rfl⟩⟩
    · rw [if_neg htag, if_neg htag]
      have hlen := (exact_ok hx (by omega)).2
      obtain ⟨used', i1, i2, i3, i4⟩ := BufReader.readExact_spec hat 4
      have hplain' := b.readExact_plain 4 hplain.1 hplain.2.1 hplain.2.2
      show Ran d _ ((Rd.bind (Rd.exact 4) _ d.bytes (d.pos + 4)).map Prod.fst)
      unfold Rd.bind
      cases hr' : b.readExact 4 with
      | mk r b' =>
      rw [hr'] at i1 i2 i3 i4 hplain'
      dsimp only at i1 i2 i3 i4 hplain'
      have hscript : d.script = (used ++ used') ++ b'.dev.script := by
        rw [List.append_assoc, ← i1]
        exact h1
      cases r with
      | error e =>
        refine ⟨used ++ used', hscript, i2, ?_⟩
        rcases i3 with ⟨hn', i3⟩ | ⟨c, hc, i3⟩
        · cases hx : Rd.exact 4 d.bytes (d.pos + 4) with
          | ok x => rw [hx] at i3; cases i3
          | error e' => rw [hx] at i3; cases i3; exact Or.inl ⟨hn.append hn', rfl⟩
        · cases i3
          exact Or.inr ⟨c, hc.after hn, rfl⟩
      | ok buf =>
        obtain ⟨hx', hat'⟩ := i4 buf rfl
        have hlen' := (exact_ok hx' (by omega)).2
        rw [hx']
        dsimp only
        have hnew : Stands d.bytes (d.pos + 4 + 4) (BufReader.new capacity b'.dev) := by
          have := Stands.new capacity b'.dev
          rwa [i2, hat'.plain hplain'.2.1] at this
        obtain ⟨used'', j1, j2, j3⟩ := BufReader.run_spec hd (Act.segment al
          (if (ToC.fromU32 (decNat .little buf)).bigEndian then .big else .little) (ToC.fromU32 (decNat .little buf)))
          _ _ hnew (by omega)
        rw [Act.denote_segment] at j3
        refine ⟨(used ++ used') ++ used'', ?_, j2, j3.after (hn.append i3.ok.1)⟩
        rw [List.append_assoc, hscript]
        exact congrArg _ j1

/-- The outcome of indexing: as expected, or an error of the stream, or (after a failing seek, or an early end of
    the file where a segment should begin) the index of the first segments only. -/
def Indexed (used : List ReadOutcome) (r : R Index) (ix : Index) (segs : List Segment) (last : Fail) : Prop :=
  Tells used r (openResult ix segs last) ∨
    ∃ kind pre post ix', Failed used kind ∧ (pre = [] → kind = .unexpectedEof) ∧ segs = pre ++ post ∧ replay ix pre = .ok ix' ∧ r = .ok ix'

theorem Device.openLoop_error (al : Alloc) (capacity fuel : Nat) (ix : Index) {d d' : Device} {e : Fail}
    (hs : d.readSegment al capacity = (.error e, d')) :
    d.openLoop al capacity (fuel + 1) ix = (if e = .err .endOfFile then .ok ix else .error e, d') := by
  unfold Device.openLoop
  rw [hs]
  split
  · rename_i heq; cases heq; rfl
  · rename_i hne heq
    cases heq
    rw [if_neg (fun h => hne (by rw [h]))]
  · rename_i heq; cases heq

theorem Device.openLoop_spec (al : Alloc) (capacity : Nat) (f : Bytes) (hf : f.length < 2 ^ 64) {pos : Nat}
    {segs : List Segment} {last : Fail} (h : Parses al f pos segs last) :
    ∀ (fuel : Nat) (ix : Index) (d : Device), segs.length < fuel → ix.nextSegmentStart = pos → d.bytes = f →
      d.pos = pos → ∃ used, d.script = used ++ (d.openLoop al capacity fuel ix).2.script ∧
        (d.openLoop al capacity fuel ix).2.bytes = f ∧
        Indexed used (d.openLoop al capacity fuel ix).1 ix segs last := by
  induction h with
  | @done pos last hr =>
    intro fuel ix d hfuel hpos hb hp
    cases fuel with
    | zero => simp at hfuel
    | succ fuel =>
      have hran := d.readSegment_ran al capacity (by rw [hb]; exact hf)
      cases hs : d.readSegment al capacity with
      | mk r d' =>
      rw [hs] at hran
      rcases hran with ⟨used, h1, h2, h3⟩ | ⟨used, h1, h2, h3, h4⟩
      rotate_left
      · have h4 : r = R.err .endOfFile := h4
        subst h4
        rw [Device.openLoop_error al capacity fuel ix hs]
        exact ⟨used, h1, h2.trans hb, Or.inr ⟨_, [], [], ix, h3, fun _ => rfl, rfl, rfl, rfl⟩⟩
      rw [hb, hp, hr] at h3
      dsimp only at h1 h2 h3
      refine ⟨used, ?_⟩
      have hexp : openResult ix [] last = if last = .err .endOfFile then .ok ix else .error last := rfl
      rcases h3 with ⟨hn, h3⟩ | ⟨c, hc, h3⟩
      · have h3 : r = .error last := h3
        subst h3
        rw [Device.openLoop_error al capacity fuel ix hs]
        exact ⟨h1, h2.trans hb, Or.inl (Or.inl ⟨hn, hexp.symm⟩)⟩
      · subst h3
        rw [Device.openLoop_error al capacity fuel ix hs]
        exact ⟨h1, h2.trans hb, Or.inl (Or.inr ⟨c, hc, by rw [if_neg nofun]⟩)⟩
  | @segment pos q s segs last hr _ ih =>
    intro fuel ix d hfuel hpos hb hp
    cases fuel with
    | zero => simp at hfuel
    | succ fuel =>
      have hran := d.readSegment_ran al capacity (by rw [hb]; exact hf)
      cases hs : d.readSegment al capacity with
      | mk r d' =>
      rw [hs] at hran
      rcases hran with ⟨used, h1, h2, h3⟩ | ⟨used, h1, h2, h3, h4⟩
      rotate_left
      · have h4 : r = R.err .endOfFile := h4
        subst h4
        rw [Device.openLoop_error al capacity fuel ix hs]
        exact ⟨used, h1, h2.trans hb, Or.inr ⟨_, [], s :: segs, ix, h3, fun _ => rfl, rfl, rfl, rfl⟩⟩
      unfold Device.openLoop
      rw [hs]
      rw [hb, hp, hr] at h3
      dsimp only at h1 h2 h3
      rcases h3 with ⟨hn, h3⟩ | ⟨c, hc, h3⟩
      · have h3 : r = .ok s := h3
        subst h3
        dsimp only
        have hexp : openResult ix (s :: segs) last = match ix.addSegment s with
          | (.error e, _) => .error e
          | (.ok _, ix) => openResult ix segs last := by
          unfold openResult
          rw [show replay ix (s :: segs) = (match ix.addSegment s with
            | (.error e, _) => .error e
            | (.ok _, ix) => replay ix segs) from rfl]
          cases ix.addSegment s with
          | mk r ix => cases r <;> rfl
        cases ha : ix.addSegment s with
        | mk ra ix' =>
        rw [ha] at hexp
        cases ra with
        | error e => exact ⟨used, h1, h2.trans hb, Or.inl (Or.inl ⟨hn, hexp.symm⟩)⟩
        | ok n =>
          dsimp only at hexp ⊢
          obtain ⟨n1, n2, n3⟩ := addSegment_next ha
          obtain ⟨used', i1, i2, i3⟩ := d'.seekStart_spec n
          cases hk : d'.seekStart n with
          | mk rk d'' =>
          rw [hk] at i1 i2 i3
          cases rk with
          | some kind =>
            have hc := i3
            refine ⟨used ++ used', by rw [List.append_assoc, ← i1]; exact h1, i2.trans (h2.trans hb), Or.inr
              ⟨_, [s], segs, ix', hc.after hn, nofun, rfl, ?_, rfl⟩⟩
            unfold replay
            rw [ha]
            rfl
          | none =>
            dsimp only at i1 i2 i3 ⊢
            obtain ⟨used'', j1, j2, j3⟩ := ih fuel ix' d'' (by simp only [List.length_cons] at hfuel; omega)
              (by rw [n2, n1, hpos]) (i2.trans (h2.trans hb)) (by rw [i3.2, n1, hpos])
            refine ⟨(used ++ used') ++ used'', by rw [List.append_assoc, ← j1, List.append_assoc, ← i1]; exact h1, j2, ?_⟩
            rcases j3 with j3 | ⟨c, pre, post, ix'', hc, _, hseg, hrep, hres⟩
            · exact Or.inl (by rw [hexp]; exact j3.after (hn.append i3.1))
            · refine Or.inr ⟨c, s :: pre, post, ix'', hc.after (hn.append i3.1), nofun, by rw [hseg]; rfl, ?_, hres⟩
              unfold replay
              rw [ha]
              exact hrep
      · subst h3
        exact ⟨used, h1, h2.trans hb, Or.inl (Or.inr ⟨c, hc, rfl⟩)⟩

theorem Device.buildIndex_spec (al : Alloc) (capacity : Nat) (d : Device) (hd : d.bytes.length < 2 ^ 64)
    {segs : List Segment} {last : Fail} (h : Parses al d.bytes 0 segs last) :
    ∃ used, d.script = used ++ (d.buildIndex al capacity).2.script ∧ (d.buildIndex al capacity).2.bytes = d.bytes ∧
      Indexed used (d.buildIndex al capacity).1 Index.new segs last := by
  unfold Device.buildIndex
  obtain ⟨used, h1, h2, h3⟩ := d.seekStart_spec 0
  cases hs : d.seekStart 0 with
  | mk r d' =>
  rw [hs] at h1 h2 h3
  cases r with
  | some kind =>
    exact ⟨used, h1, h2, Or.inl (Or.inr ⟨kind, h3, rfl⟩)⟩
  | none =>
    dsimp only at h1 h2 h3 ⊢
    have hfuel : segs.length < d'.bytes.length / leadInBytes + 1 := by
      rw [h2]
      rcases h.length with hl | hl
      · rw [hl]; simp
      · unfold leadInBytes; omega
    obtain ⟨used', i1, i2, i3⟩ := Device.openLoop_spec al capacity d.bytes hd h _ Index.new d' hfuel rfl h2 h3.2
    refine ⟨used ++ used', by rw [List.append_assoc, ← i1]; exact h1, i2, ?_⟩
    rcases i3 with i3 | ⟨c, pre, post, ix, hc, rest⟩
    · exact Or.inl (i3.after h3.1)
    · exact Or.inr ⟨c, pre, post, ix, hc.after h3.1, rest⟩

/-! ## Addresses fit -/

theorem StartsFit.new : StartsFit Index.new := nofun

theorem StartsFit.addSegment {ix : Index} (h : StartsFit ix) (s : Segment) : StartsFit (ix.addSegment s).2 := by
  have hraw : ∀ ix : Index, StartsFit ix → StartsFit (ix.addRawData s).2 := by
    intro ix h
    unfold Index.addRawData
    split
    · split
      · exact h
      · split
        · exact h
        · split
          · exact h
          · rename_i b hb
            have hstart : b.start < 2 ^ 64 := by
              unfold DataBlock.fromSegment at hb
              dsimp only at hb
              repeat' split at hb
              all_goals first
                | cases hb; done
                | skip
              all_goals (cases hb; unfold u64Lim at *; assumption)
            unfold Index.insertDataBlock
            split
            · exact h
            · intro x hx
              have hx : x ∈ ix.dataBlocks ++ [b] := hx
              rcases List.mem_append.mp hx with hx | hx
              · exact h x hx
              · rw [List.mem_singleton.mp hx]; exact hstart
    · exact h
  have hobj := afterObjects_frame ix s
  rw [addSegment_eq]
  have h1 : StartsFit (afterObjects ix s).2 := by
    intro b hb
    rw [hobj.2] at hb
    exact h b hb
  revert h1
  cases afterObjects ix s with
  | mk r ix1 =>
    intro h1
    cases r with
    | error e => exact h1
    | ok u =>
      have h2 := hraw ix1 h1
      dsimp only
      revert h2
      cases ix1.addRawData s with
      | mk r ix2 =>
        intro h2
        cases r with
        | error e => exact h2
        | ok u =>
          dsimp only
          rw [advance_eq]
          split
          · exact h2
          · exact h2

/-! ## Writes -/

/-- The writer with something in front of the contents of its stream. -/
def BufWriter.behind (f : Bytes) (w : BufWriter) : BufWriter :=
  { w with stream := { w.stream with disk := f ++ w.stream.disk } }

theorem Stream.push_behind (f : Bytes) (script : List WriteOutcome) : ∀ offered disk : Bytes,
    Stream.push (f ++ disk) offered script
      = ((Stream.push disk offered script).1, (Stream.push disk offered script).2.1,
          { (Stream.push disk offered script).2.2 with disk := f ++ (Stream.push disk offered script).2.2.disk }) := by
  induction script with
  | nil =>
    intro offered disk
    cases offered with
    | nil => rfl
    | cons b bs => simp only [Stream.push, List.append_assoc]
  | cons o script ih =>
    intro offered disk
    cases offered with
    | nil => rfl
    | cons b bs =>
      cases o with
      | interrupted => exact ih _ _
      | fail k => rfl
      | accept n =>
        cases n with
        | zero => rfl
        | succ n =>
          unfold Stream.push
          rw [List.append_assoc]
          exact ih _ _

theorem BufWriter.flush_behind (f : Bytes) (w : BufWriter) :
    (w.behind f).flush = (w.flush.1, w.flush.2.behind f) := by
  unfold BufWriter.flush BufWriter.behind
  dsimp only
  rw [Stream.push_behind]

theorem BufWriter.writeAll_behind (f : Bytes) (w : BufWriter) (bs : Bytes) :
    (w.behind f).writeAll bs = ((w.writeAll bs).1, (w.writeAll bs).2.behind f) := by
  unfold BufWriter.writeAll
  rw [show (w.behind f).capacity = w.capacity from rfl, show (w.behind f).buf = w.buf from rfl, flush_behind]
  split
  · rfl
  · have key : ∀ x : Option IoKind × BufWriter,
        (match (x.1, x.2.behind f) with
          | (some kind, w) => (some kind, w)
          | (none, w) =>
            if bs.length ≥ w.capacity then
              let (r, _, stream) := Stream.push w.stream.disk bs w.stream.script
              (r, { w with stream })
            else (none, { w with buf := w.buf ++ bs }) : Option IoKind × BufWriter)
        = ((match x with
            | (some kind, w) => (some kind, w)
            | (none, w) =>
              if bs.length ≥ w.capacity then
                let (r, _, stream) := Stream.push w.stream.disk bs w.stream.script
                (r, { w with stream })
              else (none, { w with buf := w.buf ++ bs }) : Option IoKind × BufWriter).1,
           (match x with
            | (some kind, w) => (some kind, w)
            | (none, w) =>
              if bs.length ≥ w.capacity then
                let (r, _, stream) := Stream.push w.stream.disk bs w.stream.script
                (r, { w with stream })
              else (none, { w with buf := w.buf ++ bs }) : Option IoKind × BufWriter).2.behind f) := by
      intro x
      obtain ⟨r, w⟩ := x
      cases r with
      | some k => rfl
      | none =>
        dsimp only
        rw [show (w.behind f).capacity = w.capacity from rfl]
        split
        · rw [show (w.behind f).stream.disk = f ++ w.stream.disk from rfl, Stream.push_behind]
          rfl
        · rfl
    by_cases hc : bs.length > w.capacity - w.buf.length
    · simp only [if_pos hc]
      exact key _
    · simp only [if_neg hc]
      exact key (none, w)

theorem BufWriter.writePieces_behind (f : Bytes) (pieces : List Bytes) : ∀ w : BufWriter,
    (w.behind f).writePieces pieces = ((w.writePieces pieces).1, (w.writePieces pieces).2.behind f) := by
  induction pieces with
  | nil => intro w; rfl
  | cons bs pieces ih =>
    intro w
    unfold BufWriter.writePieces
    rw [writeAll_behind]
    cases w.writeAll bs with
    | mk r w' =>
      cases r with
      | some k => rfl
      | none => exact ih w'

/-- The same for a file writer. -/
def FileWriter.behind (f : Bytes) (w : FileWriter) : FileWriter := { w with out := w.out.behind f }

theorem FileWriter.segment_behind (f : Bytes) (split : Bytes → List Bytes) (w : FileWriter) (s : Segment × Bytes) :
    (w.behind f).segment split s = ((w.segment split s).1, (w.segment split s).2.behind f) := by
  unfold FileWriter.segment
  rw [show (w.behind f).out = w.out.behind f from rfl, BufWriter.writePieces_behind]
  cases w.out.writePieces (split s.2) with
  | mk r out =>
    cases r with
    | some k => rfl
    | none => rfl

theorem FileWriter.run_behind (al : Alloc) (f : Bytes) (split : Bytes → List Bytes) (w : FileWriter) (c : Call) :
    Faults.run al split (w.behind f) c
      = ((Faults.run al split w c).1, (Faults.run al split w c).2.behind f) := by
  cases c with
  | sync =>
    unfold Faults.run FileWriter.sync
    rw [show (w.behind f).out = w.out.behind f from rfl, BufWriter.flush_behind]
    cases w.out.flush with
    | mk r out => cases r <;> rfl
  | op op =>
    cases op with
    | props e path ps => exact segment_behind f split w _
    | write e ty channels vals layout =>
      unfold Faults.run FileWriter.writeChannels
      dsimp only
      split
      · rfl
      · split
        · rfl
        · exact segment_behind f split w _

theorem FileWriter.calls_behind (al : Alloc) (f : Bytes) (split : Bytes → List Bytes) (cs : List Call) : ∀ w : FileWriter,
    FileWriter.calls al split (w.behind f) cs
      = ((FileWriter.calls al split w cs).1, (FileWriter.calls al split w cs).2.behind f) := by
  induction cs with
  | nil => intro w; rfl
  | cons c cs ih =>
    intro w
    unfold FileWriter.calls
    rw [run_behind]
    dsimp only
    rw [ih]

theorem FileWriter.calls_after (al : Alloc) (split : Bytes → List Bytes) (cs : List Call) : ∀ w : FileWriter,
    (FileWriter.calls al split w cs).2 = Faults.after al split w cs := by
  induction cs with
  | nil => intro w; rfl
  | cons c cs ih =>
    intro w
    exact ih (Faults.run al split w c).2

theorem Device.write_end (d : Device) (h : d.pos = d.bytes.length) (bs : Bytes) :
    (d.write bs).bytes = d.bytes ++ bs ∧ (d.write bs).script = d.script := by
  unfold Device.write
  split
  · rename_i hb
    rw [hb, List.append_nil]
    exact ⟨rfl, rfl⟩
  · refine ⟨?_, rfl⟩
    dsimp only
    rw [h, List.take_length, Nat.sub_self, List.drop_eq_nil_of_le (by omega), List.append_nil]
    simp

/-- A writer session: the writer could not be had, and nothing changed; or it is the session of
    `Model/Stream.lean`. -/
theorem Handle.session_spec (al : Alloc) (split : Bytes → List Bytes) (capacity : Nat) (script : List WriteOutcome)
    (h : Handle) (calls : List Call) :
    ∃ used, h.dev.script = used ++ (h.session al split capacity script calls).2.dev.script ∧
      ((∃ kind, Failed used kind ∧ (h.session al split capacity script calls).1 = R.err (.ioError kind) ∧
          (h.session al split capacity script calls).2.file = h.file) ∨
        (NoFailure used ∧ (h.session al split capacity script calls).1
            = .ok (FileWriter.calls al split (h.file.writer capacity script) calls).1 ∧
          (h.session al split capacity script calls).2.file
            = (FileWriter.calls al split (h.file.writer capacity script) calls).2.drop)) := by
  unfold Handle.session
  obtain ⟨used, h1, h2, h3⟩ := h.dev.seekEnd_spec
  cases hs : h.dev.seekEnd with
  | mk r d =>
  rw [hs] at h1 h2 h3
  cases r with
  | some kind =>
    refine ⟨used, h1, Or.inl ⟨kind, h3, rfl, ?_⟩⟩
    show (⟨h.index, d.bytes⟩ : TdmsFile) = ⟨h.index, h.dev.bytes⟩
    rw [h2]
  | none =>
    dsimp only at h1 h2 h3 ⊢
    have hw : h.file.writer capacity script = FileWriter.behind h.dev.bytes ⟨h.index, ⟨capacity, [], ⟨[], script⟩⟩⟩ := by
      unfold TdmsFile.writer FileWriter.behind BufWriter.behind
      dsimp only
      rw [List.append_nil]
      rfl
    rw [hw, FileWriter.calls_behind]
    generalize FileWriter.calls al split ⟨h.index, ⟨capacity, [], ⟨[], script⟩⟩⟩ calls = x
    obtain ⟨rs, w⟩ := x
    have hend := d.write_end (by rw [h2, h3.2]) w.out.drop
    refine ⟨used, by rw [hend.2]; exact h1, Or.inr ⟨h3.1, rfl, ?_⟩⟩
    show (⟨w.index, (d.write w.out.drop).bytes⟩ : TdmsFile) = ⟨w.index, (w.out.behind h.dev.bytes).drop⟩
    rw [hend.1, h2]
    unfold BufWriter.drop
    rw [BufWriter.flush_behind]
    rfl

theorem Device.openLoop_startsFit {al : Alloc} {capacity : Nat} : ∀ (fuel : Nat) (ix ix' : Index) (d d' : Device), StartsFit ix →
    d.openLoop al capacity fuel ix = (.ok ix', d') → StartsFit ix' := by
  intro fuel
  induction fuel with
  | zero => intro ix ix' d d' _ h; cases h
  | succ fuel ih =>
    intro ix ix' d d' hs h
    unfold Device.openLoop at h
    split at h
    · cases h; exact hs
    · cases h
    · rename_i s d1 _
      have := hs.addSegment s
      revert h this
      cases ix.addSegment s with
      | mk r ix1 =>
        cases r with
        | error e => intro h; cases h
        | ok n =>
          intro h this
          dsimp only at h
          split at h
          · cases h; exact this
          · exact ih _ _ _ _ this h

end Tedium
