import Verif.Proofs.OutcomeBlock

/-! # How a read of one channel of a file ends -/

namespace Tedium
open PlanSpec SegSpec

section
variable {α : Type} {S : Storage α} {dec : Endian → Bytes → α}

/-- the fault of block number `B` -/
def blockFault (supported : List DataType) (natural : DataType) (w size : Nat) (segs : List Segment) (path : Text)
    (start B room : Nat) : Option Fail :=
  (dataPrefixes segs)[B]?.bind fun pre => faultIn supported natural w size pre path start room

theorem planFault_eq (supported : List DataType) (natural : DataType) (w size : Nat) (segs : List Segment) (path : Text)
    (start : Nat) (W : Nat → List α)
    (hW : ∀ B pre, (dataPrefixes segs)[B]? = some pre → (W B).length = (deliveredIn w pre path start).length) :
    ∀ (d B room : Nat), B + d = (dataPrefixes segs).length →
      planFault W (blockFault supported natural w size segs path start) d B room =
        readFault supported natural w size path start ((dataPrefixes segs).drop B) room := by
  intro d
  induction d with
  | zero =>
    intro B room hB
    rw [List.drop_eq_nil_of_le (by omega)]
    rfl
  | succ d ih =>
    intro B room hB
    have hlt : B < (dataPrefixes segs).length := by omega
    have hget := List.getElem?_eq_getElem hlt
    rw [List.drop_eq_getElem_cons hlt, planFault, readFault]
    by_cases h0 : room = 0
    · rw [if_pos h0, if_pos h0]
    rw [if_neg h0, if_neg h0]
    have hE : blockFault supported natural w size segs path start B room =
        faultIn supported natural w size (dataPrefixes segs)[B] path start room := by
      unfold blockFault
      rw [hget]
      rfl
    rw [hE, ih (B + 1) _ (by omega), hW B _ hget]
    cases faultIn supported natural w size (dataPrefixes segs)[B] path start room <;> rfl

/-- How `read_channel_from` ends. -/
theorem readChannelFrom_outcome (hS : S.Reads dec) (hsh : S.Short) (hmem : S.memSize < 2 ^ 63)
    {segs : List Segment} {t : TdmsFile} (h : replay Index.new segs = .ok t.index)
    (c : ChannelPath) (hl : Listed (entries segs) c.path) (hadd : Addressable S.memSize segs c.path) (start : Nat)
    (out : List α) (hne : out ≠ []) :
    (∀ e, readFault S.supported S.natural S.memSize t.bytes.length c.path start (dataPrefixes segs) out.length =
      some e → t.readChannelFrom S c start out = .error e) ∧
    (readFault S.supported S.natural S.memSize t.bytes.length c.path start (dataPrefixes segs) out.length = none →
      t.readChannelFrom S c start out = .ok (overlay out
        ((delivered S.memSize segs c.path start).map (Cell.value dec S.memSize t.bytes)))) := by
  have hr := replay_refines h
  have hpos := hr.positions hl
  obtain ⟨o, ho, hlo⟩ := Option.map_eq_some_iff.mp hpos
  have hinc : Increasing (locations segs c.path) := by
    rw [← hlo]; exact hr.inv.incr _ _ ho
  have hlt : ∀ l ∈ locations segs c.path, l.dataBlock < t.index.dataBlocks.length := by
    intro l hl
    rw [← hlo] at hl
    obtain ⟨b, _, _, hb, _⟩ := hr.inv.valid _ _ ho l hl
    exact (List.getElem?_eq_some_iff.mp hb).1
  have hcount : t.index.dataBlocks.length = (dataPrefixes segs).length := by
    have := congrArg List.length hr.blocks
    simpa using this
  let g : List Segment → List α := fun pre =>
    (deliveredIn S.memSize pre c.path start).map (Cell.value dec S.memSize t.bytes)
  let W : Nat → List α := fun B => ((dataPrefixes segs)[B]?.map g).getD []
  have hgiven : ∀ B, given W B = (((dataPrefixes segs).take B).flatMap fun pre =>
      deliveredIn S.memSize pre c.path start).map (Cell.value dec S.memSize t.bytes) := by
    intro B
    rw [List.map_flatMap]
    exact flatMap_range_getElem? (dataPrefixes segs) g B
  have hex := executeSingle_outcome (S := S) (t := t) (start := start)
    (ls := locations segs c.path) (out := out) W
    (blockFault S.supported S.natural S.memSize t.bytes.length segs c.path start) ?_ ?_
    t.index.dataBlocks.length 0 (by
      have : given W 0 = [] := rfl
      rw [this]
      exact List.length_pos_iff.mpr hne)
  · have h0 : given W 0 = [] := rfl
    rw [h0, overlay_nil, List.length_nil, Nat.sub_zero, Nat.zero_add,
      planFault_eq S.supported S.natural S.memSize t.bytes.length segs c.path start W (by
        intro B pre hB
        show (((dataPrefixes segs)[B]?.map g).getD []).length = _
        rw [hB]
        exact List.length_map _) _ _ _ (by omega), List.drop_zero, hgiven, hcount, List.take_length,
      ← List.range_eq_range'] at hex
    have hread : t.readChannelFrom S c start out =
        executePlan S t ((List.range (dataPrefixes segs).length).filterMap
          (fun block => visitAll start block [locations segs c.path])) [⟨out, 0⟩] >>=
          fun ps => pure ((ps.map (·.output)).headD []) := by
      unfold TdmsFile.readChannelFrom
      rw [hpos]
      show (readPlan [locations segs c.path] start >>= fun plan =>
        executePlan S t plan [⟨out, 0⟩] >>= fun ps => pure ((ps.map (·.output)).headD [])) = _
      rw [readPlan_eq start t.index.dataBlocks.length [locations segs c.path]
        (by intro ls hls; rw [List.mem_singleton.mp hls]; exact hinc)
        (by intro ls hls; rw [List.mem_singleton.mp hls]; exact hlt), hcount]
      rfl
    rw [hread]
    refine ⟨fun e he => ?_, fun hn => ?_⟩
    · rw [hex.1 e he]; rfl
    · obtain ⟨ps, hps, hout⟩ := hex.2 hn
      rw [hps]
      show Except.ok ((ps.map (·.output)).headD []) = _
      rw [hout]
      rfl
  · intro B hv
    have hcond : ∀ pre, (dataPrefixes segs)[B]? = some pre →
        ¬ (0 < samplesIn pre c.path ∧ start < sampleCount pre c.path) := by
      rintro pre hpre ⟨h1, h2⟩
      obtain ⟨pl, hpl⟩ := visit_of_segs hpre h1 h2
      rw [hv] at hpl
      cases hpl
    constructor
    · show ((dataPrefixes segs)[B]?.map g).getD [] = _
      cases hpre : (dataPrefixes segs)[B]? with
      | none => rfl
      | some pre =>
        show (deliveredIn S.memSize pre c.path start).map _ = _
        unfold deliveredIn
        rw [if_neg (hcond pre hpre)]
        rfl
    · intro room
      unfold blockFault
      cases hpre : (dataPrefixes segs)[B]? with
      | none => rfl
      | some pre =>
        show faultIn _ _ _ _ pre _ _ _ = none
        unfold faultIn
        rw [if_neg (hcond pre hpre)]
  · intro B pl hv
    obtain ⟨pre, l, hpre, hprem, hact, hfind, hidx, hli, hlB, hln, hsk, hpos', hsc, hst⟩ := visit_segs hv
    obtain ⟨b, hb, hgb⟩ := hr.block hpre
    obtain ⟨s, hs, hbch, hblen, hblay⟩ := blockOf_fields hb
    obtain ⟨hm1, m, hm⟩ := layout_at h hpre hidx
    obtain ⟨had1, had2, had3⟩ := hadd pre hprem hpos'
    refine ⟨b, hgb, fun out' => ?_⟩
    have hholds : b.Holds S pl.index m pl.samplesToSkip := by
      constructor
      · exact had2 b hb
      · rw [hbch, hm1, hm]
      · unfold samplesIn at hpos'
        rw [if_pos hact] at hpos'
        have hv : valuesPerChunk pre c.path = m.numberOfValues := by unfold valuesPerChunk; rw [hm]
        rw [hv] at hpos'
        exact Nat.pos_of_mul_pos_right hpos'
      · intro _
        rw [hsk]
        omega
      · rw [hbch]
        exact had3 _ hidx
    have hW : W B = (b.delivered pl.index m S.memSize pl.samplesToSkip).map
        fun p => dec b.byteOrder ((t.bytes.drop p).take S.memSize) := by
      show ((dataPrefixes segs)[B]?.map g).getD [] = _
      rw [hpre]
      show (deliveredIn S.memSize pre c.path start).map _ = _
      unfold deliveredIn
      rw [if_pos ⟨hpos', hst⟩, hb, hidx, hm]
      dsimp only
      rw [List.map_map, hsk]
      rfl
    have hE : ∀ room, blockFault S.supported S.natural S.memSize t.bytes.length segs c.path start B room =
        b.fault S.supported S.natural S.memSize t.bytes.length pl.index m pl.samplesToSkip room := by
      intro room
      unfold blockFault
      rw [hpre]
      show faultIn _ _ _ _ pre _ _ _ = _
      unfold faultIn
      rw [if_pos ⟨hpos', hst⟩, hb, hidx, hm, hsk]
    have hconv : ∀ x, BlockOutcome S dec t.bytes b pl.index m pl.samplesToSkip 0 out' x →
        Yields (W B) (blockFault S.supported S.natural S.memSize t.bytes.length segs c.path start B) out' x := by
      intro x hx
      unfold BlockOutcome at hx
      unfold Yields
      rw [hE, hW, List.length_map]
      revert hx
      cases b.fault S.supported S.natural S.memSize t.bytes.length pl.index m pl.samplesToSkip out'.length with
      | some e =>
        intro hx
        refine ⟨?_, fun h => by cases h⟩
        intro e' he'
        cases he'
        exact hx
      | none =>
        intro hx
        exact ⟨fun e he => (by cases he), fun _ => hx⟩
    obtain ⟨h1, h2⟩ := hholds.outcome hS hsh hmem 0 out'
    exact ⟨hconv _ h1, fun hz => hconv _ (h2 hz)⟩

end

/-! ## The types -/

theorem exact_short {w : Nat} {f : Bytes} {p : Nat} (h : f.length < p + w) (hw : 0 < w) :
    Rd.exact w f p = .error eofFail := by
  unfold Rd.exact
  rw [if_neg (by omega)]

theorem numeric_short (w : Nat) (n : DataType) (sup : List DataType) (hw : 0 < w) : (numeric w n sup).Short := by
  intro e f p h
  show (Rd.exact w >>= fun b => pure (BitVec.ofNat (8 * w) (decNat e b))) f p = _
  exact Rd.bind_error (exact_short h hw)

theorem complex_short (w : Nat) (t c : DataType) (hw : 0 < w) : (complexStorage w t c).Short := by
  intro e f p h
  replace h : f.length < p + w * 2 := h
  show (((numeric w c [c]).read e >>= fun r => (numeric w c [c]).read e >>= fun i =>
      pure (⟨r, i⟩ : Complex (BitVec (8 * w)))) : Rd _) f p = _
  by_cases h1 : p + w ≤ f.length
  · rw [Rd.bind_ok (numeric_reads _ _ _ _ _ _ h1)]
    exact Rd.bind_error (numeric_short w c [c] hw e f (p + w) (by show f.length < p + w + w; omega))
  · exact Rd.bind_error (numeric_short w c [c] hw e f p (by show f.length < p + w; omega))

theorem STy.short (al : Alloc) (t : STy) (h : Format.fixedTy t = true) : (t.storage al).Short := by
  cases t <;> first
    | (cases h; done)
    | exact numeric_short _ _ _ (by decide)
    | exact complex_short _ _ _ (by decide)
    | (intro e f p hp; exact Rd.bind_error (exact_short hp (by decide)))

end Tedium
