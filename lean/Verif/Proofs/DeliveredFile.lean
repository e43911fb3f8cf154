import Verif.Proofs.Delivered
import Verif.Proofs.Fixed

/-! # What a read of a file delivers -/

namespace Tedium
open PlanSpec SegSpec

section
variable {α : Type} {S : Storage α} {dec : Endian → Bytes → α}

theorem samplesIn_active {pre : List Segment} {p : Text} (h : 0 < samplesIn pre p) : p ∈ active pre := by
  unfold samplesIn at h
  split at h
  · assumption
  · omega

theorem visit_of_segs {segs : List Segment} {B : Nat} {pre : List Segment} (hB : (dataPrefixes segs)[B]? = some pre)
    {p : Text} {start : Nat} (h0 : 0 < samplesIn pre p) (h2 : start < sampleCount pre p) :
    ∃ pl, visit start B (locations segs p) = some pl := by
  have hact := samplesIn_active h0
  obtain ⟨j, hj⟩ := Option.isSome_iff_exists.mp (List.isSome_idxOf?.mpr hact)
  have hmem : (⟨B, j, valuesPerChunk pre p * chunks pre⟩ : DataLocation) ∈ locations segs p := by
    unfold locations
    refine List.mem_filterMap.mpr ⟨(pre, B), ?_, ?_⟩
    · rw [List.mem_iff_getElem?]
      exact ⟨B, by rw [List.getElem?_zipIdx, hB]; simp⟩
    · dsimp only
      rw [hj]; rfl
  unfold visit
  cases hf : (locations segs p).find? (fun l => l.dataBlock == B) with
  | none =>
    exfalso
    have := List.find?_eq_none.mp hf _ hmem
    simp at this
  | some l =>
    have hlB : l.dataBlock = B := by simpa using List.find?_some hf
    obtain ⟨pre', hp', hidx, hn, _⟩ := mem_locations (List.mem_of_find?_eq_some hf)
    rw [hlB, hB] at hp'
    cases hp'
    obtain ⟨_, _, hd1, hd2⟩ := dataPrefixes_take segs B pre hB
    have hsb : samplesBefore (locations segs p) B = sampleCount pre.dropLast p := by
      rw [samplesBefore_locations]; unfold sampleCount; rw [hd2]
    have hsc : sampleCount pre p = sampleCount pre.dropLast p + samplesIn pre p := by
      unfold sampleCount
      rw [hd1, hd2, List.take_add_one, hB]
      simp
    dsimp only
    rw [if_pos (by omega)]
    exact ⟨_, rfl⟩

theorem flatMap_range_getElem? {β γ : Type} (l : List β) (g : β → List γ) : ∀ n,
    (List.range n).flatMap (fun i => (l[i]?.map g).getD []) = (l.take n).flatMap g := by
  intro n
  induction n with
  | zero => simp
  | succ n ih =>
    rw [List.range_succ, List.flatMap_append, ih, List.take_add_one, List.flatMap_append]
    congr 1
    cases hn : l[n]? <;> simp [hn]

/-- What `read_channel_from` leaves in the buffer, for every layout of the segments. -/
theorem readChannelFrom_delivered (hS : S.Reads dec) (hnar : S.Narrow) (hmem : S.memSize < 2 ^ 63)
    {segs : List Segment} {t : TdmsFile} (h : replay Index.new segs = .ok t.index)
    (hf : t.bytes.length < 2 ^ 63) (c : ChannelPath) (hl : Listed (entries segs) c.path) (start : Nat)
    (out : List α) (hserved : ServedIn S.supported S.memSize t.bytes segs c.path start out.length) :
    t.readChannelFrom S c start out = .ok (overlay out
      ((delivered S.memSize segs c.path start).map (Cell.value dec S.memSize t.bytes))) := by
  have hr := replay_refines h
  have hpos := hr.positions hl
  obtain ⟨o, ho, hlo⟩ := Option.map_eq_some_iff.mp hpos
  have hinc : Increasing (locations segs c.path) := by
    rw [← hlo]; exact hr.inv.incr _ _ ho
  have hlt : ∀ l ∈ locations segs c.path, l.dataBlock < t.index.dataBlocks.length := by
    intro l hl
    rw [← hlo] at hl
    obtain ⟨b, _, _, hb, _⟩ := hr.inv.valid _ _ ho l hl
    exact (List.getElem?_eq_some_iff.mp hb).1
  have hcount : t.index.dataBlocks.length = (dataPrefixes segs).length := by
    have := congrArg List.length hr.blocks
    simpa using this
  let g : List Segment → List α := fun pre =>
    (deliveredIn S.memSize pre c.path start).map (Cell.value dec S.memSize t.bytes)
  let W : Nat → List α := fun B => ((dataPrefixes segs)[B]?.map g).getD []
  have hgiven : ∀ B, given W B = (((dataPrefixes segs).take B).flatMap fun pre =>
      deliveredIn S.memSize pre c.path start).map (Cell.value dec S.memSize t.bytes) := by
    intro B
    rw [List.map_flatMap]
    exact flatMap_range_getElem? (dataPrefixes segs) g B
  have hex := executeSingle (S := S) (dec := dec) hS hnar hmem (t := t) (start := start)
    (ls := locations segs c.path) (out := out) W ?_ ?_ t.index.dataBlocks.length 0 (by
      have : given W 0 = [] := rfl
      rw [this]
      simp only [List.length_nil]
      omega)
  · obtain ⟨ps, hps, hout⟩ := hex
    unfold TdmsFile.readChannelFrom
    rw [hpos]
    show (readPlan [locations segs c.path] start >>= fun plan =>
      executePlan S t plan [⟨out, 0⟩] >>= fun ps => pure ((ps.map (·.output)).headD [])) = _
    rw [readPlan_eq start t.index.dataBlocks.length [locations segs c.path]
      (by intro ls hls; rw [List.mem_singleton.mp hls]; exact hinc)
      (by intro ls hls; rw [List.mem_singleton.mp hls]; exact hlt)]
    show (executePlan S t (plan start t.index.dataBlocks.length [locations segs c.path]) [⟨out, 0⟩] >>= _) = _
    have h0 : given W 0 = [] := rfl
    rw [h0, overlay_nil] at hps
    unfold plan
    rw [List.range_eq_range']
    show (executePlan S t _ [⟨out, ([] : List α).length⟩] >>= _) = _
    rw [hps]
    show Except.ok ((ps.map (·.output)).headD []) = _
    rw [hout, Nat.zero_add, hgiven, hcount, List.take_length]
    rfl
  · intro B hv
    show ((dataPrefixes segs)[B]?.map g).getD [] = _
    cases hpre : (dataPrefixes segs)[B]? with
    | none => rfl
    | some pre =>
      show (deliveredIn S.memSize pre c.path start).map _ = _
      unfold deliveredIn
      rw [if_neg]
      · rfl
      · rintro ⟨h1, h2⟩
        obtain ⟨pl, hpl⟩ := visit_of_segs hpre h1 h2
        rw [hv] at hpl
        cases hpl
  · intro B pl hv hroom
    obtain ⟨pre, l, hpre, hprem, hact, hfind, hidx, hli, hlB, hln, hsk, hpos', hsc, hst⟩ := visit_segs hv
    obtain ⟨b, hb, hgb⟩ := hr.block hpre
    obtain ⟨s, hs, hbch, hblen, hblay⟩ := blockOf_fields hb
    obtain ⟨hm1, m, hm⟩ := layout_at h hpre hidx
    obtain ⟨_, _, _, hd2⟩ := dataPrefixes_take segs B pre hpre
    rw [hgiven, List.length_map, ← hd2] at hroom
    have hsv := hserved pre hprem hact hpos' hst hroom
    obtain ⟨m', hm', hty⟩ := hsv.stored
    rw [hm] at hm'
    cases hm'
    refine ⟨b, m, hgb, ?_, ?_⟩
    · constructor
      · obtain ⟨b', hb', hin⟩ := hsv.inside
        rw [hb] at hb'
        cases hb'
        exact hin
      · exact hf
      · rw [hbch, hm1, hm]
      · exact hty
      · unfold samplesIn at hpos'
        rw [if_pos hact] at hpos'
        have hv : valuesPerChunk pre c.path = m.numberOfValues := by unfold valuesPerChunk; rw [hm]
        rw [hv] at hpos'
        exact Nat.pos_of_mul_pos_right hpos'
      · intro hlay
        rw [hblay] at hlay
        have hfalse : s.toc.dataIsInterleaved = false := by
          cases hx : s.toc.dataIsInterleaved with
          | false => rfl
          | true => rw [hx] at hlay; cases hlay
        obtain ⟨h1, h2⟩ := hsv.contiguous ⟨s, hs, hfalse⟩
        rw [hbch]
        exact ⟨h1, h2 _ hidx⟩
      · intro hlay
        rw [hblay] at hlay
        have htrue : s.toc.dataIsInterleaved = true := by
          cases hx : s.toc.dataIsInterleaved with
          | true => rfl
          | false => rw [hx] at hlay; cases hlay
        rw [hbch, hsk]
        exact hsv.interleaved ⟨s, hs, htrue⟩ _ hidx
    · show ((dataPrefixes segs)[B]?.map g).getD [] = _
      rw [hpre]
      show (deliveredIn S.memSize pre c.path start).map _ = _
      unfold deliveredIn
      rw [if_pos ⟨hpos', hst⟩, hb, hidx, hm]
      dsimp only
      rw [List.map_map, hsk]
      rfl

end

/-! ## The types -/

theorem Storage.Fixed.narrow {α : Type} {S : Storage α} {dec : Endian → Bytes → α} (h : S.Fixed dec) : S.Narrow := by
  intro dt hdt
  obtain ⟨h1, h2⟩ := h.sizes dt hdt
  exact ⟨Format.ordinary_pos h2, by omega⟩

theorem STy.reads_fixed (al : Alloc) (t : STy) (h : Format.fixedTy t = true) :
    (t.storage al).Reads (Format.decode t) ∧ (t.storage al).Narrow ∧ (t.storage al).memSize < 2 ^ 63 := by
  by_cases ho : Format.ordinaryTy t = true
  · have hfix := STy.fixed al t ho
    refine ⟨hfix.toReads, hfix.narrow, ?_⟩
    have hle : (t.storage al).memSize ≤ 24 := by
      cases t <;> simp [STy.storage, numeric, boolStorage, extendedStorage, timestampStorage, complexStorage,
        stringStorage]
    omega
  · cases t <;> first
      | (exact absurd rfl ho)
      | (cases h; done)
      | skip
    refine ⟨⟨(by decide : 0 < 16), ?_⟩, ?_, (by decide : 16 < 2 ^ 63)⟩
    · intro e f p hp
      replace hp : p + 16 ≤ f.length := hp
      show ((Rd.exact 16 >>= fun b => pure (BitVec.ofNat 128 (decNat e b))) : Rd _) f p = _
      rw [Rd.bind_ok (exact_reads hp)]
      rfl
    · intro dt hdt
      rw [List.mem_singleton.mp hdt]
      exact (by decide : 0 < 8 ∧ 8 ≤ 16)

end Tedium
