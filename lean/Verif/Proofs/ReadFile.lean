import Verif.Proofs.Read

/-! # Reading the channels of a file, in terms of its segments -/

namespace Tedium
open PlanSpec SegSpec

section
variable {α : Type} {S : Storage α} {dec : Endian → Bytes → α}

theorem Refines.block {segs : List Segment} {ix : Index} (h : Refines segs ix) {i : Nat} {pre : List Segment}
    (hp : (dataPrefixes segs)[i]? = some pre) : ∃ b, blockOf pre = some b ∧ ix.getDataBlock i = some b := by
  have := congrArg (fun l => l[i]?) h.blocks
  simp only [List.getElem?_map, hp, Option.map_some] at this
  cases hb : ix.dataBlocks[i]? with
  | none => rw [hb] at this; cases this
  | some b =>
    rw [hb] at this
    simp only [Option.map_some, Option.some.injEq] at this
    exact ⟨b, this.symm, hb⟩

theorem Refines.positions {segs : List Segment} {ix : Index} (h : Refines segs ix) {c : ChannelPath}
    (hl : Listed (entries segs) c.path) : ix.getChannelDataPositions c = some (locations segs c.path) := by
  unfold Index.getChannelDataPositions
  rw [h.obj.listed _ hl]
  rfl

theorem blockOf_fields {pre : List Segment} {b : DataBlock} (h : blockOf pre = some b) :
    ∃ s, pre.getLast? = some s ∧ b.channels = activeLayouts pre ∧ b.length = rawBytes pre ∧
      b.layout = if s.toc.dataIsInterleaved then .interleaved else .contigious := by
  unfold blockOf at h
  obtain ⟨s, hs, rfl⟩ := Option.map_eq_some_iff.mp h
  refine ⟨s, hs, rfl, ?_, rfl⟩
  unfold rawBytes
  rw [hs]

theorem chunks_ordinary {pre : List Segment}
    (h : ∀ m ∈ activeLayouts pre, Format.ordinary m.dataType = true ∧ m.totalSizeBytes = none) :
    chunks pre = rawBytes pre / chunkBytesOf (activeLayouts pre) := by
  unfold chunks
  rw [if_neg]
  · have : chunkBytes pre = chunkBytesOf (activeLayouts pre) := by
      unfold chunkBytes chunkBytesOf
      congr 1
      apply List.map_congr_left
      intro m hm
      rw [Format.bytesOf_ordinary (h m hm).1]
    rw [this]
    split
    · rename_i h0; rw [h0, Nat.div_zero]
    · rfl
  · rw [Bool.not_eq_true, List.any_eq_false]
    intro m hm
    rw [(h m hm).2]
    simp

/-- what a visit means for the segments -/
theorem visit_segs {segs : List Segment} {start B : Nat} {p : Text} {pl : ChannelReadPlan}
    (hv : visit start B (locations segs p) = some pl) :
    ∃ pre l, (dataPrefixes segs)[B]? = some pre ∧ pre ∈ dataPrefixes segs ∧ p ∈ active pre ∧
      (locations segs p).find? (fun l => l.dataBlock == B) = some l ∧
      (active pre).idxOf? p = some pl.index ∧ l.channelIndex = pl.index ∧ l.dataBlock = B ∧
      l.numberOfSamples = samplesIn pre p ∧
      pl.samplesToSkip = start - sampleCount pre.dropLast p ∧ 0 < samplesIn pre p ∧
      sampleCount pre p = sampleCount pre.dropLast p + samplesIn pre p ∧
      start < sampleCount pre p := by
  unfold visit at hv
  cases hf : (locations segs p).find? (fun l => l.dataBlock == B) with
  | none => rw [hf] at hv; cases hv
  | some l =>
    rw [hf] at hv
    dsimp only at hv
    have hl := List.mem_of_find?_eq_some hf
    have hlB : l.dataBlock = B := by simpa using List.find?_some hf
    obtain ⟨pre, h1, h2, h3, h4⟩ := mem_locations hl
    rw [hlB] at h1
    obtain ⟨_, hne, hd1, hd2⟩ := dataPrefixes_take segs B pre h1
    have hlt := (List.getElem?_eq_some_iff.mp h1).1
    have hsb : samplesBefore (locations segs p) B = sampleCount pre.dropLast p := by
      rw [samplesBefore_locations]; unfold sampleCount; rw [hd2]
    have hsc : sampleCount pre p = sampleCount pre.dropLast p + samplesIn pre p := by
      unfold sampleCount
      rw [hd1, hd2, List.take_add_one, h1]
      simp
    by_cases hc : 0 < l.numberOfSamples ∧ start < samplesBefore (locations segs p) B + l.numberOfSamples
    · rw [if_pos hc] at hv
      cases hv
      refine ⟨pre, l, h1, List.mem_of_getElem? h1, h4, rfl, h2, rfl, hlB, h3, by rw [hsb], ?_, hsc, ?_⟩
      · rw [← h3]; exact hc.1
      · rw [hsc, ← hsb, ← h3]; exact hc.2
    · rw [if_neg hc] at hv; cases hv

theorem together_segs {segs : List Segment} {t : TdmsFile} (h : replay Index.new segs = .ok t.index)
    (hf : t.bytes.length < 2 ^ 63) (start : Nat) (cs : List (ChannelPath × List α))
    (B : Nat) {supported : List DataType}
    (hread : ∀ c ∈ cs, ∀ pre, (dataPrefixes segs)[B]? = some pre → c.1.path ∈ active pre →
      start < sampleCount pre c.1.path → 0 < samplesIn pre c.1.path →
      Readable supported t.bytes pre c.1.path start)
    (htype : ∀ c ∈ cs, ∀ pre, (dataPrefixes segs)[B]? = some pre → c.1.path ∈ active pre →
      start < sampleCount pre c.1.path → 0 < samplesIn pre c.1.path → 0 < c.2.length →
      ∀ m, layoutOf (entries pre) c.1.path = some m → m.dataType ∈ S.supported)
    (hdist : cs.Pairwise (fun c d => c.1.path ≠ d.1.path))
    (hstep : ∀ c ∈ cs, ∀ d ∈ cs, InStep segs c.1.path d.1.path)
    (hlen : ∀ c ∈ cs, ∀ d ∈ cs, (∃ pre ∈ dataPrefixes segs, c.1.path ∈ active pre ∧ d.1.path ∈ active pre) →
      c.2.length = d.2.length)
    (hB : visitAll start B (cs.map (fun c => locations segs c.1.path)) ≠ none) :
    ∃ b k n count L, Together S dec (locSamples dec t) t start B
      (cs.map (fun c => (locations segs c.1.path, c.2))) b k n count L := by
  have hr := replay_refines h
  -- a channel that is visited
  have hex : ∃ c ∈ cs, ∃ pl, visit start B (locations segs c.1.path) = some pl := by
    unfold visitAll at hB
    split at hB
    · rename_i ha
      rw [List.any_map, List.any_map, List.any_eq_true] at ha
      obtain ⟨c, hc, hv⟩ := ha
      exact ⟨c, hc, Option.isSome_iff_exists.mp hv⟩
    · exact absurd rfl hB
  obtain ⟨c, hc, pl, hv⟩ := hex
  obtain ⟨pre, l, hpre, hprem, hact, hfind, hidx, hli, hlB, hln, hsk, hpos, hsc, hst⟩ := visit_segs hv
  obtain ⟨b, hb, hgb⟩ := hr.block hpre
  obtain ⟨s, hs, hbch, hblen, hblay⟩ := blockOf_fields hb
  have hrd := hread c hc pre hpre hact hst hpos
  obtain ⟨hm1, m, hm⟩ := layout_at h hpre hidx
  have hvpc : valuesPerChunk pre c.1.path = m.numberOfValues := by unfold valuesPerChunk; rw [hm]
  have hsamp : samplesIn pre c.1.path = m.numberOfValues * (b.length / chunkBytesOf b.channels) := by
    unfold samplesIn
    rw [if_pos hact, hvpc, chunks_ordinary hrd.ordinary, hblen, hbch]
  refine ⟨b, pl.samplesToSkip, m.numberOfValues, samplesIn pre c.1.path,
    c.2.length - (sampleCount pre.dropLast c.1.path - start), ?_⟩
  constructor
  · exact hgb
  · constructor
    · obtain ⟨b', hb', hin⟩ := hrd.inside
      rw [hb] at hb'
      cases hb'
      exact hin
    · exact hf
    · intro m hm
      rw [hbch] at hm
      exact (hrd.ordinary m hm).1
    · exact hsamp
    · rw [hsk]; omega
    · intro hl
      rw [hblay] at hl
      have hfalse : s.toc.dataIsInterleaved = false := by
        cases hx : s.toc.dataIsInterleaved with
        | false => rfl
        | true => rw [hx] at hl; cases hl
      obtain ⟨m0, h0, h1, h2⟩ := hrd.contiguous ⟨s, hs, hfalse⟩
      refine ⟨m0, by rw [hbch]; exact h0, h1, ?_⟩
      rcases h2 with h2 | h2
      · exact Or.inl (by omega)
      · exact Or.inr (by rw [h2, hvpc])
    · intro hl
      rw [hblay] at hl
      have htrue : s.toc.dataIsInterleaved = true := by
        cases hx : s.toc.dataIsInterleaved with
        | true => rfl
        | false => rw [hx] at hl; cases hl
      rw [hblen, hbch]
      exact hrd.interleaved ⟨s, hs, htrue⟩
  · intro x hx plx hvx
    obtain ⟨d, hd, rfl⟩ := List.mem_map.mp hx
    replace hvx : visit start B (locations segs d.1.path) = some plx := hvx
    obtain ⟨pre', l', hpre', _, hact', hfind', hidx', hli', hlB', hln', hsk', hpos', hsc', hst'⟩ := visit_segs hvx
    rw [hpre] at hpre'
    cases hpre'
    obtain ⟨hvp, hcount⟩ := hstep c hc d hd pre hprem hact hact'
    have hsame : samplesIn pre d.1.path = samplesIn pre c.1.path := by
      unfold samplesIn; rw [if_pos hact, if_pos hact', hvp]
    obtain ⟨hm1', m', hm'⟩ := layout_at h hpre hidx'
    have hvpc' : valuesPerChunk pre d.1.path = m'.numberOfValues := by unfold valuesPerChunk; rw [hm']
    refine ⟨by rw [hsk, hsk', hcount], ?_, m', ?_, ?_, ?_, ?_⟩
    · show d.2.length - (taken (locSamples dec t) start B (locations segs d.1.path)).length = _
      have htk : (taken (locSamples dec t) start B (locations segs d.1.path)).length
          = sampleCount pre.dropLast d.1.path - start := by
        unfold taken
        have hld : Listed (entries segs) d.1.path := by
          apply Classical.byContradiction
          intro hnl
          have := (hr.obj.unlisted _ hnl).2
          rw [this] at hvx
          simp [visit] at hvx
        rw [List.length_drop, length_before (locSamples_length hr.inv (hr.positions hld)), samplesBefore_locations]
        obtain ⟨_, _, _, hd2⟩ := dataPrefixes_take segs B pre hpre
        unfold sampleCount
        rw [hd2]
      rw [htk, ← hcount, hlen c hc d hd ⟨pre, hprem, hact, hact'⟩]
    · rw [hbch, hm1', hm']
    · intro hL
      have := hlen c hc d hd ⟨pre, hprem, hact, hact'⟩
      exact htype d hd pre hpre hact' hst' hpos' (by omega) m' hm'
    · rw [← hvpc', ← hvp, hvpc]
    · intro l2 hl2
      replace hl2 : (locations segs d.1.path).find? (fun l => l.dataBlock == B) = some l2 := hl2
      rw [hfind'] at hl2
      cases hl2
      refine ⟨by rw [hln', hsame], ?_⟩
      unfold locSamples
      rw [hlB', hgb]
      dsimp only
      rw [hli', hbch, hm1', hm']
      dsimp only
      rw [hln', hsame]
  · rw [List.pairwise_map]
    refine hdist.imp ?_
    intro x y hne p q hp hq heq
    replace hp : visit start B (locations segs x.1.path) = some p := hp
    replace hq : visit start B (locations segs y.1.path) = some q := hq
    obtain ⟨pre1, _, hpre1, _, _, _, hidx1, _⟩ := visit_segs hp
    obtain ⟨pre2, _, hpre2, _, _, _, hidx2, _⟩ := visit_segs hq
    rw [hpre1] at hpre2
    cases hpre2
    have e1 := getElem?_of_idxOf? hidx1
    have e2 := getElem?_of_idxOf? hidx2
    rw [heq, e2] at e1
    exact hne (Option.some.inj e1).symm

theorem flatMap_channelSamples {segs : List Segment} {t : TdmsFile} (h : replay Index.new segs = .ok t.index)
    (p : Text) : (locations segs p).flatMap (locSamples dec t) = channelSamples dec t.bytes segs p := by
  have hr := replay_refines h
  unfold channelSamples
  apply flatMap_locations
  intro i pre hpre
  obtain ⟨b, hb, hgb⟩ := hr.block hpre
  obtain ⟨s, hs, hbch, _⟩ := blockOf_fields hb
  constructor
  · intro j hj
    obtain ⟨hm1, m, hm⟩ := layout_at h hpre hj
    rw [hb, hj, hm]
    unfold locSamples
    dsimp only
    rw [hgb]
    dsimp only
    rw [hbch, hm1, hm]
    dsimp only
    congr 1
    unfold samplesIn
    rw [if_pos (List.mem_of_getElem? (getElem?_of_idxOf? hj))]
  · intro hj
    rw [hb, hj]

theorem readChannelsFrom_segs (hS : S.Fixed dec) {segs : List Segment} {t : TdmsFile}
    (h : replay Index.new segs = .ok t.index) (hf : t.bytes.length < 2 ^ 63) (start : Nat)
    (cs : List (ChannelPath × List α))
    (hl : ∀ c ∈ cs, Listed (entries segs) c.1.path)
    (hread : ∀ c ∈ cs, ReadableFrom S.supported t.bytes segs c.1.path start)
    (hdist : cs.Pairwise (fun c d => c.1.path ≠ d.1.path))
    (hstep : ∀ c ∈ cs, ∀ d ∈ cs, InStep segs c.1.path d.1.path)
    (hlen : ∀ c ∈ cs, ∀ d ∈ cs, (∃ pre ∈ dataPrefixes segs, c.1.path ∈ active pre ∧ d.1.path ∈ active pre) →
      c.2.length = d.2.length) :
    t.readChannelsFrom S (cs.map (·.1)) start (cs.map (·.2)) =
      .ok (cs.map (fun c => overlay c.2 ((channelSamples dec t.bytes segs c.1.path).drop start))) := by
  have hr := replay_refines h
  rw [readChannelsFrom_eq (dec := dec) hS hr.inv start cs (fun c => locations segs c.path)
    (fun c hc => hr.positions (hl c hc))
    (fun B hB _ => together_segs h hf start cs B (fun c hc pre hpre => hread c hc pre (List.mem_of_getElem? hpre))
      (fun c hc pre hpre hact hst hpos _ m hm => by
        obtain ⟨m', hm', hsup⟩ := (hread c hc pre (List.mem_of_getElem? hpre) hact hst hpos).stored
        rw [hm] at hm'
        cases hm'
        exact hsup)
      hdist hstep hlen hB)]
  congr 1
  apply List.map_congr_left
  intro c _
  rw [flatMap_channelSamples h]

theorem readChannelFrom_segs (hS : S.Fixed dec) {segs : List Segment} {t : TdmsFile}
    (h : replay Index.new segs = .ok t.index) (hf : t.bytes.length < 2 ^ 63) (c : ChannelPath)
    (hl : Listed (entries segs) c.path) (start : Nat) (out : List α)
    (hread : ReadableIn S.supported t.bytes segs c.path start out.length) :
    t.readChannelFrom S c start out =
      .ok (overlay out ((channelSamples dec t.bytes segs c.path).drop start)) := by
  have hr := replay_refines h
  rw [readChannelFrom_eq (dec := dec) hS hr.inv start c out (hr.positions hl), flatMap_channelSamples h]
  intro B hB hneed
  have hread' : ∀ d ∈ [(c, out)], ∀ pre, (dataPrefixes segs)[B]? = some pre → d.1.path ∈ active pre →
      start < sampleCount pre d.1.path → 0 < samplesIn pre d.1.path → Readable S.supported t.bytes pre d.1.path start := by
    intro d hd pre hpre hact hst hpos
    rw [List.mem_singleton.mp hd] at hact hst hpos ⊢
    refine hread pre (List.mem_of_getElem? hpre) hact hst ?_ hpos
    obtain ⟨_, _, _, hd2⟩ := dataPrefixes_take segs B pre hpre
    have hbefore : samplesBefore (locations segs c.path) B = sampleCount pre.dropLast c.path := by
      rw [samplesBefore_locations]; unfold sampleCount; rw [hd2]
    rcases hneed with hfirst | ⟨x, hx, hlt⟩
    · -- the first block of the plan: nothing before it reaches `start`
      have hle : sampleCount pre.dropLast c.path ≤ start := by
        apply Classical.byContradiction
        intro hgt
        rw [← hbefore] at hgt
        -- take the earliest block whose end is beyond start
        have key : ∀ n, n ≤ B → samplesBefore (locations segs c.path) n ≤ start := by
          intro n
          induction n with
          | zero =>
            intro _
            rw [samplesBefore_locations]
            simp
          | succ n ih =>
            intro hn
            have ihn := ih (by omega)
            have hv : visit start n (locations segs c.path) = none := by
              have hva := hfirst n (by omega)
              cases hv : visit start n (locations segs c.path) with
              | none => rfl
              | some pl =>
                unfold visitAll at hva
                simp [hv] at hva
            have hinc : Increasing (locations segs c.path) := by
              have := hr.obj.listed _ hl
              exact hr.inv.incr _ _ this
            unfold visit at hv
            rcases hinc.at n with ⟨hf, _, h3⟩ | ⟨l, hf, _, _, _, h3⟩
            · unfold samplesBefore at ihn ⊢
              rw [h3]
              exact ihn
            · rw [hf] at hv
              dsimp only at hv
              have hsb : samplesBefore (locations segs c.path) (n + 1)
                  = samplesBefore (locations segs c.path) n + l.numberOfSamples := by
                unfold samplesBefore
                rw [h3]
                simp
              rw [hsb]
              split at hv
              · cases hv
              · omega
        exact hgt (key B (Nat.le_refl _))
      omega
    · rw [List.mem_singleton.mp hx] at hlt
      replace hlt : (taken (locSamples dec t) start B (locations segs c.path)).length < out.length := hlt
      unfold taken at hlt
      rw [List.length_drop, length_before (locSamples_length hr.inv (hr.positions hl)), hbefore] at hlt
      omega
  refine together_segs h hf start [(c, out)] B hread' ?_ (List.pairwise_singleton _ _) ?_ ?_ ?_
  · intro d hd pre hpre hact hst hpos _ m hm
    obtain ⟨m', hm', hsup⟩ := (hread' d hd pre hpre hact hst hpos).stored
    rw [hm] at hm'
    cases hm'
    exact hsup
  · intro x hx y hy
    rw [List.mem_singleton.mp hx, List.mem_singleton.mp hy]
    intro pre _ _ _
    exact ⟨rfl, rfl⟩
  · intro x hx y hy _
    rw [List.mem_singleton.mp hx, List.mem_singleton.mp hy]
  · unfold visitAll
    cases hv : visit start B (locations segs c.path) with
    | none => exact absurd hv hB
    | some pl => simp [hv]

theorem length_channelSamples {segs : List Segment} {ix : Index} (h : replay Index.new segs = .ok ix) (f : Bytes) (p : Text) :
    (channelSamples dec f segs p).length = sampleCount segs p := by
  unfold channelSamples sampleCount
  rw [List.length_flatMap]
  congr 1
  apply List.map_congr_left
  intro pre hpre
  obtain ⟨i, hi⟩ := List.mem_iff_getElem?.mp hpre
  obtain ⟨b, hb, _⟩ := (replay_refines h).block hi
  rw [hb]
  cases hj : (active pre).idxOf? p with
  | none => unfold samplesIn; rw [if_neg (idxOf?_eq_none.mp hj)]; rfl
  | some j =>
    obtain ⟨_, m, hm⟩ := layout_at h hi hj
    rw [hm]
    simp [DataBlock.samples]

end
end Tedium
