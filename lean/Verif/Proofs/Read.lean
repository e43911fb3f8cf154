import Verif.Proofs.Execute
import Verif.Proofs.Fixed
import Verif.Proofs.Session

/-! # Reading channels -/

namespace Tedium
open PlanSpec SegSpec

theorem snocInduction {β : Type} {P : List β → Prop} (nil : P []) (snoc : ∀ l a, P l → P (l ++ [a])) (l : List β) :
    P l := by
  rw [← List.reverse_reverse l]
  induction l.reverse with
  | nil => exact nil
  | cons a l ih => rw [List.reverse_cons]; exact snoc _ _ ih

namespace SegSpec

theorem dataPrefixes_take (segs : List Segment) : ∀ i pre, (dataPrefixes segs)[i]? = some pre →
    (∃ k, pre = segs.take (k + 1)) ∧ pre ≠ [] ∧ dataPrefixes pre = (dataPrefixes segs).take (i + 1) ∧
    dataPrefixes pre.dropLast = (dataPrefixes segs).take i := by
  induction segs using snocInduction with
  | nil => intro i pre h; simp [dataPrefixes] at h
  | snoc segs s ih =>
    intro i pre h
    rw [dataPrefixes_snoc] at h ⊢
    by_cases hi : i < (dataPrefixes segs).length
    · rw [List.getElem?_append_left hi] at h
      obtain ⟨⟨k, h1⟩, h2, h3, h4⟩ := ih i pre h
      refine ⟨?_, h2, ?_, ?_⟩
      · by_cases hk : k + 1 ≤ segs.length
        · exact ⟨k, by rw [List.take_append_of_le_length hk]; exact h1⟩
        · refine ⟨segs.length - 1, ?_⟩
          rw [List.take_of_length_le (by omega)] at h1
          have : segs ≠ [] := by intro hn; rw [hn] at h1; exact h2 h1
          have : 0 < segs.length := List.length_pos_iff.mpr this
          rw [List.take_append_of_le_length (by omega), List.take_of_length_le (by omega)]
          exact h1
      · rw [List.take_append_of_le_length (by omega)]; exact h3
      · rw [List.take_append_of_le_length (by omega)]; exact h4
    · rw [List.getElem?_append_right (by omega)] at h
      by_cases hr : s.toc.containsRawData = true
      · rw [if_pos hr] at h ⊢
        have h0 : i - (dataPrefixes segs).length = 0 := by
          cases hd : i - (dataPrefixes segs).length with
          | zero => rfl
          | succ n => rw [hd] at h; simp at h
        rw [h0] at h
        simp only [List.getElem?_cons_zero, Option.some.injEq] at h
        subst h
        refine ⟨⟨segs.length, by rw [List.take_of_length_le (by simp)]⟩, by simp, ?_, ?_⟩
        · rw [dataPrefixes_snoc, if_pos hr, List.take_of_length_le (by simp; omega)]
        · rw [List.dropLast_concat, List.take_append_of_le_length (by omega), List.take_of_length_le (by omega)]
      · rw [if_neg hr] at h
        simp at h

theorem samplesBefore_locations (segs : List Segment) (p : Text) (B : Nat) :
    samplesBefore (locations segs p) B = (((dataPrefixes segs).take B).map (fun pre => samplesIn pre p)).sum := by
  unfold samplesBefore locations
  have hgen : ∀ (l : List (List Segment)) (i B : Nat),
      ((((l.zipIdx i).filterMap (fun (x : List Segment × Nat) =>
        ((active x.1).idxOf? p).map fun j =>
          ({ dataBlock := x.2, channelIndex := j, numberOfSamples := valuesPerChunk x.1 p * chunks x.1 }
            : DataLocation))).filter (fun l => decide (l.dataBlock < i + B))).map (·.numberOfSamples)).sum
        = ((l.take B).map (fun pre => samplesIn pre p)).sum := by
    intro l
    induction l with
    | nil => intro i B; simp
    | cons x xs ih =>
      intro i B
      rw [List.zipIdx_cons, List.filterMap_cons]
      cases B with
      | zero =>
        rw [List.take_zero, List.map_nil, List.sum_nil]
        rw [List.filter_eq_nil_iff.mpr]
        · rfl
        · intro l hl
          have hmem : ∃ y ∈ (x :: xs).zipIdx i, ∃ j, l = ⟨y.2, j, valuesPerChunk y.1 p * chunks y.1⟩ := by
            rw [List.zipIdx_cons]
            cases hx : (active x).idxOf? p with
            | none =>
              rw [hx] at hl
              simp only [Option.map_none] at hl
              obtain ⟨y, hy, hyl⟩ := List.mem_filterMap.mp hl
              obtain ⟨j, _, hj⟩ := Option.map_eq_some_iff.mp hyl
              exact ⟨y, List.mem_cons_of_mem _ hy, j, hj.symm⟩
            | some j =>
              rw [hx] at hl
              simp only [Option.map_some] at hl
              rcases List.mem_cons.mp hl with rfl | hl
              · exact ⟨(x, i), List.mem_cons_self, j, rfl⟩
              · obtain ⟨y, hy, hyl⟩ := List.mem_filterMap.mp hl
                obtain ⟨j, _, hj⟩ := Option.map_eq_some_iff.mp hyl
                exact ⟨y, List.mem_cons_of_mem _ hy, j, hj.symm⟩
          obtain ⟨y, hy, j, rfl⟩ := hmem
          have := (zipIdx_mem hy).1
          simp only [Nat.add_zero, decide_eq_true_eq]
          omega
      | succ B =>
        rw [List.take_succ_cons, List.map_cons, List.sum_cons, ← ih (i + 1) B,
          show i + 1 + B = i + (B + 1) by omega]
        unfold samplesIn
        cases hx : (active x).idxOf? p with
        | none =>
          rw [if_neg (idxOf?_eq_none.mp hx)]
          simp only [Option.map_none, Nat.zero_add]
        | some j =>
          rw [if_pos (List.mem_of_getElem? (getElem?_of_idxOf? hx))]
          simp only [Option.map_some]
          rw [List.filter_cons_of_pos (by simp), List.map_cons, List.sum_cons]
  have := hgen (dataPrefixes segs) 0 B
  rw [Nat.zero_add] at this
  exact this

/-- what a location is -/
theorem mem_locations {segs : List Segment} {p : Text} {l : DataLocation} (h : l ∈ locations segs p) :
    ∃ pre, (dataPrefixes segs)[l.dataBlock]? = some pre ∧ (active pre).idxOf? p = some l.channelIndex ∧
      l.numberOfSamples = samplesIn pre p ∧ p ∈ active pre := by
  unfold locations at h
  obtain ⟨⟨pre, i⟩, hx, hl⟩ := List.mem_filterMap.mp h
  obtain ⟨j, hj, rfl⟩ := Option.map_eq_some_iff.mp hl
  have hz := (zipIdx_mem hx).2
  have hmem := List.mem_of_getElem? (getElem?_of_idxOf? hj)
  refine ⟨pre, by simpa using hz, hj, ?_, hmem⟩
  unfold samplesIn
  rw [if_pos hmem]

theorem flatMap_locations {β : Type} (segs : List Segment) (p : Text) (V : DataLocation → List β)
    (W : List Segment → List β)
    (h : ∀ i pre, (dataPrefixes segs)[i]? = some pre →
      (∀ j, (active pre).idxOf? p = some j → V ⟨i, j, valuesPerChunk pre p * chunks pre⟩ = W pre) ∧
      ((active pre).idxOf? p = none → W pre = [])) :
    (locations segs p).flatMap V = (dataPrefixes segs).flatMap W := by
  unfold locations
  have hgen : ∀ (l : List (List Segment)) (i : Nat),
      (∀ k pre, l[k]? = some pre →
        (∀ j, (active pre).idxOf? p = some j → V ⟨i + k, j, valuesPerChunk pre p * chunks pre⟩ = W pre) ∧
        ((active pre).idxOf? p = none → W pre = [])) →
      ((l.zipIdx i).filterMap (fun (x : List Segment × Nat) =>
        ((active x.1).idxOf? p).map fun j =>
          ({ dataBlock := x.2, channelIndex := j, numberOfSamples := valuesPerChunk x.1 p * chunks x.1 }
            : DataLocation))).flatMap V = l.flatMap W := by
    intro l
    induction l with
    | nil => intro i _; rfl
    | cons x xs ih =>
      intro i h
      rw [List.zipIdx_cons, List.filterMap_cons, List.flatMap_cons]
      have hx := h 0 x rfl
      have hxs := ih (i + 1) (fun k pre hk => by
        have := h (k + 1) pre (by simpa using hk)
        rw [show i + 1 + k = i + (k + 1) by omega]
        exact this)
      cases hj : (active x).idxOf? p with
      | none =>
        rw [hx.2 hj]
        simp only [Option.map_none, List.nil_append]
        exact hxs
      | some j =>
        simp only [Option.map_some, List.flatMap_cons]
        rw [hxs, ← hx.1 j hj]
        rfl
  exact hgen (dataPrefixes segs) 0 (fun k pre hk => by rw [Nat.zero_add]; exact h k pre hk)

end SegSpec

/-- the layout at the place of an active channel -/
theorem filterMap_getElem? {β γ : Type} (f : β → Option γ) : ∀ (l : List β) (j : Nat) (x : β),
    (∀ y ∈ l, ∃ z, f y = some z) → l[j]? = some x → (l.filterMap f)[j]? = f x := by
  intro l
  induction l with
  | nil => intro j x _ h; simp at h
  | cons y ys ih =>
    intro j x hall h
    obtain ⟨z, hz⟩ := hall y List.mem_cons_self
    rw [List.filterMap_cons, hz]
    cases j with
    | zero =>
      simp only [List.getElem?_cons_zero, Option.some.injEq] at h ⊢
      rw [← h, hz]
    | succ j =>
      simp only [List.getElem?_cons_succ] at h ⊢
      exact ih j x (fun y hy => hall y (List.mem_cons_of_mem _ hy)) h

theorem replay_take {segs : List Segment} {ix : Index} (h : replay Index.new segs = .ok ix) (k : Nat) :
    ∃ ix', replay Index.new (segs.take k) = .ok ix' := by
  have := replay_append Index.new (segs.take k) (segs.drop k)
  rw [List.take_append_drop, h] at this
  cases hr : replay Index.new (segs.take k) with
  | error e => rw [hr] at this; cases this
  | ok ix' => exact ⟨ix', rfl⟩

theorem layout_at {segs : List Segment} {ix : Index} (h : replay Index.new segs = .ok ix) {i : Nat} {pre : List Segment}
    (hp : (dataPrefixes segs)[i]? = some pre) {p : Text} {j : Nat} (hj : (active pre).idxOf? p = some j) :
    (activeLayouts pre)[j]? = layoutOf (entries pre) p ∧ ∃ m, layoutOf (entries pre) p = some m := by
  obtain ⟨⟨k, hk⟩, _⟩ := dataPrefixes_take segs i pre hp
  obtain ⟨ix', hix'⟩ := replay_take h (k + 1)
  rw [← hk] at hix'
  have hsome := (replay_refines hix').obj.activeSome
  have hget := getElem?_of_idxOf? hj
  refine ⟨?_, hsome p (List.mem_of_getElem? hget)⟩
  unfold activeLayouts
  exact filterMap_getElem? _ _ _ _ hsome hget

section
variable {α : Type} {S : Storage α} {dec : Endian → Bytes → α}

/-- The samples at a location. -/
def locSamples (dec : Endian → Bytes → α) (t : TdmsFile) (l : DataLocation) : List α :=
  match t.index.getDataBlock l.dataBlock with
  | none => []
  | some b =>
    match b.channels[l.channelIndex]? with
    | none => []
    | some m => b.samples dec t.bytes l.channelIndex m l.numberOfSamples

theorem locSamples_length {t : TdmsFile} (hi : Inv t.index) {c : ChannelPath} {ls : List DataLocation}
    (h : t.index.getChannelDataPositions c = some ls) :
    ∀ l ∈ ls, (locSamples dec t l).length = l.numberOfSamples := by
  intro l hl
  obtain ⟨o, ho, rfl⟩ := Option.map_eq_some_iff.mp h
  obtain ⟨b, m, n, h1, h2, _, _⟩ := hi.valid _ _ ho l hl
  unfold locSamples Index.getDataBlock
  rw [h1]
  dsimp only
  rw [h2]
  simp [DataBlock.samples]

theorem lookupPositions_eq {t : TdmsFile} {cs : List ChannelPath} {locs : ChannelPath → List DataLocation}
    (h : ∀ c ∈ cs, t.index.getChannelDataPositions c = some (locs c)) :
    t.lookupPositions cs = .ok (cs.map locs) := by
  induction cs with
  | nil => rfl
  | cons c cs ih =>
    unfold TdmsFile.lookupPositions
    rw [h c List.mem_cons_self]
    dsimp only
    rw [ih (fun c hc => h c (List.mem_cons_of_mem _ hc))]
    rfl

/-- The generic statement: if in every block that has to be visited the channels are at the same
    point, every buffer receives the samples of its channel. -/
theorem readMany (hS : S.Fixed dec) {t : TdmsFile} (hi : Inv t.index) (start : Nat)
    (cs : List (ChannelPath × List α)) (locs : ChannelPath → List DataLocation)
    (hl : ∀ c ∈ cs, t.index.getChannelDataPositions c.1 = some (locs c.1))
    (hT : ∀ B, visitAll start B (cs.map (fun c => locs c.1)) ≠ none →
      Needed (locSamples dec t) start B (cs.map (fun c => (locs c.1, c.2))) →
      ∃ b k n count L, Together S dec (locSamples dec t) t start B (cs.map (fun c => (locs c.1, c.2))) b k n count L) :
    ∃ ps, readPlan (cs.map (fun c => locs c.1)) start >>= (fun plan =>
        executePlan S t plan (cs.map (fun c => ⟨c.2, 0⟩))) = .ok ps ∧
      ps.map (·.output) = cs.map (fun c => overlay c.2 (((locs c.1).flatMap (locSamples dec t)).drop start)) := by
  have hinc : ∀ c ∈ cs, Increasing (locs c.1) := by
    intro c hc
    obtain ⟨o, ho, hlo⟩ := Option.map_eq_some_iff.mp (hl c hc)
    rw [← hlo]
    exact hi.incr _ _ ho
  have hlt : ∀ c ∈ cs, ∀ l ∈ locs c.1, l.dataBlock < t.index.dataBlocks.length := by
    intro c hc l hlm
    obtain ⟨o, ho, hlo⟩ := Option.map_eq_some_iff.mp (hl c hc)
    rw [← hlo] at hlm
    obtain ⟨b, _, _, hb, _⟩ := hi.valid _ _ ho l hlm
    exact (List.getElem?_eq_some_iff.mp hb).1
  rw [readPlan_eq start t.index.dataBlocks.length _
    (by intro ls hls; obtain ⟨c, hc, rfl⟩ := List.mem_map.mp hls; exact hinc c hc)
    (by intro ls hls; obtain ⟨c, hc, rfl⟩ := List.mem_map.mp hls; exact hlt c hc)]
  have hex := executePlan_eq (S := S) (dec := dec) hS (V := locSamples dec t) (t := t) (start := start)
    (chans := cs.map (fun c => (locs c.1, c.2)))
    (by intro x hx; obtain ⟨c, hc, rfl⟩ := List.mem_map.mp hx; exact hinc c hc)
    (by intro x hx; obtain ⟨c, hc, rfl⟩ := List.mem_map.mp hx; exact locSamples_length hi (hl c hc))
    t.index.dataBlocks.length (by rw [List.map_map]; exact fun B _ => hT B) t.index.dataBlocks.length 0 (by omega)
    (Or.inl (fun B' hB' => absurd hB' (Nat.not_lt_zero _)))
  obtain ⟨ps, hps, hout⟩ := hex
  refine ⟨ps, ?_, ?_⟩
  · rw [List.map_map, List.map_map] at hps
    rw [plan, List.range_eq_range']
    show executePlan S t _ _ = _
    rw [← hps]
    congr 1
    apply List.map_congr_left
    intro c _
    show _ = progAt _ _ _ _
    unfold progAt taken
    have : (locs c.1).filter (fun l => decide (l.dataBlock < 0)) = [] := by
      apply List.filter_eq_nil_iff.mpr; simp
    rw [this]
    simp [overlay_nil]
  · rw [hout, List.map_map]
    apply List.map_congr_left
    intro c hc
    simp only [Function.comp, progAt, Nat.zero_add]
    rw [taken_all _ _ _ _ (hlt c hc)]

theorem readChannelsFrom_eq (hS : S.Fixed dec) {t : TdmsFile} (hi : Inv t.index) (start : Nat)
    (cs : List (ChannelPath × List α)) (locs : ChannelPath → List DataLocation)
    (hl : ∀ c ∈ cs, t.index.getChannelDataPositions c.1 = some (locs c.1))
    (hT : ∀ B, visitAll start B (cs.map (fun c => locs c.1)) ≠ none →
      Needed (locSamples dec t) start B (cs.map (fun c => (locs c.1, c.2))) →
      ∃ b k n count L, Together S dec (locSamples dec t) t start B (cs.map (fun c => (locs c.1, c.2))) b k n count L) :
    t.readChannelsFrom S (cs.map (·.1)) start (cs.map (·.2)) =
      .ok (cs.map (fun c => overlay c.2 (((locs c.1).flatMap (locSamples dec t)).drop start))) := by
  obtain ⟨ps, hps, hout⟩ := readMany (S := S) (dec := dec) hS hi start cs locs hl hT
  unfold TdmsFile.readChannelsFrom
  rw [lookupPositions_eq (locs := locs) (by
    intro c hc; obtain ⟨x, hx, rfl⟩ := List.mem_map.mp hc; exact hl x hx)]
  show (readPlan ((cs.map (·.1)).map locs) start >>= fun plan =>
    executePlan S t plan ((cs.map (·.2)).map (fun o => ⟨o, 0⟩)) >>= fun ps => pure (ps.map (·.output))) = _
  rw [List.map_map, List.map_map]
  rw [← bind_assoc]
  show (readPlan (cs.map (fun c => locs c.1)) start >>= (fun plan =>
        executePlan S t plan (cs.map (fun c => ⟨c.2, 0⟩))) >>= _) = _
  rw [hps, ← hout]
  rfl

theorem readChannelFrom_eq (hS : S.Fixed dec) {t : TdmsFile} (hi : Inv t.index) (start : Nat)
    (c : ChannelPath) (out : List α) {ls : List DataLocation}
    (hl : t.index.getChannelDataPositions c = some ls)
    (hT : ∀ B, visit start B ls ≠ none → Needed (locSamples dec t) start B [(ls, out)] →
      ∃ b k n count L, Together S dec (locSamples dec t) t start B [(ls, out)] b k n count L) :
    t.readChannelFrom S c start out = .ok (overlay out ((ls.flatMap (locSamples dec t)).drop start)) := by
  obtain ⟨ps, hps, hout⟩ := readMany (S := S) (dec := dec) hS hi start [(c, out)] (fun _ => ls)
    (by intro x hx; rw [List.mem_singleton.mp hx]; exact hl)
    (by
      intro B hB hneed
      refine hT B ?_ hneed
      intro hn
      apply hB
      simp [visitAll, hn])
  unfold TdmsFile.readChannelFrom
  rw [hl]
  show (readPlan [ls] start >>= fun plan =>
    executePlan S t plan [⟨out, 0⟩] >>= fun ps => pure ((ps.map (·.output)).headD [])) = _
  rw [← bind_assoc]
  show (readPlan ([(c, out)].map (fun c => ls)) start >>= (fun plan =>
        executePlan S t plan ([(c, out)].map (fun c => ⟨c.2, 0⟩))) >>= _) = _
  rw [hps]
  show Except.ok ((ps.map (·.output)).headD []) = _
  rw [hout]
  rfl

end
end Tedium
