import Verif.Spec.Plan

/-! # The read plan in closed form -/

namespace Tedium
open PlanSpec

/-- block numbers increase along the list -/
abbrev Increasing (ls : List DataLocation) : Prop := ls.Pairwise (fun a b => a.dataBlock < b.dataBlock)

theorem minOption_none {l : List Nat} (h : minOption l = none) : l = [] := by
  cases l with
  | nil => rfl
  | cons x xs =>
    unfold minOption at h
    cases hx : minOption xs <;> rw [hx] at h <;> cases h

theorem minOption_some {l : List Nat} {m : Nat} (h : minOption l = some m) : m ∈ l ∧ ∀ x ∈ l, m ≤ x := by
  induction l generalizing m with
  | nil => cases h
  | cons x xs ih =>
    unfold minOption at h
    cases hx : minOption xs with
    | none =>
      rw [hx] at h
      cases h
      rw [minOption_none hx]
      exact ⟨by simp, by simp⟩
    | some y =>
      rw [hx] at h
      simp only [Option.some.injEq] at h
      obtain ⟨h1, h2⟩ := ih hx
      subst h
      constructor
      · rcases Nat.le_total x y with hxy | hxy
        · rw [Nat.min_eq_left hxy]; simp
        · rw [Nat.min_eq_right hxy]; simp [h1]
      · intro z hz
        rcases List.mem_cons.mp hz with rfl | hz
        · exact Nat.min_le_left _ _
        · exact Nat.le_trans (Nat.min_le_right _ _) (h2 z hz)

/-- the planner's state when the blocks below `B` are done -/
def planStateAt (start B : Nat) (ls : List DataLocation) : PlanState :=
  ⟨ls.filter (fun l => B ≤ l.dataBlock), start - samplesBefore ls B⟩

/-- no location in `[B, C)` -/
theorem planStateAt_gap {start B C : Nat} (hBC : B ≤ C) {ls : List DataLocation}
    (h : ∀ l ∈ ls, B ≤ l.dataBlock → C ≤ l.dataBlock) : planStateAt start B ls = planStateAt start C ls := by
  unfold planStateAt samplesBefore
  have h1 : ls.filter (fun l => decide (B ≤ l.dataBlock)) = ls.filter (fun l => decide (C ≤ l.dataBlock)) := by
    apply List.filter_congr
    intro l hl
    have := h l hl
    simp only [decide_eq_decide]
    constructor
    · exact this
    · omega
  have h2 : ls.filter (fun l => decide (l.dataBlock < B)) = ls.filter (fun l => decide (l.dataBlock < C)) := by
    apply List.filter_congr
    intro l hl
    have := h l hl
    simp only [decide_eq_decide]
    constructor
    · omega
    · intro h'
      refine Nat.lt_of_not_le fun h'' => ?_
      have := this h''
      omega
  rw [h1, h2]

theorem Increasing.split {ls : List DataLocation} (h : Increasing ls) (B : Nat) :
    ls = ls.filter (fun l => l.dataBlock < B) ++ ls.filter (fun l => B ≤ l.dataBlock) := by
  induction ls with
  | nil => rfl
  | cons l ls ih =>
    have hp := List.pairwise_cons.mp h
    by_cases hB : l.dataBlock < B
    · rw [List.filter_cons_of_pos (by simpa using hB), List.filter_cons_of_neg (by simpa using hB),
        List.cons_append, ← ih hp.2]
    · have hnone : ls.filter (fun l => decide (l.dataBlock < B)) = [] := by
        rw [List.filter_eq_nil_iff]
        intro x hx
        have := hp.1 x hx
        simp only [decide_eq_true_eq]
        omega
      have hall : ls.filter (fun l => decide (B ≤ l.dataBlock)) = ls := by
        rw [List.filter_eq_self]
        intro x hx
        have := hp.1 x hx
        simp only [decide_eq_true_eq]
        omega
      rw [List.filter_cons_of_neg (by simpa using hB), List.filter_cons_of_pos (by simpa using hB), hnone, hall]
      rfl

/-- the location of a block comes first among those not done -/
theorem Increasing.at {ls : List DataLocation} (h : Increasing ls) (B : Nat) :
    (ls.find? (fun l => l.dataBlock == B) = none ∧
      ls.filter (fun l => B ≤ l.dataBlock) = ls.filter (fun l => B + 1 ≤ l.dataBlock) ∧
      ls.filter (fun l => l.dataBlock < B + 1) = ls.filter (fun l => l.dataBlock < B)) ∨
    (∃ l, ls.find? (fun l => l.dataBlock == B) = some l ∧ l ∈ ls ∧ l.dataBlock = B ∧
      ls.filter (fun l => B ≤ l.dataBlock) = l :: ls.filter (fun l => B + 1 ≤ l.dataBlock) ∧
      ls.filter (fun l => l.dataBlock < B + 1) = ls.filter (fun l => l.dataBlock < B) ++ [l]) := by
  cases hf : ls.find? (fun l => l.dataBlock == B) with
  | none =>
    left
    rw [List.find?_eq_none] at hf
    refine ⟨rfl, ?_, ?_⟩
    · apply List.filter_congr
      intro l hl
      have := hf l hl
      simp only [beq_iff_eq] at this
      simp only [decide_eq_decide]
      omega
    · apply List.filter_congr
      intro l hl
      have := hf l hl
      simp only [beq_iff_eq] at this
      simp only [decide_eq_decide]
      omega
  | some l =>
    right
    have hl := List.mem_of_find?_eq_some hf
    have hB : l.dataBlock = B := by simpa using List.find?_some hf
    refine ⟨l, rfl, hl, hB, ?_⟩
    clear hf
    induction ls with
    | nil => cases hl
    | cons x xs ih =>
      have hp := List.pairwise_cons.mp h
      rcases List.mem_cons.mp hl with hx | hx
      · subst hx
        have hgt : ∀ y ∈ xs, B < y.dataBlock := fun y hy => by have := hp.1 y hy; omega
        rw [List.filter_cons_of_pos (by simp [hB]), List.filter_cons_of_neg (by simp [hB]),
          List.filter_cons_of_pos (by simp [hB]), List.filter_cons_of_neg (by simp [hB])]
        have h1 : xs.filter (fun l => decide (B ≤ l.dataBlock)) = xs.filter (fun l => decide (B + 1 ≤ l.dataBlock)) := by
          apply List.filter_congr
          intro y hy
          have := hgt y hy
          simp only [decide_eq_decide]; omega
        have h2 : xs.filter (fun l => decide (l.dataBlock < B + 1)) = [] := by
          rw [List.filter_eq_nil_iff]; intro y hy; have := hgt y hy; simp only [decide_eq_true_eq]; omega
        have h3 : xs.filter (fun l => decide (l.dataBlock < B)) = [] := by
          rw [List.filter_eq_nil_iff]; intro y hy; have := hgt y hy; simp only [decide_eq_true_eq]; omega
        rw [h1, h2, h3]
        exact ⟨rfl, rfl⟩
      · have hlt : x.dataBlock < B := by have := hp.1 l hx; omega
        obtain ⟨h1, h2⟩ := ih hp.2 hx
        rw [List.filter_cons_of_neg (by simpa using hlt), List.filter_cons_of_neg (by simp only [decide_eq_true_eq]; omega),
          List.filter_cons_of_pos (by simp only [decide_eq_true_eq]; omega),
          List.filter_cons_of_pos (by simp only [decide_eq_true_eq]; omega), h1, h2]
        exact ⟨rfl, rfl⟩

theorem samplesBefore_succ_none {ls : List DataLocation} (h : Increasing ls) {B : Nat}
    (hf : ls.find? (fun l => l.dataBlock == B) = none) : samplesBefore ls (B + 1) = samplesBefore ls B := by
  rcases h.at B with ⟨_, _, h3⟩ | ⟨l, h1, _⟩
  · unfold samplesBefore; rw [h3]
  · rw [h1] at hf; cases hf

theorem samplesBefore_succ_some {ls : List DataLocation} (h : Increasing ls) {B : Nat} {l : DataLocation}
    (hf : ls.find? (fun l => l.dataBlock == B) = some l) :
    samplesBefore ls (B + 1) = samplesBefore ls B + l.numberOfSamples := by
  rcases h.at B with ⟨h1, _⟩ | ⟨l', h1, _, _, _, h3⟩
  · rw [h1] at hf; cases hf
  · rw [h1] at hf; cases hf
    unfold samplesBefore; rw [h3]; simp

theorem planChannel_at {ls : List DataLocation} (h : Increasing ls) (start B : Nat) :
    planChannel B (planStateAt start B ls) = (visit start B ls, planStateAt start (B + 1) ls) := by
  unfold planChannel visit
  rcases h.at B with ⟨hf, h2, h3⟩ | ⟨l, hf, hl, hB, h2, h3⟩
  · have hs : planStateAt start B ls = planStateAt start (B + 1) ls := by
      unfold planStateAt; rw [samplesBefore_succ_none h hf, h2]
    rw [hf]
    have hloc : (planStateAt start B ls).locations = ls.filter (fun l => B + 1 ≤ l.dataBlock) := h2
    rw [hloc]
    cases hr : ls.filter (fun l => B + 1 ≤ l.dataBlock) with
    | nil => dsimp only; rw [hs]
    | cons x xs =>
      have hx : x ∈ ls.filter (fun l => B + 1 ≤ l.dataBlock) := by rw [hr]; simp
      have := (List.mem_filter.mp hx).2
      simp only [decide_eq_true_eq] at this
      dsimp only
      rw [if_neg (by omega), hs]
  · have hloc : (planStateAt start B ls).locations = l :: ls.filter (fun l => B + 1 ≤ l.dataBlock) := h2
    rw [hloc, hf]
    dsimp only
    rw [if_pos hB]
    have hsk : (planStateAt start B ls).skip = start - samplesBefore ls B := rfl
    rw [hsk]
    congr 1
    · by_cases hlt : 0 < l.numberOfSamples ∧ start < samplesBefore ls B + l.numberOfSamples
      · rw [if_pos hlt, if_neg (by omega)]
      · rw [if_neg hlt, if_pos (by omega)]
    · unfold planStateAt
      rw [samplesBefore_succ_some h hf, Nat.sub_sub]

theorem visit_none_of_absent {start B : Nat} {ls : List DataLocation} (h : ∀ l ∈ ls, l.dataBlock ≠ B) :
    visit start B ls = none := by
  unfold visit
  have : ls.find? (fun l => l.dataBlock == B) = none := by
    rw [List.find?_eq_none]
    intro l hl
    simpa using h l hl
  rw [this]

theorem visitAll_none_of_absent {start B : Nat} {positions : List (List DataLocation)}
    (h : ∀ ls ∈ positions, ∀ l ∈ ls, l.dataBlock ≠ B) : visitAll start B positions = none := by
  unfold visitAll
  rw [if_neg]
  simp only [List.any_map, List.any_eq_true, Function.comp, not_exists, not_and]
  intro ls hls
  rw [visit_none_of_absent (h ls hls)]
  simp

theorem filterMap_none {α β : Type} {f : α → Option β} {l : List α} (h : ∀ x ∈ l, f x = none) :
    l.filterMap f = [] := by
  induction l with
  | nil => rfl
  | cons x xs ih =>
    rw [List.filterMap_cons, h x (by simp)]
    exact ih (fun y hy => h y (by simp [hy]))

theorem planLoop_eq (start M : Nat) (positions : List (List DataLocation))
    (hinc : ∀ ls ∈ positions, Increasing ls) (hM : ∀ ls ∈ positions, ∀ l ∈ ls, l.dataBlock < M) :
    ∀ (fuel B : Nat), B ≤ M →
      (positions.map (fun ls => (ls.filter (fun l => B ≤ l.dataBlock)).length)).sum < fuel →
      planLoop fuel (positions.map (planStateAt start B)) =
        .ok ((List.range' B (M - B)).filterMap (fun block => visitAll start block positions)) := by
  intro fuel
  induction fuel with
  | zero => intro B _ h; omega
  | succ fuel ih =>
    intro B hBM hfuel
    unfold planLoop
    cases hnb : nextBlock (positions.map (planStateAt start B)) with
    | none =>
      have hempty := minOption_none hnb
      dsimp only
      rw [filterMap_none]
      intro block hblock
      have hge := (List.mem_range'_1.mp hblock).1
      apply visitAll_none_of_absent
      intro ls hls l hl heq
      rw [List.filterMap_map, List.filterMap_eq_nil_iff] at hempty
      have := hempty ls hls
      simp only [Function.comp, planStateAt, Option.map_eq_none_iff, List.head?_eq_none_iff] at this
      rw [List.filter_eq_nil_iff] at this
      have := this l hl
      simp only [decide_eq_true_eq] at this
      omega
    | some C =>
      obtain ⟨hCmem, hCmin⟩ := minOption_some hnb
      dsimp only
      -- facts about the next block
      have hfacts : B ≤ C ∧ C < M ∧ ∃ ls ∈ positions, ∃ l ∈ ls, l.dataBlock = C := by
        rw [List.mem_filterMap] at hCmem
        obtain ⟨st, hst, hC⟩ := hCmem
        obtain ⟨ls, hls, rfl⟩ := List.mem_map.mp hst
        simp only [planStateAt, Option.map_eq_some_iff] at hC
        obtain ⟨l, hl, rfl⟩ := hC
        have hl := List.mem_of_mem_head? hl
        have hl' := List.mem_filter.mp hl
        simp only [decide_eq_true_eq] at hl'
        exact ⟨hl'.2, hM ls hls l hl'.1, ls, hls, l, hl'.1, rfl⟩
      obtain ⟨hBC, hCM, ls0, hls0, l0, hl0, hl0C⟩ := hfacts
      have hgap : ∀ ls ∈ positions, ∀ l ∈ ls, B ≤ l.dataBlock → C ≤ l.dataBlock := by
        intro ls hls l hl hB
        have hinc' := hinc ls hls
        -- the head of the filtered list is at least C
        cases hfl : ls.filter (fun l => decide (B ≤ l.dataBlock)) with
        | nil =>
          rw [List.filter_eq_nil_iff] at hfl
          exact absurd hB (by simpa using hfl l hl)
        | cons x xs =>
          have hx : C ≤ x.dataBlock := by
            apply hCmin
            rw [List.mem_filterMap]
            refine ⟨_, List.mem_map_of_mem hls, ?_⟩
            simp [planStateAt, hfl]
          have hmem : l ∈ ls.filter (fun l => decide (B ≤ l.dataBlock)) :=
            List.mem_filter.mpr ⟨hl, by simpa using hB⟩
          have hpw : Increasing (ls.filter (fun l => decide (B ≤ l.dataBlock))) := hinc'.filter _
          rw [hfl] at hmem hpw
          rcases List.mem_cons.mp hmem with h | h
          · rw [h]; exact hx
          · have := (List.pairwise_cons.mp hpw).1 l h; omega
      have hst : positions.map (planStateAt start B) = positions.map (planStateAt start C) := by
        apply List.map_congr_left
        intro ls hls
        exact planStateAt_gap hBC (hgap ls hls)
      have hsteps : (positions.map (planStateAt start C)).map (planChannel C) =
          positions.map (fun ls => (visit start C ls, planStateAt start (C + 1) ls)) := by
        rw [List.map_map]
        apply List.map_congr_left
        intro ls hls
        exact planChannel_at (hinc ls hls) start C
      rw [hst, hsteps, List.map_map, List.map_map]
      have h1 : ((fun x => x.1) ∘ fun ls => (visit start C ls, planStateAt start (C + 1) ls)) = visit start C := rfl
      have h2 : ((fun x => x.2) ∘ fun ls => (visit start C ls, planStateAt start (C + 1) ls)) = planStateAt start (C + 1) := rfl
      rw [h1, h2]
      have hrange : List.range' B (M - B) = List.range' B (C - B) ++ C :: List.range' (C + 1) (M - (C + 1)) := by
        have e1 : M - B = (C - B) + ((M - (C + 1)) + 1) := by omega
        rw [e1, ← List.range'_append, Nat.one_mul, show B + (C - B) = C by omega, List.range'_succ]
      have hfirst : (List.range' B (C - B)).filterMap (fun block => visitAll start block positions) = [] := by
        apply filterMap_none
        intro block hblock
        have hmem := List.mem_range'_1.mp hblock
        apply visitAll_none_of_absent
        intro ls hls l hl heq
        have := hgap ls hls l hl (by omega)
        omega
      -- the number of locations left decreases
      have hdec : ∀ ls ∈ positions,
          (ls.filter (fun l => decide (C + 1 ≤ l.dataBlock))).length ≤ (ls.filter (fun l => decide (B ≤ l.dataBlock))).length := by
        intro ls hls
        rw [← List.countP_eq_length_filter, ← List.countP_eq_length_filter]
        apply List.countP_mono_left
        intro x _ hx
        simp only [decide_eq_true_eq] at hx ⊢
        omega
      have hlt : (ls0.filter (fun l => decide (C + 1 ≤ l.dataBlock))).length
          < (ls0.filter (fun l => decide (B ≤ l.dataBlock))).length := by
        have hs := congrArg PlanState.locations (planStateAt_gap (start := start) hBC (hgap ls0 hls0))
        simp only [planStateAt] at hs
        rw [hs]
        rcases (hinc ls0 hls0).at C with ⟨hf, _⟩ | ⟨l, _, _, _, h2, _⟩
        · rw [List.find?_eq_none] at hf
          exact absurd hl0C (by simpa using hf l0 hl0)
        · rw [h2, List.length_cons]; omega
      have hsum : ∀ (ps : List (List DataLocation)), (∀ ls ∈ ps, ls ∈ positions) →
          (ps.map (fun ls => (ls.filter (fun l => decide (C + 1 ≤ l.dataBlock))).length)).sum
            ≤ (ps.map (fun ls => (ls.filter (fun l => decide (B ≤ l.dataBlock))).length)).sum ∧
          (ls0 ∈ ps → (ps.map (fun ls => (ls.filter (fun l => decide (C + 1 ≤ l.dataBlock))).length)).sum
            < (ps.map (fun ls => (ls.filter (fun l => decide (B ≤ l.dataBlock))).length)).sum) := by
        intro ps
        induction ps with
        | nil => intro _; exact ⟨Nat.le_refl _, fun h => by cases h⟩
        | cons a as iha =>
          intro hsub
          obtain ⟨i1, i2⟩ := iha (fun ls hls => hsub ls (by simp [hls]))
          have ha := hdec a (hsub a (by simp))
          simp only [List.map_cons, List.sum_cons]
          refine ⟨by omega, ?_⟩
          intro hmem
          rcases List.mem_cons.mp hmem with h | h
          · subst h; omega
          · have := i2 h; omega
      have := (hsum positions (fun _ h => h)).2 hls0
      rw [ih (C + 1) (by omega) (by omega), hrange, List.filterMap_append, hfirst, List.nil_append,
        List.filterMap_cons]
      dsimp only
      unfold visitAll
      split <;> rfl

theorem readPlan_eq (start M : Nat) (positions : List (List DataLocation))
    (hinc : ∀ ls ∈ positions, Increasing ls) (hM : ∀ ls ∈ positions, ∀ l ∈ ls, l.dataBlock < M) :
    readPlan positions start = .ok (plan start M positions) := by
  unfold readPlan plan
  rw [List.range_eq_range']
  have h := planLoop_eq start M positions hinc hM ((positions.map List.length).sum + 1) 0 (Nat.zero_le _) (by
    have : positions.map (fun ls => (ls.filter (fun l => decide (0 ≤ l.dataBlock))).length) = positions.map List.length := by
      apply List.map_congr_left
      intro ls _
      rw [List.filter_eq_self.mpr (by simp)]
    rw [this]; omega)
  have hst : positions.map (planStateAt start 0) = positions.map (fun ls => ⟨ls, start⟩) := by
    apply List.map_congr_left
    intro ls _
    unfold planStateAt samplesBefore
    rw [List.filter_eq_self.mpr (by simp), List.filter_eq_nil_iff.mpr (by simp)]
    simp
  rw [hst, Nat.sub_zero] at h
  exact h

end Tedium
