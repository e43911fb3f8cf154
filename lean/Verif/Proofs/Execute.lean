import Verif.Proofs.Plan
import Verif.Proofs.BlockValues

/-! # Executing a read plan -/

namespace Tedium
open PlanSpec

section
variable {α : Type}

@[simp] theorem length_overlay (out xs : List α) : (overlay out xs).length = out.length := by
  unfold overlay
  simp only [List.length_append, List.length_take, List.length_drop]
  omega

theorem overlay_nil (out : List α) : overlay out [] = out := by simp [overlay]

/-- storing more values after the first ones -/
theorem overlay_append (out xs ys : List α) :
    (overlay out xs).take (min xs.length out.length) ++
        overlay ((overlay out xs).drop (min xs.length out.length)) ys = overlay out (xs ++ ys) := by
  unfold overlay
  rcases Nat.le_total xs.length out.length with h | h
  · rw [Nat.min_eq_left h, List.take_of_length_le h, List.take_left, List.drop_left,
      List.length_drop, List.drop_drop, List.length_append, List.take_append, List.take_of_length_le h,
      List.append_assoc]
  · rw [Nat.min_eq_right h]
    have h1 : (xs.take out.length).length = out.length := by rw [List.length_take]; omega
    have h2 : out.drop xs.length = [] := List.drop_eq_nil_of_le h
    have h3 : out.drop (xs.length + ys.length) = [] := List.drop_eq_nil_of_le (by omega)
    rw [h2, List.append_nil, List.take_of_length_le (by omega), List.drop_eq_nil_of_le (by omega),
      List.length_append, h3, List.take_append, Nat.sub_eq_zero_of_le h]
    simp

/-- a buffer that is full stays as it is -/
theorem overlay_full (out xs ys : List α) (h : out.length ≤ xs.length) :
    overlay out (xs ++ ys) = overlay out xs := by
  unfold overlay
  rw [List.take_append, Nat.sub_eq_zero_of_le h, List.length_append, List.drop_eq_nil_of_le h,
    List.drop_eq_nil_of_le (by omega)]
  simp

/-- A requested channel: where its samples are, and its buffer. -/
abbrev Chan (α : Type) := List DataLocation × List α

/-- the samples of a channel from number `start` on in the blocks below `B` -/
def taken (V : DataLocation → List α) (start B : Nat) (ls : List DataLocation) : List α :=
  ((ls.filter (fun l => l.dataBlock < B)).flatMap V).drop start

/-- the progress of a channel when the blocks below `B` are done -/
def progAt (V : DataLocation → List α) (start B : Nat) (c : Chan α) : Progress α :=
  ⟨overlay c.2 (taken V start B c.1), min (taken V start B c.1).length c.2.length⟩

theorem length_before {V : DataLocation → List α} {ls : List DataLocation}
    (hV : ∀ l ∈ ls, (V l).length = l.numberOfSamples) (B : Nat) :
    ((ls.filter (fun l => l.dataBlock < B)).flatMap V).length = samplesBefore ls B := by
  unfold samplesBefore
  rw [List.length_flatMap]
  congr 1
  apply List.map_congr_left
  intro l hl
  exact hV l (List.mem_filter.mp hl).1

theorem taken_succ_none {V : DataLocation → List α} {start B : Nat} {ls : List DataLocation} (h : Increasing ls)
    (hV : ∀ l ∈ ls, (V l).length = l.numberOfSamples) (hv : visit start B ls = none) :
    taken V start (B + 1) ls = taken V start B ls := by
  unfold taken
  unfold visit at hv
  rcases h.at B with ⟨hf, _, h3⟩ | ⟨l, hf, hl, _, _, h3⟩
  · rw [h3]
  · rw [hf] at hv
    dsimp only at hv
    have hlen := length_before hV B
    rw [h3, List.flatMap_append, List.drop_append]
    simp only [List.flatMap_cons, List.flatMap_nil, List.append_nil]
    rw [List.drop_eq_nil_of_le (as := V l), List.append_nil]
    rw [hlen, hV l hl]
    by_cases hc : 0 < l.numberOfSamples ∧ start < samplesBefore ls B + l.numberOfSamples
    · rw [if_pos hc] at hv; cases hv
    · omega

theorem taken_succ_some {V : DataLocation → List α} {start B : Nat} {ls : List DataLocation} (h : Increasing ls)
    (hV : ∀ l ∈ ls, (V l).length = l.numberOfSamples) {pl : ChannelReadPlan} (hv : visit start B ls = some pl) :
    ∃ l, ls.find? (fun l => l.dataBlock == B) = some l ∧ l ∈ ls ∧ l.dataBlock = B ∧ pl.index = l.channelIndex ∧
      pl.samplesToSkip = start - samplesBefore ls B ∧ pl.samplesToSkip < l.numberOfSamples ∧
      taken V start (B + 1) ls = taken V start B ls ++ (V l).drop pl.samplesToSkip := by
  unfold taken
  unfold visit at hv
  rcases h.at B with ⟨hf, _, h3⟩ | ⟨l, hf, hl, hlB, _, h3⟩
  · rw [hf] at hv; cases hv
  · rw [hf] at hv
    dsimp only at hv
    by_cases hc : 0 < l.numberOfSamples ∧ start < samplesBefore ls B + l.numberOfSamples
    · rw [if_pos hc] at hv
      cases hv
      refine ⟨l, hf, hl, hlB, rfl, rfl, ?_, ?_⟩
      · show start - samplesBefore ls B < l.numberOfSamples
        omega
      · rw [h3, List.flatMap_append, List.drop_append, length_before hV B]
        simp
    · rw [if_neg hc] at hv; cases hv

theorem progAt_complete (V : DataLocation → List α) (start B : Nat) (c : Chan α) :
    (progAt V start B c).isComplete = decide (c.2.length ≤ (taken V start B c.1).length) := by
  unfold Progress.isComplete progAt
  simp only [length_overlay, decide_eq_decide]
  omega

/-- the request for a channel in a block, if it is still incomplete -/
def requestOf (V : DataLocation → List α) (start B : Nat) (c : Chan α) (i : Nat) : Option (ChannelRequest α) :=
  match visit start B c.1 with
  | none => none
  | some pl =>
    if c.2.length ≤ (taken V start B c.1).length then none
    else some { channelIndex := pl.index, slot := i,
                output := (overlay c.2 (taken V start B c.1)).drop (taken V start B c.1).length,
                skip := pl.samplesToSkip }

theorem blockRequests_eq (V : DataLocation → List α) (start B : Nat) (chans : List (Chan α)) (i : Nat) :
    blockRequests i (chans.map (fun c => visit start B c.1)) (chans.map (progAt V start B)) =
      (chans.zipIdx i).filterMap (fun x => requestOf V start B x.1 x.2) := by
  induction chans generalizing i with
  | nil => rfl
  | cons c cs ih =>
    rw [List.map_cons, List.map_cons, List.zipIdx_cons, List.filterMap_cons]
    unfold requestOf
    cases hv : visit start B c.1 with
    | none =>
      unfold blockRequests
      exact ih (i + 1)
    | some pl =>
      unfold blockRequests
      rw [progAt_complete]
      dsimp only
      by_cases hc : c.2.length ≤ (taken V start B c.1).length
      · rw [if_pos (by simpa using hc), if_pos hc]
        exact ih (i + 1)
      · rw [if_neg (by simpa using hc), if_neg hc]
        dsimp only
        rw [ih (i + 1)]
        congr 2
        simp only [progAt]
        rw [Nat.min_eq_left (by omega)]

theorem zipIdx_mem {β : Type} {l : List β} {x : β × Nat} {i : Nat} (h : x ∈ l.zipIdx i) :
    i ≤ x.2 ∧ l[x.2 - i]? = some x.1 := by
  obtain ⟨a, n⟩ := x
  have := List.mem_zipIdx h
  refine ⟨this.1, ?_⟩
  rw [List.getElem?_eq_some_iff]
  exact ⟨by omega, this.2.2.symm⟩

theorem pairwise_zipIdx {β : Type} (l : List β) (i : Nat) : (l.zipIdx i).Pairwise (fun a b => a.2 ≠ b.2) := by
  induction l generalizing i with
  | nil => exact List.Pairwise.nil
  | cons x xs ih =>
    rw [List.zipIdx_cons]
    refine List.Pairwise.cons ?_ (ih (i + 1))
    intro b hb
    have := (zipIdx_mem hb).1
    simp only
    omega

theorem pairwise_zipIdx_fst {β : Type} {R : β → β → Prop} {l : List β} (h : l.Pairwise R) (i : Nat) :
    (l.zipIdx i).Pairwise (fun a b => R a.1 b.1) := by
  induction l generalizing i with
  | nil => exact List.Pairwise.nil
  | cons x xs ih =>
    rw [List.zipIdx_cons]
    have hp := List.pairwise_cons.mp h
    refine List.Pairwise.cons ?_ (ih hp.2 (i + 1))
    intro b hb
    exact hp.1 _ (List.mem_of_getElem? (zipIdx_mem hb).2)

theorem storeOutputs_map {β : Type} (outs : List (Nat × List α)) (g : β → Progress α) (l : List β) (i : Nat) :
    storeOutputs outs i (l.map g) = (l.zipIdx i).map (fun x =>
      match outs.lookup x.2 with
      | some tail => { g x.1 with output := (g x.1).output.take (g x.1).samplesRead ++ tail }
      | none => g x.1) := by
  induction l generalizing i with
  | nil => rfl
  | cons x xs ih =>
    rw [List.map_cons, List.zipIdx_cons, List.map_cons]
    unfold storeOutputs
    rw [ih]
    rfl

theorem addSamples_map {β : Type} (n : Nat) (v : β → Option ChannelReadPlan) (g : β → Progress α) (l : List β) :
    addSamples n (l.map v) (l.map g) = l.map (fun x =>
      if (v x).isSome then { g x with samplesRead := (g x).samplesRead + n } else g x) := by
  induction l with
  | nil => rfl
  | cons x xs ih =>
    rw [List.map_cons, List.map_cons, List.map_cons]
    unfold addSamples
    rw [ih]

variable {S : Storage α} {dec : Endian → Bytes → α}

/-- A block in which all channels that have to be read are at the same point: the same samples to
    skip, the same number of samples in the block and the same number of cells left. -/
structure Together (S : Storage α) (dec : Endian → Bytes → α) (V : DataLocation → List α) (t : TdmsFile)
    (start B : Nat) (chans : List (Chan α)) (b : DataBlock) (k n count L : Nat) : Prop where
  block : t.index.getDataBlock B = some b
  ready : b.Ready t.bytes k n count
  same : ∀ c ∈ chans, ∀ pl, visit start B c.1 = some pl →
    pl.samplesToSkip = k ∧ c.2.length - (taken V start B c.1).length = L ∧
    ∃ m, b.channels[pl.index]? = some m ∧ (0 < L → m.dataType ∈ S.supported) ∧ m.numberOfValues = n ∧
      ∀ l, c.1.find? (fun l => l.dataBlock == B) = some l → l.numberOfSamples = count ∧
        V l = b.samples dec t.bytes pl.index m count
  distinct : chans.Pairwise (fun c d => ∀ p q, visit start B c.1 = some p → visit start B d.1 = some q →
    p.index ≠ q.index)

theorem executeBlock_eq (hS : S.Fixed dec) {V : DataLocation → List α} {t : TdmsFile} {start B : Nat}
    {chans : List (Chan α)} (hinc : ∀ c ∈ chans, Increasing c.1)
    (hV : ∀ c ∈ chans, ∀ l ∈ c.1, (V l).length = l.numberOfSamples)
    {b : DataBlock} {k n count L : Nat} (h : Together S dec V t start B chans b k n count L) :
    executeBlock S t ⟨B, chans.map (fun c => visit start B c.1)⟩ (chans.map (progAt V start B)) =
      .ok (chans.map (progAt V start (B + 1))) := by
  unfold executeBlock
  dsimp only
  rw [h.block]
  dsimp only
  rw [blockRequests_eq]
  generalize hreqs : (chans.zipIdx 0).filterMap (fun x => requestOf V start B x.1 x.2) = reqs
  -- the requests
  have hmem : ∀ r, r ∈ reqs ↔ ∃ x ∈ chans.zipIdx 0, requestOf V start B x.1 x.2 = some r := by
    intro r; rw [← hreqs, List.mem_filterMap]
  have hreqOf : ∀ (c : Chan α) (i : Nat) (r : ChannelRequest α), requestOf V start B c i = some r →
      ∃ pl, visit start B c.1 = some pl ∧ ¬ c.2.length ≤ (taken V start B c.1).length ∧
        r = { channelIndex := pl.index, slot := i,
              output := (overlay c.2 (taken V start B c.1)).drop (taken V start B c.1).length,
              skip := pl.samplesToSkip } := by
    intro c i r hr
    unfold requestOf at hr
    cases hv : visit start B c.1 with
    | none => rw [hv] at hr; cases hr
    | some pl =>
      rw [hv] at hr
      dsimp only at hr
      by_cases hc : c.2.length ≤ (taken V start B c.1).length
      · rw [if_pos hc] at hr; cases hr
      · rw [if_neg hc] at hr
        cases hr
        exact ⟨pl, rfl, hc, rfl⟩
  have hd : reqs.Pairwise (fun a b => a.channelIndex ≠ b.channelIndex) := by
    rw [← hreqs]
    refine List.Pairwise.filterMap _ ?_ (pairwise_zipIdx_fst h.distinct 0)
    intro x y hxy r hr r' hr'
    obtain ⟨pl, hv, _, rfl⟩ := hreqOf _ _ _ hr
    obtain ⟨pl', hv', _, rfl⟩ := hreqOf _ _ _ hr'
    exact hxy pl pl' hv hv'
  have hsl : reqs.Pairwise (fun a b => a.slot ≠ b.slot) := by
    rw [← hreqs]
    refine List.Pairwise.filterMap _ ?_ (pairwise_zipIdx chans 0)
    intro x y hxy r hr r' hr'
    obtain ⟨pl, hv, _, rfl⟩ := hreqOf _ _ _ hr
    obtain ⟨pl', hv', _, rfl⟩ := hreqOf _ _ _ hr'
    exact hxy
  have hinChans : ∀ x ∈ chans.zipIdx 0, x.1 ∈ chans := fun x hx => List.mem_of_getElem? (zipIdx_mem hx).2
  have hreq : ∀ r ∈ reqs, r.skip = k ∧ r.output.length = L ∧ ∃ m, b.channels[r.channelIndex]? = some m ∧
      m.dataType ∈ S.supported ∧ m.numberOfValues = n := by
    intro r hr
    obtain ⟨x, hx, hxr⟩ := (hmem r).mp hr
    obtain ⟨pl, hv, hroom, rfl⟩ := hreqOf _ _ _ hxr
    obtain ⟨h1, h2, m, h3, h4, h5, _⟩ := h.same x.1 (hinChans x hx) pl hv
    exact ⟨h1, by simpa using h2, m, h3, h4 (by omega), h5⟩
  obtain ⟨hskip, hnoskip⟩ := h.ready.read (S := S) hS (L := L) hd hsl hreq
  generalize hany : List.any (chans.map (fun c => visit start B c.1)) _ = anySkip
  have hres : ∃ res, (if anySkip = true
      then b.readWithSkip S t.bytes reqs else b.read S t.bytes reqs) = .ok res ∧
      BlockResult dec t.bytes b reqs k L count res := by
    split
    · exact hskip
    · rename_i hanyf
      by_cases hk : k = 0
      · exact hnoskip hk
      · -- nobody has to skip, so nobody has to read, and the two readers agree
        have hnov : ∀ c ∈ chans, visit start B c.1 = none := by
          intro c hc
          cases hv : visit start B c.1 with
          | none => rfl
          | some pl =>
            exfalso
            apply hanyf
            rw [← hany, List.any_map, List.any_eq_true]
            refine ⟨c, hc, ?_⟩
            simp only [Function.comp, hv, decide_eq_true_eq]
            rw [(h.same c hc pl hv).1]
            omega
        have hnil : reqs = [] := by
          apply List.eq_nil_iff_forall_not_mem.mpr
          intro r hr
          obtain ⟨x, hx, hxr⟩ := (hmem r).mp hr
          obtain ⟨pl, hv, _⟩ := hreqOf _ _ _ hxr
          rw [hnov x.1 (hinChans x hx)] at hv
          cases hv
        have hready0 : b.Ready t.bytes 0 n count :=
          { h.ready with
            skip := Nat.lt_of_le_of_lt (Nat.zero_le _) h.ready.skip
            contig := fun hl => by
              obtain ⟨m0, a, b, _⟩ := h.ready.contig hl
              exact ⟨m0, a, b, Or.inl rfl⟩ }
        rw [hnil]
        obtain ⟨res, h1, h2⟩ := (hready0.read (S := S) hS (L := L) (reqs := []) List.Pairwise.nil List.Pairwise.nil
          (fun r hr => by cases hr)).2 rfl
        exact ⟨res, h1, h2.number, (fun r hr => by cases hr), h2.others⟩
  obtain ⟨⟨num, rplan⟩, hreadeq, hnum, houts, hothers⟩ := hres
  replace hnum : num = if reqs.isEmpty = true then 0 else min (count - k) L := hnum
  rw [hreadeq]
  dsimp only
  rw [storeOutputs_map]
  -- turn everything into a map over the numbered channels
  have hplans : chans.map (fun c => visit start B c.1) = (chans.zipIdx 0).map (fun x => visit start B x.1.1) := by
    have := congrArg (List.map (fun c : Chan α => visit start B c.1)) (List.zipIdx_map_fst 0 chans)
    rw [List.map_map] at this
    exact this.symm
  have hgoal : chans.map (progAt V start (B + 1)) = (chans.zipIdx 0).map (fun x => progAt V start (B + 1) x.1) := by
    have := congrArg (List.map (progAt V start (B + 1))) (List.zipIdx_map_fst 0 chans)
    rw [List.map_map] at this
    exact this.symm
  rw [hplans, addSamples_map, hgoal]
  congr 1
  apply List.map_congr_left
  intro x hx
  have hc := hinChans x hx
  obtain ⟨c, i⟩ := x
  simp only at hc ⊢
  -- a channel without request keeps its output
  have hnoreq : requestOf V start B c i = none → (planOutputs rplan).lookup i = none := by
    intro hnone
    apply hothers
    intro r hr hslot
    obtain ⟨y, hy, hyr⟩ := (hmem r).mp hr
    obtain ⟨pl, hv, _, rfl⟩ := hreqOf _ _ _ hyr
    simp only at hslot
    have h1 := (zipIdx_mem hx).2
    have h2 := (zipIdx_mem hy).2
    rw [Nat.sub_zero] at h1 h2
    rw [hslot] at h2
    rw [h2] at h1
    cases h1
    rw [hslot] at hyr
    rw [hnone] at hyr
    cases hyr
  cases hv : visit start B c.1 with
  | none =>
    have : requestOf V start B c i = none := by unfold requestOf; rw [hv]
    rw [hnoreq this]
    simp only [Option.isSome_none, Bool.false_eq_true, if_false]
    unfold progAt
    rw [taken_succ_none (hinc c hc) (hV c hc) hv]
  | some pl =>
    simp only [Option.isSome_some, if_true]
    obtain ⟨l, hf, hl, hlB, hpi, hps, hlt, htk⟩ := taken_succ_some (V := V) (hinc c hc) (hV c hc) hv
    obtain ⟨hk1, hL1, m, hm, hsup, hmn, hloc⟩ := h.same c hc pl hv
    obtain ⟨hcnt, hVl⟩ := hloc l hf
    by_cases hfull : c.2.length ≤ (taken V start B c.1).length
    · have hnone : requestOf V start B c i = none := by
        unfold requestOf; rw [hv]; dsimp only; rw [if_pos hfull]
      rw [hnoreq hnone]
      -- then L = 0 and nobody is requested
      have hnum0 : num = 0 := by
        have hL0 : L = 0 := by omega
        rw [hnum, hL0]
        split <;> simp
      rw [hnum0]
      unfold progAt
      rw [htk, overlay_full _ _ _ hfull]
      simp only [List.length_append, Progress.mk.injEq, true_and]
      omega
    · have hsome : requestOf V start B c i = some { channelIndex := pl.index, slot := i, output := (overlay c.2 (taken V start B c.1)).drop (taken V start B c.1).length, skip := pl.samplesToSkip } := by
        unfold requestOf; rw [hv]; dsimp only; rw [if_neg hfull]
      have hin : { channelIndex := pl.index, slot := i, output := (overlay c.2 (taken V start B c.1)).drop (taken V start B c.1).length, skip := pl.samplesToSkip } ∈ reqs :=
        (hmem _).mpr ⟨(c, i), hx, hsome⟩
      have hlook := houts _ hin m hm
      simp only at hlook
      rw [hlook]
      have hne : reqs.isEmpty = false := by
        cases reqs with
        | nil => cases hin
        | cons => rfl
      rw [hne] at hnum
      simp only [Bool.false_eq_true, if_false] at hnum
      rw [hnum]
      unfold progAt
      simp only [Progress.mk.injEq]
      rw [htk, hVl, hk1]
      constructor
      · have := overlay_append c.2 (taken V start B c.1) ((b.samples dec t.bytes pl.index m count).drop k)
        rw [Nat.min_eq_left (by omega)] at this ⊢
        exact this
      · have : (b.samples dec t.bytes pl.index m count).length = count := by simp [DataBlock.samples]
        simp only [List.length_append, List.length_drop, this]
        omega

/-- all samples of a channel from number `start` on -/
theorem taken_all (V : DataLocation → List α) (start M : Nat) (ls : List DataLocation)
    (h : ∀ l ∈ ls, l.dataBlock < M) : taken V start M ls = (ls.flatMap V).drop start := by
  unfold taken
  rw [List.filter_eq_self.mpr (fun l hl => by simpa using h l hl)]

theorem taken_prefix {V : DataLocation → List α} {start : Nat} {ls : List DataLocation} (h : Increasing ls) :
    ∀ (d B : Nat), ∃ ys, (taken V start (B + d) ls) = taken V start B ls ++ ys := by
  intro d B
  have h1 := h.split (B + d)
  have hB : (ls.filter (fun l => decide (l.dataBlock < B + d))).filter (fun l => decide (l.dataBlock < B))
      = ls.filter (fun l => decide (l.dataBlock < B)) := by
    rw [List.filter_filter]
    apply List.filter_congr
    intro l _
    by_cases hl : l.dataBlock < B
    · simp [hl]; omega
    · simp [hl]
  have h2 : Increasing (ls.filter (fun l => decide (l.dataBlock < B + d))) := h.filter _
  have h3 := h2.split B
  rw [hB] at h3
  unfold taken
  rw [h3, List.flatMap_append, List.drop_append]
  exact ⟨_, rfl⟩

/-- A block is read when it is the first one of the plan or some buffer is not full yet. -/
def Needed (V : DataLocation → List α) (start B : Nat) (chans : List (Chan α)) : Prop :=
  (∀ B' < B, visitAll start B' (chans.map (·.1)) = none) ∨
  ∃ c ∈ chans, (taken V start B c.1).length < c.2.length

theorem executePlan_eq (hS : S.Fixed dec) {V : DataLocation → List α} {t : TdmsFile} {start : Nat}
    {chans : List (Chan α)} (hinc : ∀ c ∈ chans, Increasing c.1)
    (hV : ∀ c ∈ chans, ∀ l ∈ c.1, (V l).length = l.numberOfSamples)
    (M : Nat) (hT : ∀ B, B < M → visitAll start B (chans.map (·.1)) ≠ none → Needed V start B chans →
      ∃ b k n count L, Together S dec V t start B chans b k n count L) :
    ∀ (d B : Nat), B + d ≤ M → Needed V start B chans → ∃ ps, executePlan S t ((List.range' B d).filterMap
        (fun block => visitAll start block (chans.map (·.1)))) (chans.map (progAt V start B)) = .ok ps ∧
      ps.map (·.output) = chans.map (fun c => (progAt V start (B + d) c).output) := by
  intro d
  induction d with
  | zero =>
    intro B _ _
    refine ⟨_, rfl, ?_⟩
    rw [List.map_map]
    rfl
  | succ d ih =>
    intro B hM hneed
    rw [List.range'_succ, List.filterMap_cons]
    cases hva : visitAll start B (chans.map (·.1)) with
    | none =>
      dsimp only
      have hnone : ∀ c ∈ chans, visit start B c.1 = none := by
        intro c hc
        unfold visitAll at hva
        cases hv : visit start B c.1 with
        | none => rfl
        | some pl =>
          rw [if_pos] at hva
          · cases hva
          · rw [List.any_map, List.any_map, List.any_eq_true]
            exact ⟨c, hc, by simp [hv]⟩
      have hneed' : Needed V start (B + 1) chans := by
        rcases hneed with h | ⟨c, hc, h⟩
        · left
          intro B' hB'
          rcases Nat.lt_succ_iff_lt_or_eq.mp hB' with h1 | h1
          · exact h B' h1
          · rw [h1]; exact hva
        · right
          exact ⟨c, hc, by rw [taken_succ_none (hinc c hc) (hV c hc) (hnone c hc)]; exact h⟩
      obtain ⟨ps, hps, hout⟩ := ih (B + 1) (by omega) hneed'
      rw [show B + 1 + d = B + (d + 1) by omega] at hout
      refine ⟨ps, ?_, hout⟩
      have : chans.map (progAt V start B) = chans.map (progAt V start (B + 1)) := by
        apply List.map_congr_left
        intro c hc
        unfold progAt
        rw [taken_succ_none (hinc c hc) (hV c hc) (hnone c hc)]
      rw [this]
      exact hps
    | some br =>
      dsimp only
      obtain ⟨b, k, n, count, L, htog⟩ := hT B (by omega) (by rw [hva]; simp) hneed
      have hbr : br = ⟨B, chans.map (fun c => visit start B c.1)⟩ := by
        unfold visitAll at hva
        split at hva
        · cases hva
          rw [List.map_map]
          rfl
        · cases hva
      rw [hbr]
      unfold executePlan
      rw [executeBlock_eq hS hinc hV htog]
      dsimp only
      split
      · rename_i hall
        refine ⟨_, rfl, ?_⟩
        rw [List.map_map]
        apply List.map_congr_left
        intro c hc
        rw [List.all_map, List.all_eq_true] at hall
        have hcomp := hall c hc
        simp only [Function.comp, progAt_complete, decide_eq_true_eq] at hcomp
        simp only [Function.comp, progAt]
        obtain ⟨ys, hys⟩ := taken_prefix (V := V) (start := start) (hinc c hc) d (B + 1)
        rw [show B + (d + 1) = B + 1 + d by omega, hys, overlay_full _ _ _ hcomp]
      · rename_i hnall
        have hneed' : Needed V start (B + 1) chans := by
          right
          rw [Bool.not_eq_true, List.all_map, List.all_eq_false] at hnall
          obtain ⟨c, hc, hx⟩ := hnall
          simp only [Function.comp, progAt_complete, decide_eq_true_eq, Nat.not_le] at hx
          exact ⟨c, hc, hx⟩
        obtain ⟨ps, hps, hout⟩ := ih (B + 1) (by omega) hneed'
        rw [show B + 1 + d = B + (d + 1) by omega] at hout
        exact ⟨ps, hps, hout⟩

end
end Tedium
