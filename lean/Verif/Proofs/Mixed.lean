import Verif.Props.ReadSafety
import Verif.Spec.Refused
import Verif.Proofs.DeliveredFile

/-!
# Reading channels of different types together

Helper lemmas: a read of several channels some of which have another type than the one that is asked for.
-/

namespace Tedium
open SegSpec PlanSpec

section
variable {α : Type} {S : Storage α} {dec : Endian → Bytes → α}

/-- As `readChannelsFrom_segs`, but the type matters only where something is read. -/
theorem readChannelsFrom_plain (hS : S.Fixed dec) {segs : List Segment} {t : TdmsFile}
    (h : replay Index.new segs = .ok t.index) (hf : t.bytes.length < 2 ^ 63) (start : Nat)
    (cs : List (ChannelPath × List α)) {supported : List DataType}
    (hl : ∀ c ∈ cs, Listed (entries segs) c.1.path)
    (hread : ∀ c ∈ cs, ReadableFrom supported t.bytes segs c.1.path start)
    (hdist : cs.Pairwise (fun c d => c.1.path ≠ d.1.path))
    (hstep : ∀ c ∈ cs, ∀ d ∈ cs, InStep segs c.1.path d.1.path)
    (hlen : ∀ c ∈ cs, ∀ d ∈ cs, (∃ pre ∈ dataPrefixes segs, c.1.path ∈ active pre ∧ d.1.path ∈ active pre) →
      c.2.length = d.2.length)
    (htype : ∀ c ∈ cs, c.2 ≠ [] → ∀ pre ∈ dataPrefixes segs, c.1.path ∈ active pre → start < sampleCount pre c.1.path →
      ∀ m, layoutOf (entries pre) c.1.path = some m → m.dataType ∈ S.supported) :
    t.readChannelsFrom S (cs.map (·.1)) start (cs.map (·.2)) =
      .ok (cs.map (fun c => overlay c.2 ((channelSamples dec t.bytes segs c.1.path).drop start))) := by
  have hr := replay_refines h
  rw [readChannelsFrom_eq (dec := dec) hS hr.inv start cs (fun c => locations segs c.path)
    (fun c hc => hr.positions (hl c hc))
    (fun B hB _ => together_segs h hf start cs B (fun c hc pre hpre => hread c hc pre (List.mem_of_getElem? hpre))
      (fun c hc pre hpre hact hst _ hpos m hm => htype c hc (List.ne_nil_of_length_pos hpos) pre (List.mem_of_getElem? hpre)
        hact hst m hm)
      hdist hstep hlen hB)]
  congr 1
  apply List.map_congr_left
  intro c _
  rw [flatMap_channelSamples h]

/-- A plan that goes on after its first part. -/
theorem executePlan_goes_on {t : TdmsFile} {i : Nat} {p : Progress α} (hc : p.isComplete = false) (rest : List BlockRead) :
    ∀ (pre : List BlockRead) (ps qs : List (Progress α)), executePlan S t pre ps = .ok qs → ps[i]? = some p →
    (∀ x ∈ pre, ∀ pl, x.channelIndexes[i]? ≠ some (some pl)) →
    executePlan S t (pre ++ rest) ps = executePlan S t rest qs ∧ qs[i]? = some p := by
  intro pre
  induction pre with
  | nil =>
    intro ps qs h h2 _
    unfold executePlan at h
    cases h
    exact ⟨rfl, h2⟩
  | cons x pre ih =>
    intro ps qs h h2 hpre
    rw [List.cons_append]
    unfold executePlan at h
    rw [executePlan.eq_def S t (x :: (pre ++ rest)) ps]
    dsimp only
    cases hx : executeBlock S t x ps with
    | error e => rw [hx] at h; cases h
    | ok os =>
      rw [hx] at h
      dsimp only at h ⊢
      have hq := executeBlock_unvisited hx (hpre x List.mem_cons_self)
      rw [h2] at hq
      have hnot : ¬ os.all Progress.isComplete = true := by
        intro hall
        rw [List.all_eq_true] at hall
        rw [hall p (List.mem_of_getElem? hq)] at hc
        cases hc
      rw [if_neg hnot] at h ⊢
      exact ih os qs h hq (fun y hy => hpre y (List.mem_cons_of_mem _ hy))

theorem validateTypes_error {ms : List RawDataMeta} {e : Fail} : ∀ {reqs : List (ChannelRequest α)},
    (∀ r ∈ reqs, ∃ m, ms[r.channelIndex]? = some m) → validateTypes S ms reqs = .error e →
    ∃ r ∈ reqs, ∃ m, ms[r.channelIndex]? = some m ∧ m.dataType ∉ S.supported ∧
      e = .err (.dataTypeMismatch m.dataType S.natural) := by
  intro reqs
  induction reqs with
  | nil => intro _ h; cases h
  | cons r rs ih =>
    intro hin h
    unfold validateTypes at h
    obtain ⟨m, hm⟩ := hin r List.mem_cons_self
    rw [hm] at h
    dsimp only at h
    by_cases hs : m.dataType ∈ S.supported
    · rw [if_pos (by simpa using hs)] at h
      obtain ⟨r', hr', h'⟩ := ih (fun x hx => hin x (List.mem_cons_of_mem _ hx)) h
      exact ⟨r', List.mem_cons_of_mem _ hr', h'⟩
    · rw [if_neg (by simpa using hs)] at h
      cases h
      exact ⟨r, List.mem_cons_self, m, hm, hs, rfl⟩

/-- Where a request comes from. -/
theorem blockRequests_from {plans : List (Option ChannelReadPlan)} {ps : List (Progress α)} {k : Nat}
    {r : ChannelRequest α} (h : r ∈ blockRequests k plans ps) :
    ∃ (i : Nat) (pl : ChannelReadPlan) (p : Progress α), plans[i]? = some (some pl) ∧ ps[i]? = some p ∧ p.isComplete = false ∧ r.channelIndex = pl.index := by
  induction plans generalizing ps k with
  | nil => unfold blockRequests at h; cases h
  | cons x plans ih =>
    have hstep : ∀ {q ps}, r ∈ blockRequests (k + 1) plans ps → ∃ (i : Nat) (pl : ChannelReadPlan) (p : Progress α), (x :: plans)[i]? = some (some pl) ∧
        (q :: ps)[i]? = some p ∧ p.isComplete = false ∧ r.channelIndex = pl.index := by
      intro q ps h
      obtain ⟨i, pl, p, h1, h2, h3⟩ := ih h
      exact ⟨i + 1, pl, p, h1, h2, h3⟩
    cases ps with
    | nil => cases x <;> (unfold blockRequests at h; cases h)
    | cons q ps =>
      cases x with
      | none => unfold blockRequests at h; exact hstep h
      | some pl0 =>
        unfold blockRequests at h
        by_cases hq : q.isComplete = true
        · rw [if_pos hq] at h; exact hstep h
        · rw [if_neg hq] at h
          rcases List.mem_cons.mp h with rfl | h
          · exact ⟨0, pl0, q, rfl, rfl, by simpa using hq, rfl⟩
          · exact hstep h

/-- The segment of a sample. -/
theorem holdsSample_exists {segs : List Segment} {p : Text} {start : Nat} (h : start < sampleCount segs p) :
    ∃ pre, HoldsSample segs pre p start := by
  have key : ∀ k, k ≤ (dataPrefixes segs).length → start < samplesBefore (locations segs p) k →
      ∃ pre, HoldsSample segs pre p start := by
    intro k
    induction k with
    | zero =>
      intro _ hk
      rw [samplesBefore_locations] at hk
      simp at hk
    | succ k ih =>
      intro hk1 hk2
      by_cases hk : start < samplesBefore (locations segs p) k
      · exact ih (by omega) hk
      · have hB := List.getElem?_eq_getElem (show k < (dataPrefixes segs).length by omega)
        obtain ⟨h1, h2, h3⟩ := sampleCount_at hB p
        refine ⟨_, ⟨List.mem_of_getElem? hB, ?_, by omega, by omega⟩⟩
        refine Classical.byContradiction (fun hn => ?_)
        have : samplesIn (dataPrefixes segs)[k] p = 0 := by unfold samplesIn; rw [if_neg hn]
        omega
  refine key (dataPrefixes segs).length (Nat.le_refl _) ?_
  rw [samplesBefore_locations, List.take_length]
  exact h

theorem sampleCount_prefix_le {segs : List Segment} {B : Nat} {pre : List Segment} (hB : (dataPrefixes segs)[B]? = some pre)
    (p : Text) : sampleCount pre p ≤ sampleCount segs p := by
  rw [(sampleCount_at hB p).2.1, samplesBefore_locations]
  unfold sampleCount
  have hsplit := List.take_append_drop (B + 1) (dataPrefixes segs)
  conv => rhs; rw [← hsplit]
  rw [List.map_append, List.sum_append]
  omega

theorem exists_least {P : Nat → Prop} (h : ∃ n, P n) : ∃ n, P n ∧ ∀ k < n, ¬ P k := by
  obtain ⟨n, hn⟩ := h
  induction n using Nat.strongRecOn with
  | _ n ih =>
    by_cases hk : ∃ k < n, P k
    · obtain ⟨k, hk, hp⟩ := hk
      exact ih k hk hp
    · exact ⟨n, hn, fun k hk' hp => hk ⟨k, hk', hp⟩⟩

/-- A read of several channels of which some cannot be read as the wanted type ends with the error for one of them. -/
theorem readChannelsFrom_refused (hS : S.Fixed dec) {segs : List Segment} {t : TdmsFile}
    (h : replay Index.new segs = .ok t.index) (hf : t.bytes.length < 2 ^ 63) (start : Nat)
    (cs : List (ChannelPath × List α)) {supported : List DataType}
    (hl : ∀ c ∈ cs, Listed (entries segs) c.1.path)
    (hread : ∀ c ∈ cs, ReadableFrom supported t.bytes segs c.1.path start)
    (hdist : cs.Pairwise (fun c d => c.1.path ≠ d.1.path))
    (hstep : ∀ c ∈ cs, ∀ d ∈ cs, InStep segs c.1.path d.1.path)
    (hlen : ∀ c ∈ cs, ∀ d ∈ cs, (∃ pre ∈ dataPrefixes segs, c.1.path ∈ active pre ∧ d.1.path ∈ active pre) →
      c.2.length = d.2.length)
    (hone : ∀ c ∈ cs, (∀ pre ∈ dataPrefixes segs, c.1.path ∈ active pre → ∀ m, layoutOf (entries pre) c.1.path = some m →
        m.dataType ∈ S.supported) ∨
      ∀ pre ∈ dataPrefixes segs, c.1.path ∈ active pre → ∀ m, layoutOf (entries pre) c.1.path = some m →
        m.dataType ∉ S.supported)
    (hsome : ∃ c ∈ cs, Refused S segs start c) :
    ∃ c ∈ cs, Refused S segs start c ∧ ∃ pre ∈ dataPrefixes segs, c.1.path ∈ active pre ∧
      ∃ m, layoutOf (entries pre) c.1.path = some m ∧
        t.readChannelsFrom S (cs.map (·.1)) start (cs.map (·.2)) = R.err (.dataTypeMismatch m.dataType S.natural) := by
  have hr := replay_refines h
  -- the first block in which something is refused
  let bad (B : Nat) : Prop := ∃ c ∈ cs, Refused S segs start c ∧ visit start B (locations segs c.1.path) ≠ none
  have hbad : ∃ B, bad B := by
    obtain ⟨c, hc, hcr⟩ := hsome
    obtain ⟨pre, hs⟩ := holdsSample_exists hcr.more
    obtain ⟨B, hB⟩ := List.mem_iff_getElem?.mp hs.data
    obtain ⟨⟨pl, hv, _⟩, _⟩ := visit_first hB hs.active hs.after hs.before
    exact ⟨B, c, hc, hcr, by rw [hv]; simp⟩
  obtain ⟨B, ⟨c0, hc0, href, hvis⟩, hfirst⟩ := exists_least hbad
  cases hv0 : visit start B (locations segs c0.1.path) with
  | none => exact absurd hv0 hvis
  | some pl0 =>
  obtain ⟨pre, _, hpre, hprem, hact0, _, hidx0, _⟩ := visit_segs hv0
  obtain ⟨b, hb, hgb⟩ := hr.block hpre
  obtain ⟨_, _, hbch, _⟩ := blockOf_fields hb
  obtain ⟨hm1, m0, hm0⟩ := layout_at h hpre hidx0
  have hBlt : B < t.index.dataBlocks.length := (List.getElem?_eq_some_iff.mp hgb).1
  have hpos : ∀ c ∈ cs, t.index.getChannelDataPositions c.1 = some (locations segs c.1.path) :=
    fun c hc => hr.positions (hl c hc)
  have hinc : ∀ c ∈ cs, Increasing (locations segs c.1.path) := by
    intro c hc
    obtain ⟨o, ho, hlo⟩ := Option.map_eq_some_iff.mp (hpos c hc)
    rw [← hlo]
    exact hr.inv.incr _ _ ho
  have hlt : ∀ c ∈ cs, ∀ l ∈ locations segs c.1.path, l.dataBlock < t.index.dataBlocks.length := by
    intro c hc l hlm
    obtain ⟨o, ho, hlo⟩ := Option.map_eq_some_iff.mp (hpos c hc)
    rw [← hlo] at hlm
    obtain ⟨b, _, _, hb, _⟩ := hr.inv.valid _ _ ho l hlm
    exact (List.getElem?_eq_some_iff.mp hb).1
  obtain ⟨i0, hi0⟩ := List.mem_iff_getElem?.mp hc0
  -- the plan
  have hmap : ((cs.map (fun c => locations segs c.1.path)).map (visit start B))[i0]? = some (some pl0) := by
    rw [List.getElem?_map, List.getElem?_map, hi0]
    exact congrArg some hv0
  have hva : visitAll start B (cs.map (fun c => locations segs c.1.path))
      = some ⟨B, (cs.map (fun c => locations segs c.1.path)).map (visit start B)⟩ := by
    unfold visitAll
    rw [if_pos]
    rw [List.any_eq_true]
    exact ⟨some pl0, List.mem_of_getElem? hmap, rfl⟩
  obtain ⟨post, hplan⟩ := plan_split start _ B _ hBlt hva
  -- the blocks before
  obtain ⟨qs, hqs, hout⟩ := executePlan_eq (S := S) (dec := dec) hS (V := locSamples dec t) (t := t) (start := start)
    (chans := cs.map (fun c => (locations segs c.1.path, c.2)))
    (by intro x hx; obtain ⟨c, hc, rfl⟩ := List.mem_map.mp hx; exact hinc c hc)
    (by intro x hx; obtain ⟨c, hc, rfl⟩ := List.mem_map.mp hx; exact locSamples_length hr.inv (hpos c hc))
    B (by
      intro B' hB' hva' _
      rw [List.map_map] at hva'
      refine together_segs h hf start cs B' (fun c hc pre hpre => hread c hc pre (List.mem_of_getElem? hpre)) ?_
        hdist hstep hlen hva'
      intro c hc pre' hpre' hact hst hpos' hroom m hm
      rcases hone c hc with hyes | hno
      · exact hyes pre' (List.mem_of_getElem? hpre') hact m hm
      · refine absurd ⟨c, hc, ⟨List.ne_nil_of_length_pos hroom,
          Nat.lt_of_lt_of_le hst (sampleCount_prefix_le hpre' _), hno⟩, ?_⟩ (hfirst B' hB')
        obtain ⟨pl, hpl⟩ := visit_of_segs hpre' hpos' hst
        rw [hpl]
        simp)
    B 0 (by omega) (Or.inl (fun B' hB' => absurd hB' (Nat.not_lt_zero _)))
  have hstart : (cs.map (fun c => (locations segs c.1.path, c.2))).map (progAt (locSamples dec t) start 0)
      = cs.map (fun c => (⟨c.2, 0⟩ : Progress α)) := by
    rw [List.map_map]
    apply List.map_congr_left
    intro c _
    show progAt _ _ _ _ = _
    unfold progAt taken
    have : (locations segs c.1.path).filter (fun l => decide (l.dataBlock < 0)) = [] := by
      apply List.filter_eq_nil_iff.mpr; simp
    rw [this]
    simp [overlay_nil]
  rw [hstart, List.map_map, ← List.range_eq_range'] at hqs
  have hincomplete : (⟨c0.2, 0⟩ : Progress α).isComplete = false := by
    unfold Progress.isComplete
    cases hout0 : c0.2 with
    | nil => exact absurd hout0 href.room
    | cons v vs => rfl
  obtain ⟨hgo, hqi⟩ := executePlan_goes_on hincomplete
    (⟨B, (cs.map (fun c => locations segs c.1.path)).map (visit start B)⟩ :: post) _ _ _ hqs (i := i0)
    (by rw [List.getElem?_map, hi0]; rfl) (by
      intro x hx pl' hpl'
      obtain ⟨B', hB', hx⟩ := List.mem_filterMap.mp hx
      unfold visitAll at hx
      split at hx
      · cases hx
        dsimp only at hpl'
        rw [List.getElem?_map, List.getElem?_map, hi0] at hpl'
        refine hfirst B' (List.mem_range.mp hB') ⟨c0, hc0, href, ?_⟩
        have hpl'' := Option.some.inj hpl'
        intro hn
        replace hpl'' : visit start B' (locations segs c0.1.path) = some pl' := hpl''
        rw [hn] at hpl''
        cases hpl''
      · cases hx)
  have hm0b : b.channels[pl0.index]? = some m0 := by rw [hbch, hm1, hm0]
  obtain ⟨e, he, hval⟩ := executeBlock_unsupported (S := S)
    (br := ⟨B, (cs.map (fun c => locations segs c.1.path)).map (visit start B)⟩) hgb hmap hqi hincomplete hm0b
    (href.other pre hprem hact0 m0 hm0)
  -- the channel that is named in the error
  have hfrom : ∀ r ∈ blockRequests 0 ((cs.map (fun c => locations segs c.1.path)).map (visit start B)) qs,
      ∃ c ∈ cs, ∃ m, c.2 ≠ [] ∧ c.1.path ∈ active pre ∧ start < sampleCount pre c.1.path ∧
        layoutOf (entries pre) c.1.path = some m ∧ b.channels[r.channelIndex]? = some m := by
    intro r hrm
    obtain ⟨i, pl, p, h1, h2, h3, h4⟩ := blockRequests_from hrm
    rw [List.getElem?_map, List.getElem?_map] at h1
    cases hci : cs[i]? with
    | none => rw [hci] at h1; cases h1
    | some c =>
      rw [hci] at h1
      replace h1 : visit start B (locations segs c.1.path) = some pl := Option.some.inj h1
      have hcm := List.mem_of_getElem? hci
      obtain ⟨pre', _, hpre', _, hact, _, hidx, _, _, _, _, _, _, hst⟩ := visit_segs h1
      rw [hpre] at hpre'
      cases hpre'
      obtain ⟨hm1', m, hm⟩ := layout_at h hpre hidx
      refine ⟨c, hcm, m, ?_, hact, hst, hm, by rw [h4, hbch, hm1', hm]⟩
      have ho := congrArg (·[i]?) hout
      simp only [List.getElem?_map, h2, hci, Option.map_some] at ho
      have ho' : p.output.length = c.2.length := by
        rw [Option.some.inj ho]
        unfold progAt
        exact length_overlay _ _
      intro hnil
      rw [hnil] at ho'
      unfold Progress.isComplete at h3
      rw [ho'] at h3
      simp at h3
  obtain ⟨r, hrm, m, hmr, hns, rfl⟩ := validateTypes_error (fun r hrm => by
    obtain ⟨_, _, m, _, _, _, _, hm⟩ := hfrom r hrm
    exact ⟨m, hm⟩) hval
  obtain ⟨c, hcm, m', hroom, hact, hst, hm', hmb⟩ := hfrom r hrm
  rw [hmr] at hmb
  cases hmb
  refine ⟨c, hcm, ⟨hroom, Nat.lt_of_lt_of_le hst (sampleCount_prefix_le hpre _), ?_⟩, pre, hprem, hact, m, hm', ?_⟩
  · rcases hone c hcm with hyes | hno
    · exact absurd (hyes pre hprem hact m hm') hns
    · exact hno
  · unfold TdmsFile.readChannelsFrom
    rw [lookupPositions_eq (locs := fun c => locations segs c.path) (by
      intro c hc; obtain ⟨x, hx, rfl⟩ := List.mem_map.mp hc; exact hpos x hx)]
    show (readPlan ((cs.map (·.1)).map fun c => locations segs c.path) start >>= fun plan =>
      executePlan S t plan ((cs.map (·.2)).map (fun o => ⟨o, 0⟩)) >>= fun ps => pure (ps.map (·.output))) = _
    rw [List.map_map, List.map_map]
    rw [show (cs.map ((fun c : ChannelPath => locations segs c.path) ∘ fun x => x.1))
      = cs.map (fun c => locations segs c.1.path) from rfl]
    rw [readPlan_eq start t.index.dataBlocks.length _
      (by intro ls hls; obtain ⟨c, hc, rfl⟩ := List.mem_map.mp hls; exact hinc c hc)
      (by intro ls hls; obtain ⟨c, hc, rfl⟩ := List.mem_map.mp hls; exact hlt c hc), hplan]
    show (executePlan S t _ _ >>= _) = _
    rw [show (cs.map ((fun o : List α => (⟨o, 0⟩ : Progress α)) ∘ fun x => x.2)) = cs.map (fun c => (⟨c.2, 0⟩ : Progress α))
      from rfl]
    have hgo' := hgo
    rw [show ((fun x : List DataLocation × List α => x.1) ∘ fun c : ChannelPath × List α => (locations segs c.1.path, c.2))
      = fun c => locations segs c.1.path from rfl] at hgo'
    rw [hgo']
    unfold executePlan
    rw [he]
    rfl

end
end Tedium
