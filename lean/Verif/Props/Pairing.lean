import Verif.Proofs.WrongType
import Verif.Proofs.StoresRead
import Verif.Props.Joint

/-!
# C80: how channels and buffers are paired

`read_channels` and `read_channels_from` take a list of channels and a list of buffers, and nothing compares their
lengths.
-/

namespace Tedium

section
variable {α : Type} {S : Storage α}

theorem blockRequests_done {zs : List (Progress α)} (hz : ∀ z ∈ zs, z.isComplete = true) :
    ∀ (plans : List (Option ChannelReadPlan)) (ps : List (Progress α)) (k : Nat),
    blockRequests k plans (ps ++ zs) = blockRequests k plans ps := by
  intro plans
  induction plans with
  | nil => intro ps k; unfold blockRequests; rfl
  | cons x plans ih =>
    intro ps k
    cases ps with
    | nil =>
      have gen : ∀ (plans : List (Option ChannelReadPlan)) (zs : List (Progress α)) (k : Nat),
          (∀ z ∈ zs, z.isComplete = true) → blockRequests k plans zs = [] := by
        intro plans
        induction plans with
        | nil => intro zs k _; unfold blockRequests; rfl
        | cons x plans ih =>
          intro zs k hz
          cases zs with
          | nil => cases x <;> rfl
          | cons z zs =>
            cases x with
            | none => exact ih zs (k + 1) fun z hz' => hz z (List.mem_cons_of_mem _ hz')
            | some pl =>
              unfold blockRequests
              rw [if_pos (hz z List.mem_cons_self)]
              exact ih zs (k + 1) fun z hz' => hz z (List.mem_cons_of_mem _ hz')
      rw [List.nil_append, gen _ _ _ hz]
      cases x <;> rfl
    | cons p ps =>
      cases x with
      | none => exact ih ps (k + 1)
      | some pl =>
        rw [List.cons_append]
        unfold blockRequests
        rw [ih ps (k + 1)]

theorem blockRequests_short (zs : List (Progress α)) :
    ∀ (plans : List (Option ChannelReadPlan)) (ps : List (Progress α)) (k : Nat), plans.length ≤ ps.length →
    blockRequests k plans (ps ++ zs) = blockRequests k plans ps := by
  intro plans
  induction plans with
  | nil => intro ps k _; unfold blockRequests; rfl
  | cons x plans ih =>
    intro ps k h
    cases ps with
    | nil => cases h
    | cons p ps =>
      replace h : plans.length ≤ ps.length := Nat.le_of_succ_le_succ h
      cases x with
      | none => exact ih ps (k + 1) h
      | some pl =>
        rw [List.cons_append]
        unfold blockRequests
        rw [ih ps (k + 1) h]

theorem storeOutputs_append (outs : List (Nat × List α)) (zs : List (Progress α)) : ∀ (ps : List (Progress α)) (k : Nat),
    storeOutputs outs k (ps ++ zs) = storeOutputs outs k ps ++ storeOutputs outs (k + ps.length) zs := by
  intro ps
  induction ps with
  | nil => intro k; rfl
  | cons p ps ih =>
    intro k
    have := ih (k + 1)
    rw [show k + 1 + ps.length = k + (ps.length + 1) by omega] at this
    show _ :: storeOutputs outs (k + 1) (ps ++ zs) = _
    rw [this]
    rfl

theorem storeOutputs_idle (outs : List (Nat × List α)) : ∀ (zs : List (Progress α)) (k : Nat),
    (∀ i, k ≤ i → outs.lookup i = none) → storeOutputs outs k zs = zs := by
  intro zs
  induction zs with
  | nil => intro k _; rfl
  | cons z zs ih =>
    intro k h
    unfold storeOutputs
    rw [h k (Nat.le_refl _), ih (k + 1) fun i hi => h i (by omega)]

theorem addSamples_append (n : Nat) (zs : List (Progress α)) : ∀ (plans : List (Option ChannelReadPlan)) (ps : List (Progress α)),
    addSamples n plans (ps ++ zs) = addSamples n plans ps ++ addSamples n (plans.drop ps.length) zs := by
  intro plans
  induction plans with
  | nil =>
    intro ps
    rw [List.drop_nil]
    cases ps with
    | nil => rfl
    | cons p ps => cases zs with
      | nil => rw [List.append_nil]; exact (List.append_nil _).symm
      | cons z zs => rfl
  | cons x plans ih =>
    intro ps
    cases ps with
    | nil => rfl
    | cons p ps =>
      show _ :: addSamples n plans (ps ++ zs) = _
      rw [ih ps]
      rfl

/-- Buffers from which a block has no requests take no part in reading it. -/
theorem executeBlock_beside (t : TdmsFile) (br : BlockRead) (ps zs : List (Progress α))
    (h : blockRequests 0 br.channelIndexes (ps ++ zs) = blockRequests 0 br.channelIndexes ps) :
    (∃ e, executeBlock S t br ps = .error e ∧ executeBlock S t br (ps ++ zs) = .error e) ∨
    ∃ qs n, executeBlock S t br ps = .ok qs ∧ qs.length = ps.length ∧
      executeBlock S t br (ps ++ zs) = .ok (qs ++ addSamples n (br.channelIndexes.drop ps.length) zs) := by
  unfold executeBlock
  dsimp only
  rw [h]
  cases t.index.getDataBlock br.dataBlock with
  | none => exact Or.inl ⟨_, rfl, rfl⟩
  | some b =>
    dsimp only
    generalize hany : List.any br.channelIndexes _ = anySkip
    cases hr : (if anySkip = true then b.readWithSkip S t.bytes (blockRequests 0 br.channelIndexes ps)
        else b.read S t.bytes (blockRequests 0 br.channelIndexes ps)) with
    | error e => exact Or.inl ⟨e, rfl, rfl⟩
    | ok r =>
      obtain ⟨n, plan⟩ := r
      refine Or.inr ⟨_, n, rfl, by rw [length_addSamples, length_storeOutputs], ?_⟩
      dsimp only
      rw [storeOutputs_append, addSamples_append, length_storeOutputs, storeOutputs_idle _ zs]
      intro i hi
      apply lookup_planOutputs
      intro hslot
      obtain ⟨q, hq, hqs⟩ := DataBlock.read_slots (r := (n, plan)) (by
        split at hr
        · exact Or.inr hr
        · exact Or.inl hr) i hslot
      obtain ⟨p, _, hp, _⟩ := (blockRequests_spec br.channelIndexes ps 0).1 q hq
      have := (List.getElem?_eq_some_iff.mp hp).1
      omega

theorem addSamples_empty (n : Nat) : ∀ (plans : List (Option ChannelReadPlan)) (zs : List (Progress α)),
    (∀ z ∈ zs, z.output = []) → (∀ z ∈ addSamples n plans zs, z.output = []) := by
  intro plans
  induction plans with
  | nil => intro zs h; cases zs <;> exact h
  | cons x plans ih =>
    intro zs h
    cases zs with
    | nil => exact h
    | cons z zs =>
      intro y hy
      unfold addSamples at hy
      rcases List.mem_cons.mp hy with rfl | hy
      · have := h z List.mem_cons_self
        split
        · exact this
        · exact this
      · exact ih zs (fun z hz => h z (List.mem_cons_of_mem _ hz)) y hy

theorem complete_of_empty {zs : List (Progress α)} (h : ∀ z ∈ zs, z.output = []) : ∀ z ∈ zs, z.isComplete = true := by
  intro z hz
  unfold Progress.isComplete
  rw [h z hz]
  simp

/-- Empty buffers take no part in a read. -/
theorem executePlan_empty_beside (t : TdmsFile) : ∀ (plan : List BlockRead) (ps zs : List (Progress α)),
    (∀ z ∈ zs, z.output = []) →
    (executePlan S t plan ps).map (·.map (·.output)) =
      (executePlan S t plan (ps ++ zs)).map (fun qs => (qs.map (·.output)).take ps.length) := by
  intro plan
  induction plan with
  | nil =>
    intro ps zs _
    unfold executePlan
    show Except.ok _ = Except.ok _
    dsimp only
    rw [List.map_append, List.take_left' (List.length_map _)]
  | cons br plan ih =>
    intro ps zs hz
    unfold executePlan
    rcases executeBlock_beside (S := S) t br ps zs (blockRequests_done (complete_of_empty hz) _ _ _) with
      ⟨e, h1, h2⟩ | ⟨qs, n, h1, h2, h3⟩
    · rw [h1, h2]; rfl
    · rw [h1, h3]
      dsimp only
      have hz' := addSamples_empty n (br.channelIndexes.drop ps.length) zs hz
      have hall : (qs ++ addSamples n (br.channelIndexes.drop ps.length) zs).all Progress.isComplete =
          qs.all Progress.isComplete := by
        rw [List.all_append, List.all_eq_true.mpr (complete_of_empty hz'), Bool.and_true]
      rw [hall]
      split
      · show Except.ok _ = Except.ok _
        dsimp only
        rw [List.map_append, List.take_left' (by rw [List.length_map, h2])]
      · rw [ih qs _ hz', h2]

theorem planLoop_lengths : ∀ (fuel : Nat) (chs : List PlanState) (plan : List BlockRead), planLoop fuel chs = .ok plan →
    ∀ br ∈ plan, br.channelIndexes.length = chs.length := by
  intro fuel
  induction fuel with
  | zero => intro chs plan h; cases h
  | succ fuel ih =>
    intro chs plan h
    unfold planLoop at h
    cases hn : nextBlock chs with
    | none => rw [hn] at h; cases h; exact nofun
    | some b =>
      rw [hn] at h
      dsimp only at h
      cases hp : planLoop fuel ((chs.map (planChannel b)).map (·.2)) with
      | error e => rw [hp] at h; cases h
      | ok rest =>
        rw [hp] at h
        have hr := ih _ _ hp
        rw [List.length_map, List.length_map] at hr
        dsimp only at h
        split at h
        · cases h
          intro br hbr
          rcases List.mem_cons.mp hbr with rfl | hbr
          · rw [List.length_map, List.length_map]
          · exact hr br hbr
        · cases h; exact hr

theorem lookupPositions_length (t : TdmsFile) : ∀ (cs : List ChannelPath) (ps : List (List DataLocation)),
    t.lookupPositions cs = .ok ps → ps.length = cs.length := by
  intro cs
  induction cs with
  | nil => intro ps h; cases h; rfl
  | cons c cs ih =>
    intro ps h
    unfold TdmsFile.lookupPositions at h
    split at h
    · cases h
    · obtain ⟨rest, hr, h⟩ := bind_ok_iff.mp h
      cases h
      rw [List.length_cons, List.length_cons, ih rest hr]

theorem addSamples_complete (n : Nat) : ∀ (plans : List (Option ChannelReadPlan)) (ps : List (Progress α)),
    ps.all Progress.isComplete = true → (addSamples n plans ps).all Progress.isComplete = true := by
  intro plans
  induction plans with
  | nil => intro ps h; cases ps <;> exact h
  | cons x plans ih =>
    intro ps h
    cases ps with
    | nil => exact h
    | cons p ps =>
      rw [List.all_cons, Bool.and_eq_true_iff] at h
      unfold addSamples
      rw [List.all_cons, Bool.and_eq_true_iff]
      refine ⟨?_, ih ps h.2⟩
      have := h.1
      unfold Progress.isComplete at this ⊢
      have := of_decide_eq_true this
      split
      · exact decide_eq_true (by dsimp only; omega)
      · exact decide_eq_true this

/-- Buffers that have come to their end are left alone. -/
theorem executePlan_complete (t : TdmsFile) : ∀ (plan : List BlockRead) (ps zs rs : List (Progress α)),
    ps.all Progress.isComplete = true → (∀ br ∈ plan, br.channelIndexes.length ≤ ps.length) →
    executePlan S t plan (ps ++ zs) = .ok rs → rs.map (·.output) = ps.map (·.output) ++ zs.map (·.output) := by
  intro plan
  induction plan with
  | nil => intro ps zs rs _ _ h; cases h; rw [List.map_append]
  | cons br plan ih =>
    intro ps zs rs hc hl h
    unfold executePlan at h
    have hlen := hl br List.mem_cons_self
    rcases executeBlock_beside (S := S) t br ps zs (blockRequests_short zs _ _ _ hlen) with
      ⟨e, h1, h2⟩ | ⟨qs, n, h1, h2, h3⟩
    · rw [h2] at h; cases h
    · rw [h3, List.drop_eq_nil_of_le hlen] at h
      have hz : addSamples n [] zs = zs := by cases zs <;> rfl
      rw [hz] at h
      have hq : qs.map (·.output) = ps.map (·.output) ∧ qs.all Progress.isComplete = true := by
        rcases executeBlock_beside (S := S) t br [] ps
          (blockRequests_done (List.all_eq_true.mp hc) _ _ _) with ⟨e, _, h5⟩ | ⟨qs', n', h4, h5, h6⟩
        · rw [List.nil_append, h1] at h5; cases h5
        · rw [List.nil_append, h1] at h6
          have := List.eq_nil_of_length_eq_zero h5
          rw [this, List.nil_append] at h6
          cases h6
          exact ⟨outputs_addSamples n' _ _, addSamples_complete n' _ _ hc⟩
      dsimp only at h
      split at h
      · cases h
        rw [List.map_append, hq.1]
      · rw [ih qs zs rs hq.2 (fun b hb => by rw [h2]; exact hl b (List.mem_cons_of_mem _ hb)) h, hq.1]

theorem executePlan_surplus (t : TdmsFile) : ∀ (plan : List BlockRead) (ps zs : List (Progress α)),
    (∀ br ∈ plan, br.channelIndexes.length ≤ ps.length) →
    (∀ e, executePlan S t plan ps = .error e → executePlan S t plan (ps ++ zs) = .error e) ∧
    ∀ rs, executePlan S t plan (ps ++ zs) = .ok rs →
      ∃ qs, executePlan S t plan ps = .ok qs ∧ rs.map (·.output) = qs.map (·.output) ++ zs.map (·.output) := by
  intro plan
  induction plan with
  | nil =>
    intro ps zs _
    refine ⟨nofun, fun rs h => ?_⟩
    cases h
    exact ⟨ps, rfl, by rw [List.map_append]⟩
  | cons br plan ih =>
    intro ps zs hl
    have hlen := hl br List.mem_cons_self
    rcases executeBlock_beside (S := S) t br ps zs (blockRequests_short zs _ _ _ hlen) with
      ⟨e, h1, h2⟩ | ⟨qs, n, h1, h2, h3⟩
    · unfold executePlan
      rw [h1, h2]
      refine ⟨fun _ h => h, nofun⟩
    · have hz : addSamples n [] zs = zs := by cases zs <;> rfl
      rw [List.drop_eq_nil_of_le hlen, hz] at h3
      have hl' : ∀ b ∈ plan, b.channelIndexes.length ≤ qs.length :=
        fun b hb => by rw [h2]; exact hl b (List.mem_cons_of_mem _ hb)
      unfold executePlan
      rw [h1, h3]
      dsimp only
      by_cases hq : qs.all Progress.isComplete = true
      · rw [if_pos hq]
        refine ⟨nofun, fun rs h => ⟨qs, rfl, ?_⟩⟩
        split at h
        · cases h; rw [List.map_append]
        · exact executePlan_complete t plan qs zs rs hq hl' h
      · rw [if_neg hq, if_neg (by rw [List.all_append, Bool.and_eq_true_iff]; exact fun h => hq h.1)]
        exact ih qs zs hl'

/-- **C80, too few buffers.** A read of several channels into fewer buffers than channels gives what it gives when the
    remaining channels get empty buffers: the buffers go to the first channels, and it fails in the same cases with the same
    error. -/
theorem fewer_buffers (t : TdmsFile) (cs : List ChannelPath) (start : Nat) (outs : List (List α)) :
    t.readChannelsFrom S cs start outs =
      (t.readChannelsFrom S cs start (outs ++ List.replicate (cs.length - outs.length) [])).map
        (fun res => res.take outs.length) := by
  unfold TdmsFile.readChannelsFrom
  dsimp only [bind, Except.bind, pure, Except.pure]
  cases t.lookupPositions cs with
  | error e => rfl
  | ok positions =>
    dsimp only
    cases readPlan positions start with
    | error e => rfl
    | ok plan =>
      dsimp only
      have h := executePlan_empty_beside (S := S) t plan (outs.map fun o => (⟨o, 0⟩ : Progress α))
        ((List.replicate (cs.length - outs.length) []).map fun o => (⟨o, 0⟩ : Progress α)) (by
          intro z hz
          obtain ⟨o, ho, rfl⟩ := List.mem_map.mp hz
          exact List.eq_of_mem_replicate ho)
      rw [← List.map_append, List.length_map] at h
      revert h
      cases executePlan S t plan (outs.map fun o => (⟨o, 0⟩ : Progress α)) with
      | error e =>
        cases executePlan S t plan
          ((outs ++ List.replicate (cs.length - outs.length) []).map fun o => (⟨o, 0⟩ : Progress α)) with
        | error e' => intro h; exact h
        | ok qs => intro h; cases h
      | ok ps =>
        cases executePlan S t plan
          ((outs ++ List.replicate (cs.length - outs.length) []).map fun o => (⟨o, 0⟩ : Progress α)) with
        | error e' => intro h; cases h
        | ok qs => intro h; exact h

/-- **C80, too many buffers.** If there is a buffer for every channel, further buffers are never written to, the others get what
    they get without them, and if the read without them fails, it fails with the same error. -/
theorem surplus_buffers (t : TdmsFile) (cs : List ChannelPath) (start : Nat) (outs more : List (List α))
    (h : cs.length ≤ outs.length) :
    (∀ e, t.readChannelsFrom S cs start outs = .error e → t.readChannelsFrom S cs start (outs ++ more) = .error e) ∧
    ∀ res, t.readChannelsFrom S cs start (outs ++ more) = .ok res →
      ∃ res', t.readChannelsFrom S cs start outs = .ok res' ∧ res = res' ++ more := by
  unfold TdmsFile.readChannelsFrom
  dsimp only [bind, Except.bind, pure, Except.pure]
  cases hp : t.lookupPositions cs with
  | error e => exact ⟨fun _ h => h, nofun⟩
  | ok positions =>
    dsimp only
    cases hr : readPlan positions start with
    | error e => exact ⟨fun _ h => h, nofun⟩
    | ok plan =>
      dsimp only
      have hlen : ∀ br ∈ plan, br.channelIndexes.length ≤ (outs.map fun o => (⟨o, 0⟩ : Progress α)).length := by
        intro br hbr
        unfold readPlan at hr
        rw [planLoop_lengths _ _ _ hr br hbr, List.length_map, List.length_map, lookupPositions_length t cs positions hp]
        exact h
      have hx := executePlan_surplus (S := S) t plan (outs.map fun o => (⟨o, 0⟩ : Progress α))
        (more.map fun o => (⟨o, 0⟩ : Progress α)) hlen
      rw [← List.map_append] at hx
      constructor
      · intro e he
        cases hq : executePlan S t plan (outs.map fun o => (⟨o, 0⟩ : Progress α)) with
        | error e' =>
          rw [hq] at he
          cases he
          rw [hx.1 _ hq]
        | ok qs => rw [hq] at he; cases he
      · intro res he
        cases hq : executePlan S t plan ((outs ++ more).map fun o => (⟨o, 0⟩ : Progress α)) with
        | error e' => rw [hq] at he; cases he
        | ok rs =>
          rw [hq] at he
          cases he
          obtain ⟨qs, h1, h2⟩ := hx.2 rs hq
          refine ⟨_, by rw [h1], ?_⟩
          rw [h2, List.map_map]
          congr 1
          exact List.map_id' more

/-- **C80, too many buffers, empty ones.** If there is a buffer for every channel, further empty buffers make no difference at
    all. -/
theorem surplus_empty_buffers (t : TdmsFile) (cs : List ChannelPath) (start : Nat) (outs more : List (List α))
    (h : cs.length ≤ outs.length) (hempty : ∀ o ∈ more, o = []) :
    t.readChannelsFrom S cs start (outs ++ more) = (t.readChannelsFrom S cs start outs).map (· ++ more) := by
  obtain ⟨h1, h2⟩ := surplus_buffers (S := S) t cs start outs more h
  cases h3 : t.readChannelsFrom S cs start outs with
  | error e => rw [h1 e h3]; rfl
  | ok res =>
    cases h4 : t.readChannelsFrom S cs start (outs ++ more) with
    | ok res' =>
      obtain ⟨res₂, h5, h6⟩ := h2 res' h4
      rw [h3] at h5
      cases h5
      rw [h6]
      rfl
    | error e =>
      exfalso
      unfold TdmsFile.readChannelsFrom at h3 h4
      dsimp only [bind, Except.bind, pure, Except.pure] at h3 h4
      revert h3 h4
      cases t.lookupPositions cs with
      | error e => intro h3; cases h3
      | ok positions =>
        dsimp only
        cases readPlan positions start with
        | error e => intro h3; cases h3
        | ok plan =>
          dsimp only
          have hx := executePlan_empty_beside (S := S) t plan (outs.map fun o => (⟨o, 0⟩ : Progress α))
            (more.map fun o => (⟨o, 0⟩ : Progress α)) (by
              intro z hz
              obtain ⟨o, ho, rfl⟩ := List.mem_map.mp hz
              exact hempty o ho)
          rw [← List.map_append] at hx
          revert hx
          cases executePlan S t plan (outs.map fun o => (⟨o, 0⟩ : Progress α)) with
          | error e => intro _ h3; cases h3
          | ok qs =>
            cases executePlan S t plan ((outs ++ more).map fun o => (⟨o, 0⟩ : Progress α)) with
            | error e => intro hx; cases hx
            | ok rs => intro _ _ h4; cases h4

end

/-! ## Examples -/

/-- Two channels and one buffer, one channel and two buffers, no channels at all. -/
theorem pairing_example :
    readManyFrom .u16 (fileOf manyFile) ["a", "b"] 0 [vals16 [0, 0]] = .ok [vals16 [1, 2]] ∧
    readManyFrom .u16 (fileOf manyFile) ["a", "b"] 0 [vals16 [0, 0], []] = .ok [vals16 [1, 2], []] ∧
    readManyFrom .u16 (fileOf manyFile) ["c"] 1 [vals16 [0, 0], vals16 [7, 8]] = .ok [vals16 [21, 22], vals16 [7, 8]] ∧
    readManyFrom .u16 (fileOf manyFile) ["c"] 1 [vals16 [0, 0]] = .ok [vals16 [21, 22]] ∧
    readManyFrom .u16 (fileOf manyFile) [] 1 [vals16 [5]] = .ok [vals16 [5]] ∧
    readManyFrom .u16 (fileOf manyFile) ["a", "x"] 1 [vals16 [5]] = R.err (.missingObject (chan "x").path) ∧
    readManyFrom .u16 (fileOf manyFile) ["a", "x"] 1 [vals16 [5], []] = R.err (.missingObject (chan "x").path) := by
  decide +kernel

/-- A surplus buffer can make a read fail: with it, the read goes on to the second block of the channel, whose first
    channel has no values, and divides by that number. -/
theorem surplus_buffers_fail_counterexample :
    let f := fileOf [dataSegment .little false [("b", .u16, 2)] [1, 0, 2, 0],
      dataSegment .little false [("a", .u16, 0), ("b", .u16, 2)] [3, 0, 4, 0]]
    readManyFrom .u16 f ["b"] 0 [vals16 [0, 0]] = .ok [vals16 [1, 2]] ∧
    readManyFrom .u16 f ["b"] 0 [vals16 [0, 0], []] = .ok [vals16 [1, 2], []] ∧
    readManyFrom .u16 f ["b"] 0 [vals16 [0, 0], vals16 [7]] = R.panic .divByZero := by
  decide +kernel

end Tedium
