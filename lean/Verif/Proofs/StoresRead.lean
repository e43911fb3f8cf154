import Verif.Proofs.StoresPut

/-! # Reads with assignments are the reads of `Model/File.lean` and `Model/Handle.lean` -/

namespace Tedium
open Prog

section
variable {α : Type} {S : Storage α} {rd : Endian → Act α}

/-! ## Requests -/

theorem blockRequests_spec : ∀ (plans : List (Option ChannelReadPlan)) (ps : List (Progress α)) (k : Nat),
    (∀ r ∈ blockRequests k plans ps, ∃ p, k ≤ r.slot ∧ ps[r.slot - k]? = some p ∧ p.samplesRead < p.output.length ∧
      r.output = p.output.drop p.samplesRead) ∧
    (blockRequests k plans ps).Pairwise (fun a b => a.slot < b.slot) := by
  intro plans
  induction plans with
  | nil => intro ps k; exact ⟨nofun, List.Pairwise.nil⟩
  | cons plan plans ih =>
    intro ps k
    cases ps with
    | nil => cases plan <;> exact ⟨nofun, List.Pairwise.nil⟩
    | cons p ps =>
      have ih := ih ps (k + 1)
      have hrest : ∀ r ∈ blockRequests (k + 1) plans ps, ∃ q, k ≤ r.slot ∧ (p :: ps)[r.slot - k]? = some q ∧
          q.samplesRead < q.output.length ∧ r.output = q.output.drop q.samplesRead := by
        intro r hr
        obtain ⟨q, h1, h2, h3⟩ := ih.1 r hr
        refine ⟨q, by omega, ?_, h3⟩
        rw [show r.slot - k = (r.slot - (k + 1)) + 1 by omega]
        exact h2
      cases plan with
      | none => exact ⟨hrest, ih.2⟩
      | some plan =>
        unfold blockRequests
        by_cases hc : p.isComplete = true
        · rw [if_pos hc]; exact ⟨hrest, ih.2⟩
        · rw [if_neg hc]
          constructor
          · intro r hr
            rcases List.mem_cons.mp hr with rfl | hr
            · refine ⟨p, Nat.le_refl _, by rw [Nat.sub_self]; rfl, ?_, rfl⟩
              unfold Progress.isComplete at hc
              simp only [ge_iff_le, decide_eq_true_eq, Nat.not_le] at hc
              exact hc
            · exact hrest r hr
          · refine List.Pairwise.cons ?_ ih.2
            intro r hr
            obtain ⟨q, h1, _⟩ := ih.1 r hr
            exact h1

theorem planOutputs_mem {plan : List (RecordEntry α)} {x : Nat × List α} (h : x ∈ planOutputs plan) :
    ∃ en ∈ plan, ∃ out skip, en.plan = .read x.1 out skip ∧ x.2 = cells out := by
  unfold planOutputs at h
  obtain ⟨en, hm, he⟩ := List.mem_filterMap.mp h
  refine ⟨en, hm, ?_⟩
  split at he
  · rename_i slot out skip heq
    cases he
    exact ⟨out, skip, heq, rfl⟩
  · cases he

/-- Where the entries of a plan come from. -/
def FromRequests (reqs : List (ChannelRequest α)) (plan : List (RecordEntry α)) : Prop :=
  ∀ i en slot out skip, plan[i]? = some en → en.plan = .read slot out skip →
    ∃ r ∈ reqs, r.channelIndex = i ∧ r.slot = slot ∧ cells out = r.output

theorem setReadable_from {reqs : List (ChannelRequest α)} : ∀ {rs : List (ChannelRequest α)} {plan plan' : List (RecordEntry α)},
    (∀ r ∈ rs, r ∈ reqs) → FromRequests reqs plan → setReadable plan rs = .ok plan' → FromRequests reqs plan' := by
  intro rs
  induction rs with
  | nil => intro plan plan' _ h he; cases he; exact h
  | cons r rs ih =>
    intro plan plan' hsub h he
    unfold setReadable at he
    cases hi : plan[r.channelIndex]? with
    | none => rw [hi] at he; cases he
    | some entry =>
      rw [hi] at he
      refine ih (fun x hx => hsub x (List.mem_cons_of_mem _ hx)) ?_ he
      intro i en slot out skip hen hp
      rw [List.getElem?_set] at hen
      split at hen
      · rename_i hri
        split at hen
        · cases hen
          cases hp
          exact ⟨r, hsub r List.mem_cons_self, hri, rfl, rfl⟩
        · cases hen
      · exact h i en slot out skip hen hp

theorem baseRecord_from (reqs : List (ChannelRequest α)) (channels : List RawDataMeta) : FromRequests reqs (baseRecord channels) := by
  intro i en slot out skip hen hp
  have := List.mem_of_getElem? hen
  obtain ⟨c, _, rfl⟩ := List.mem_map.mp this
  cases hp

theorem build_from {channels : List RawDataMeta} {reqs : List (ChannelRequest α)} {plan : List (RecordEntry α)}
    (h : buildRecordPlan S channels reqs = .ok plan) : FromRequests reqs plan := by
  unfold buildRecordPlan at h
  obtain ⟨_, _, h⟩ := bind_ok_iff.mp h
  exact setReadable_from (fun r hr => hr) (baseRecord_from reqs channels) h

theorem FromRequests.nodup {reqs : List (ChannelRequest α)} (hr : reqs.Pairwise (fun a b => a.slot < b.slot)) :
    ∀ (plan : List (RecordEntry α)) (k : Nat),
    (∀ i en slot out skip, plan[i]? = some en → en.plan = .read slot out skip →
      ∃ r ∈ reqs, r.channelIndex = k + i ∧ r.slot = slot) → (slots plan).Nodup := by
  have inj : ∀ a ∈ reqs, ∀ b ∈ reqs, a.slot = b.slot → a = b := by
    intro a ha b hb hab
    induction reqs with
    | nil => cases ha
    | cons x xs ih =>
      rw [List.pairwise_cons] at hr
      rcases List.mem_cons.mp ha with rfl | ha' <;> rcases List.mem_cons.mp hb with rfl | hb'
      · rfl
      · have := hr.1 b hb'; omega
      · have := hr.1 a ha'; omega
      · exact ih hr.2 ha' hb'
  intro plan
  induction plan with
  | nil => intro k _; exact List.nodup_nil
  | cons en rest ih =>
    intro k h
    have hrest := ih (k + 1) (fun i en' slot out skip hi hp => by
      obtain ⟨r, hm, h1, h2⟩ := h (i + 1) en' slot out skip hi hp
      exact ⟨r, hm, by omega, h2⟩)
    obtain ⟨len, p⟩ := en
    cases p with
    | skip b => exact hrest
    | read slot out skip =>
      refine List.nodup_cons.mpr ⟨?_, hrest⟩
      intro hm
      obtain ⟨x, hx, hxs⟩ := List.mem_map.mp hm
      obtain ⟨en', hen', out', skip', hp', _⟩ := planOutputs_mem hx
      obtain ⟨j, hj⟩ := List.getElem?_of_mem hen'
      obtain ⟨r, hr1, h1, h2⟩ := h 0 ⟨len, .read slot out skip⟩ slot out skip rfl rfl
      obtain ⟨r', hr1', h1', h2'⟩ := h (j + 1) en' x.1 out' skip' hj hp'
      have : r = r' := inj r hr1 r' hr1' (by rw [h2, h2']; exact hxs.symm)
      subst this
      omega

theorem put_self {ps : List (Progress α)} {outs : List (Nat × List α)}
    (h : ∀ x ∈ outs, ∀ p, ps[x.1]? = some p → x.2 = p.output.drop p.samplesRead) : put ps outs = ps := by
  apply List.ext_getElem?
  intro i
  rw [storeOutputs_at, Nat.zero_add]
  cases hi : ps[i]? with
  | none => rfl
  | some p =>
    rw [Option.map_some]
    cases hl : outs.lookup i with
    | none => rfl
    | some tail =>
      have hm : (i, tail) ∈ outs := by
        clear h
        induction outs with
        | nil => cases hl
        | cons y ys ih =>
          obtain ⟨k, v⟩ := y
          rw [List.lookup_cons] at hl
          by_cases hk : i = k
          · subst hk
            rw [BEq.rfl] at hl
            cases hl
            exact List.mem_cons_self
          · rw [beq_false_of_ne hk] at hl
            exact List.mem_cons_of_mem _ (ih hl)
      have := h (i, tail) hm p hi
      dsimp only at this
      subst this
      show some ({ p with output := p.output.take p.samplesRead ++ p.output.drop p.samplesRead } : Progress α) = some p
      rw [List.take_append_drop]

/-- The plan for a block fits the slices. -/
theorem build_fit {channels : List RawDataMeta} {plans : List (Option ChannelReadPlan)} {ps : List (Progress α)}
    {plan : List (RecordEntry α)} (h : buildRecordPlan S channels (blockRequests 0 plans ps) = .ok plan) :
    Fit ps (slots plan) ∧ put ps (planOutputs plan) = ps := by
  have hf := build_from h
  obtain ⟨hreq, hpair⟩ := blockRequests_spec plans ps 0
  have key : ∀ x ∈ planOutputs plan, ∃ p, ps[x.1]? = some p ∧ p.samplesRead < p.output.length ∧
      x.2 = p.output.drop p.samplesRead := by
    intro x hx
    obtain ⟨en, hen, out, skip, hp, hx2⟩ := planOutputs_mem hx
    obtain ⟨i, hi⟩ := List.getElem?_of_mem hen
    obtain ⟨r, hr, _, hs, ho⟩ := hf i en x.1 out skip hi hp
    obtain ⟨p, _, h2, h3, h4⟩ := hreq r hr
    rw [Nat.sub_zero, hs] at h2
    exact ⟨p, h2, h3, by rw [hx2, ho, h4]⟩
  refine ⟨⟨?_, ?_⟩, put_self ?_⟩
  · refine FromRequests.nodup hpair plan 0 ?_
    intro i en slot out skip hi hp
    obtain ⟨r, hr, h1, h2, _⟩ := hf i en slot out skip hi hp
    exact ⟨r, hr, by omega, h2⟩
  · intro s hs p hp
    obtain ⟨x, hx, rfl⟩ := List.mem_map.mp hs
    obtain ⟨q, h1, h2, _⟩ := key x hx
    rw [h1] at hp
    cases hp
    omega
  · intro x hx p hp
    obtain ⟨q, h1, _, h3⟩ := key x hx
    rw [h1] at hp
    cases hp
    exact h3

/-- After a block was read, the assignments made have filled the slices. -/
theorem program_put {b : DataBlock} {anySkip : Bool} {plans : List (Option ChannelReadPlan)} {ps : List (Progress α)}
    {a : Prog (CellStore α) (Nat × List (RecordEntry α))} (h : b.program S rd anySkip (blockRequests 0 plans ps) = .ok a) :
    Runs any (fun T r => assigned ps ps T = storeOutputs (planOutputs r.2) 0 ps) a := by
  unfold DataBlock.program at h
  cases hp : buildRecordPlan S b.channels (blockRequests 0 plans ps) with
  | error e => rw [hp] at h; cases h
  | ok plan =>
    obtain ⟨hfit, hself⟩ := build_fit hp
    have done : ∀ a : Prog (CellStore α) (Nat × List (RecordEntry α)), Runs any (Filled ps plan) a →
        Runs any (fun T r => assigned ps ps T = storeOutputs (planOutputs r.2) 0 ps) a := by
      intro a ha
      refine ha.mono (fun _ h => h) (fun T r _ hT => ?_)
      have := hT.1
      rw [List.nil_append, hself] at this
      exact this
    rw [hp] at h
    dsimp only at h
    split at h <;> cases h <;> refine done _ ?_
    · exact contigReadFrom_put _ _ _ hfit
    · exact contigReadSkip_put _ _ _ hfit
    · exact interRead_put _ _ hfit
    · refine (interRead_put _ _ ?_).mono (fun _ h => h) (fun T r _ hT => Filled.congr (planOutputs_setSkips plan _) hT)
      unfold slots
      rw [planOutputs_setSkips]
      exact hfit

/-- The programs are those of the model without assignments. -/
theorem program_read (h : ∀ e, (rd e).denote = S.read e) (f : Bytes) (b : DataBlock) (anySkip : Bool)
    (reqs : List (ChannelRequest α)) :
    (if anySkip then b.readWithSkip S f reqs else b.read S f reqs) =
      match b.program S rd anySkip reqs with
      | .error e => .error e
      | .ok a => (a.runOn f b.start).1 := by
  unfold DataBlock.program DataBlock.readWithSkip DataBlock.read
  cases buildRecordPlan S b.channels reqs with
  | error e => cases anySkip <;> rfl
  | ok plan =>
    cases hl : b.layout <;> cases anySkip
    · show (do let r ← interRead S b.byteOrder b.start b.length plan f 0; return r.1) = (Prog.runOn f _ b.start).1
      rw [map_fst, runOn_result, erase_interRead, ← Act.denote_interRead (h b.byteOrder)]
      rfl
    · show (do let r ← interRead S b.byteOrder b.start b.length (setSkips (reqs.map (·.skip)) plan) f 0; return r.1)
        = (Prog.runOn f _ b.start).1
      rw [map_fst, runOn_result, erase_interRead, ← Act.denote_interRead (h b.byteOrder)]
      rfl
    · show (do let r ← contigReadFrom S b.byteOrder b.start b.length plan 0 f 0; return r.1) = (Prog.runOn f _ b.start).1
      rw [map_fst, runOn_result, erase_contigReadFrom, ← Act.denote_contigReadFrom (h b.byteOrder)]
      rfl
    · show (do let r ← contigReadSkip S b.byteOrder b.start b.length plan (reqs.map (·.skip)) f 0; return r.1)
        = (Prog.runOn f _ b.start).1
      rw [map_fst, runOn_result, erase_contigReadSkip, ← Act.denote_contigReadSkip (h b.byteOrder)]
      rfl

theorem stream_result (capacity start : Nat) (a : Prog (CellStore α) (Nat × List (RecordEntry α))) (d : Device) :
    ((Runner.stream capacity start a d).1.1, (Runner.stream capacity start a d).2) = d.runAt capacity start a.erase := by
  unfold Runner.stream Device.runAt
  cases (BufReader.new capacity d).seekStart start with
  | mk r b =>
  cases r with
  | some kind => rfl
  | none =>
    have := runBuf_result a b
    dsimp only
    rw [← this]

theorem program_readDev (capacity : Nat) (d : Device) (b : DataBlock) (anySkip : Bool) (reqs : List (ChannelRequest α)) :
    (if anySkip then b.readWithSkipDev S rd capacity reqs d else b.readDev S rd capacity reqs d) =
      match b.program S rd anySkip reqs with
      | .error e => (.error e, d)
      | .ok a => ((Runner.stream capacity b.start a d).1.1, (Runner.stream capacity b.start a d).2) := by
  unfold DataBlock.program DataBlock.readWithSkipDev DataBlock.readDev
  cases buildRecordPlan S b.channels reqs with
  | error e => cases anySkip <;> rfl
  | ok plan =>
    cases hl : b.layout <;> cases anySkip <;> dsimp only <;> rw [stream_result]
    · rw [erase_interRead]; rfl
    · rw [erase_interRead]; rfl
    · rw [erase_contigReadFrom]; rfl
    · rw [erase_contigReadSkip]; rfl

/-! ## Executing a plan -/

theorem executeBlockInto_contents (h : ∀ e, (rd e).denote = S.read e) (ix : Index) (loc : BlockRead) (ps : List (Progress α))
    (f : Bytes) : (executeBlockInto S rd Runner.contents ix loc ps f).1 = executeBlock S ⟨ix, f⟩ loc ps ∧
      (executeBlockInto S rd Runner.contents ix loc ps f).2.2 = f := by
  unfold executeBlockInto executeBlock
  dsimp only
  cases ix.getDataBlock loc.dataBlock with
  | none => exact ⟨rfl, rfl⟩
  | some b =>
    dsimp only
    generalize List.any loc.channelIndexes _ = anySkip
    rw [program_read h]
    cases ha : b.program S rd anySkip (blockRequests 0 loc.channelIndexes ps) with
    | error e => exact ⟨rfl, rfl⟩
    | ok a =>
      have := (Runs.runOn f b.start (program_put ha)).2
      show (match (a.runOn f b.start).1 with
        | .error e => (.error e, _, f)
        | .ok (n, _) => (.ok _, _, f) : R (List (Progress α)) × List (CellStore α) × Bytes).1 = _ ∧ _
      dsimp only [Runner.contents]
      cases hr : (a.runOn f b.start).1 with
      | error e => exact ⟨rfl, rfl⟩
      | ok r =>
        have := this r hr
        unfold assigned at this
        obtain ⟨n, plan⟩ := r
        dsimp only at this ⊢
        rw [← this]
        exact ⟨rfl, rfl⟩

theorem executePlanInto_contents (h : ∀ e, (rd e).denote = S.read e) (ix : Index) (locs : List BlockRead) :
    ∀ (ps : List (Progress α)) (f : Bytes),
    (executePlanInto S rd Runner.contents ix locs ps f).1 = executePlan S ⟨ix, f⟩ locs ps := by
  induction locs with
  | nil => intro ps f; rfl
  | cons loc locs ih =>
    intro ps f
    unfold executePlanInto executePlan
    obtain ⟨h1, h2⟩ := executeBlockInto_contents h ix loc ps f
    rw [← h1]
    cases hx : executeBlockInto S rd Runner.contents ix loc ps f with
    | mk r x =>
    obtain ⟨log, d⟩ := x
    rw [hx] at h2
    cases h2
    cases r with
    | error e => rfl
    | ok ps' =>
      dsimp only
      split
      · rfl
      · exact ih ps' _

theorem executeBlockInto_stream (capacity : Nat) (ix : Index) (loc : BlockRead) (ps : List (Progress α)) (d : Device) :
    ((executeBlockInto S rd (Runner.stream capacity) ix loc ps d).1,
      (executeBlockInto S rd (Runner.stream capacity) ix loc ps d).2.2) = executeBlockDev S rd capacity ix loc ps d := by
  unfold executeBlockInto executeBlockDev
  dsimp only
  cases ix.getDataBlock loc.dataBlock with
  | none => rfl
  | some b =>
    dsimp only
    generalize List.any loc.channelIndexes _ = anySkip
    rw [program_readDev]
    cases ha : b.program S rd anySkip (blockRequests 0 loc.channelIndexes ps) with
    | error e => rfl
    | ok a =>
      have hrun : ∀ r, (Runner.stream capacity b.start a d).1.1 = .ok r →
          assigned ps ps (Runner.stream capacity b.start a d).1.2 = storeOutputs (planOutputs r.2) 0 ps := by
        unfold Runner.stream
        cases (BufReader.new capacity d).seekStart b.start with
        | mk k b' =>
        cases k with
        | some kind => exact nofun
        | none => exact (Runs.runBuf b' (program_put ha)).2
      dsimp only
      revert hrun
      cases Runner.stream capacity b.start a d with
      | mk x d' =>
      obtain ⟨r, ss⟩ := x
      intro hrun
      cases r with
      | error e => rfl
      | ok r =>
        have := hrun r rfl
        unfold assigned at this
        obtain ⟨n, plan⟩ := r
        dsimp only at this ⊢
        rw [← this]

theorem executePlanInto_stream (capacity : Nat) (ix : Index) (locs : List BlockRead) : ∀ (ps : List (Progress α)) (d : Device),
    ((executePlanInto S rd (Runner.stream capacity) ix locs ps d).1,
      (executePlanInto S rd (Runner.stream capacity) ix locs ps d).2.2) = executePlanDev S rd capacity ix locs ps d := by
  induction locs with
  | nil => intro ps d; rfl
  | cons loc locs ih =>
    intro ps d
    unfold executePlanInto executePlanDev
    rw [← executeBlockInto_stream]
    cases executeBlockInto S rd (Runner.stream capacity) ix loc ps d with
    | mk r x =>
    obtain ⟨log, d'⟩ := x
    cases r with
    | error e => rfl
    | ok ps' =>
      dsimp only
      split
      · rfl
      · exact ih ps' d'

/-! ## The slices and the assignments -/

theorem outputs_applyTo (log : List (CellStore α)) : ∀ ps : List (Progress α),
    (log.foldl CellStore.applyTo ps).map (·.output) = log.foldl CellStore.apply (ps.map (·.output)) := by
  induction log with
  | nil => intro ps; rfl
  | cons s log ih =>
    intro ps
    rw [List.foldl_cons, List.foldl_cons, ih]
    congr 1
    apply List.ext_getElem?
    intro i
    unfold CellStore.applyTo CellStore.apply
    rw [List.getElem?_map, List.getElem?_modify, List.getElem?_modify, List.getElem?_map]
    cases ps[i]? with
    | none => rfl
    | some p =>
      show some _ = some _
      congr 1
      dsimp only
      split <;> rfl

theorem outputs_addSamples (n : Nat) : ∀ (plans : List (Option ChannelReadPlan)) (ps : List (Progress α)),
    (addSamples n plans ps).map (·.output) = ps.map (·.output) := by
  intro plans
  induction plans with
  | nil => intro ps; cases ps <;> rfl
  | cons plan plans ih =>
    intro ps
    cases ps with
    | nil => rfl
    | cons p ps =>
      unfold addSamples
      rw [List.map_cons, List.map_cons, ih]
      congr 1
      split <;> rfl

/-- If the plan succeeds, its slices are those that the assignments give. -/
theorem executePlanInto_outputs {δ : Type} (run : Runner δ α) (ix : Index) (locs : List BlockRead) :
    ∀ (ps ps' : List (Progress α)) (d : δ), (executePlanInto S rd run ix locs ps d).1 = .ok ps' →
    ps'.map (·.output) = (executePlanInto S rd run ix locs ps d).2.1.foldl CellStore.apply (ps.map (·.output)) := by
  induction locs with
  | nil => intro ps ps' d h; cases h; rfl
  | cons loc locs ih =>
    intro ps ps' d h
    unfold executePlanInto at h ⊢
    have hblock : ∀ ps1, (executeBlockInto S rd run ix loc ps d).1 = .ok ps1 → ps1.map (·.output)
        = (executeBlockInto S rd run ix loc ps d).2.1.foldl CellStore.apply (ps.map (·.output)) := by
      intro ps1 h1
      unfold executeBlockInto at h1 ⊢
      dsimp only at h1 ⊢
      generalize List.any loc.channelIndexes _ = anySkip at h1 ⊢
      split at h1
      · cases h1
      · rename_i b hb
        split at h1
        · cases h1
        · rename_i a ha
          cases hr : (run b.start a d).1.1 with
          | error e => rw [hr] at h1; cases h1
          | ok r =>
            rw [hr] at h1
            cases h1
            rw [outputs_addSamples, outputs_applyTo]
    revert h hblock
    cases executeBlockInto S rd run ix loc ps d with
    | mk r x =>
    obtain ⟨log, d'⟩ := x
    intro h hblock
    cases r with
    | error e => cases h
    | ok ps1 =>
      have h1 := hblock ps1 rfl
      dsimp only at h h1 ⊢
      split at h
      · rename_i hc
        rw [if_pos hc]
        cases h
        exact h1
      · rename_i hc
        rw [if_neg hc, ih ps1 ps' d' h, h1, ← List.foldl_append]

end
end Tedium
