import Verif.Proofs.StoresOne

/-! # Reads with assignments, on files: relations between reads -/

namespace Tedium
open Prog

section
variable {α : Type} {S : Storage α} {rd : Endian → Act α}

/-- The same result and the same assignments, or an error after some of the assignments. -/
def Less {β δ δ' : Type} (x : R β × List (CellStore α) × δ) (y : R β × List (CellStore α) × δ') : Prop :=
  (x.1 = y.1 ∧ x.2.1 = y.2.1) ∨ ((∃ e, x.1 = .error e) ∧ x.2.1 <+: y.2.1)

/-- Two ways to run the same plans, of which the first may fail earlier; the second plan may go on. -/
theorem executePlanInto_less {δ δ' : Type} {run : Runner δ α} {run' : Runner δ' α} {ix ix' : Index} (I : δ → δ' → Prop)
    (hblocks : ∀ i b, ix.getDataBlock i = some b → ix'.getDataBlock i = some b)
    (hrun : ∀ i b, ix.getDataBlock i = some b → ∀ a d d', I d d' →
      ((run b.start a d).1 = (run' b.start a d').1 ∧ I (run b.start a d).2 (run' b.start a d').2) ∨
      Short (run b.start a d).1 (run' b.start a d').1)
    (locs more : List BlockRead) : ∀ (ps : List (Progress α)) (d : δ) (d' : δ'), I d d' →
    (executePlanInto S rd run ix locs ps d).2.1 <+: (executePlanInto S rd run' ix' (locs ++ more) ps d').2.1 ∧
    (more = [] →
      Less (executePlanInto S rd run ix locs ps d) (executePlanInto S rd run' ix' locs ps d')) := by
  induction locs with
  | nil => intro ps d d' _; exact ⟨List.nil_prefix, fun _ => Or.inl ⟨rfl, rfl⟩⟩
  | cons loc locs ih =>
    intro ps d d' hI
    rw [List.cons_append]
    unfold executePlanInto
    have hblock : ((executeBlockInto S rd run ix loc ps d).1 = (executeBlockInto S rd run' ix' loc ps d').1 ∧
          (executeBlockInto S rd run ix loc ps d).2.1 = (executeBlockInto S rd run' ix' loc ps d').2.1 ∧
          ((∃ e, (executeBlockInto S rd run ix loc ps d).1 = .error e) ∨
            I (executeBlockInto S rd run ix loc ps d).2.2 (executeBlockInto S rd run' ix' loc ps d').2.2)) ∨
        ((∃ e, (executeBlockInto S rd run ix loc ps d).1 = .error e) ∧
          (executeBlockInto S rd run ix loc ps d).2.1 <+: (executeBlockInto S rd run' ix' loc ps d').2.1) := by
      unfold executeBlockInto
      dsimp only
      generalize List.any loc.channelIndexes _ = anySkip
      cases hb : ix.getDataBlock loc.dataBlock with
      | none => exact Or.inr ⟨⟨_, rfl⟩, List.nil_prefix⟩
      | some b =>
        rw [hblocks _ _ hb]
        dsimp only
        cases b.program S rd anySkip (blockRequests 0 loc.channelIndexes ps) with
        | error e => exact Or.inl ⟨rfl, rfl, Or.inl ⟨_, rfl⟩⟩
        | ok a =>
          have hr := hrun _ b hb a d d' hI
          revert hr
          dsimp only
          cases run b.start a d with
          | mk x d1 =>
          cases run' b.start a d' with
          | mk y d1' =>
          obtain ⟨r, ss⟩ := x
          obtain ⟨r', ss'⟩ := y
          intro hr
          rcases hr with ⟨h1, h2⟩ | ⟨⟨e, h1⟩, h2⟩
          · cases h1
            left
            cases r with
            | error e => exact ⟨rfl, rfl, Or.inl ⟨_, rfl⟩⟩
            | ok x => exact ⟨rfl, rfl, Or.inr h2⟩
          · dsimp only at h1 h2
            subst h1
            refine Or.inr ⟨⟨e, rfl⟩, ?_⟩
            have : (match (generalizing := false) r' with
                | .error e => (.error e, ss'.map (CellStore.inSlice ps), d1')
                | .ok (n, _) => (.ok (addSamples n loc.channelIndexes ((ss'.map (CellStore.inSlice ps)).foldl CellStore.applyTo ps)),
                    ss'.map (CellStore.inSlice ps), d1') :
                R (List (Progress α)) × List (CellStore α) × δ').2.1 = ss'.map (CellStore.inSlice ps) := by cases r' <;> rfl
            have h3 := h2.map (CellStore.inSlice ps)
            rw [← this] at h3
            exact h3
    revert hblock
    cases executeBlockInto S rd run ix loc ps d with
    | mk r x =>
    cases executeBlockInto S rd run' ix' loc ps d' with
    | mk r' x' =>
    obtain ⟨log, d1⟩ := x
    obtain ⟨log', d1'⟩ := x'
    intro hblock
    dsimp only at hblock
    rcases hblock with ⟨h1, h2, h3⟩ | ⟨⟨e, h1⟩, h2⟩
    · subst h1
      subst h2
      cases r with
      | error e => exact ⟨List.prefix_rfl, fun _ => Or.inl ⟨rfl, rfl⟩⟩
      | ok ps' =>
        have hI' : I d1 d1' := by
          rcases h3 with ⟨e, he⟩ | h3
          · cases he
          · exact h3
        dsimp only
        split
        · exact ⟨List.prefix_rfl, fun _ => Or.inl ⟨rfl, rfl⟩⟩
        · obtain ⟨i1, i2⟩ := ih ps' d1 d1' hI'
          refine ⟨(List.prefix_append_right_inj log).mpr i1, fun hm => ?_⟩
          rcases i2 hm with ⟨j1, j2⟩ | ⟨j1, j2⟩
          · exact Or.inl ⟨j1, congrArg (log ++ ·) j2⟩
          · exact Or.inr ⟨j1, (List.prefix_append_right_inj log).mpr j2⟩
    · subst h1
      have hfront : ∀ tail, log' <+: (match (generalizing := false) (r', log', d1') with
          | (.error e, log, d) => (.error e, log, d)
          | (.ok ps, log, d) => if ps.all Progress.isComplete then (.ok ps, log, d) else
            ((executePlanInto S rd run' ix' tail ps d).1, log ++ (executePlanInto S rd run' ix' tail ps d).2.1,
              (executePlanInto S rd run' ix' tail ps d).2.2) :
          R (List (Progress α)) × List (CellStore α) × δ').2.1 := by
        intro tail
        cases r' with
        | error e => exact List.prefix_rfl
        | ok ps' =>
          dsimp only
          split
          · exact List.prefix_rfl
          · exact List.prefix_append _ _
      exact ⟨h2.trans (hfront _), fun _ => Or.inr ⟨⟨e, rfl⟩, h2.trans (hfront _)⟩⟩

/-- On a file that has grown. -/
theorem executePlanInto_grows {t t' : TdmsFile} (hg : Grows t t') (locs more : List BlockRead) (ps : List (Progress α)) :
    (executePlanInto S rd Runner.contents t.index locs ps t.bytes).2.1
      <+: (executePlanInto S rd Runner.contents t'.index (locs ++ more) ps t'.bytes).2.1 := by
  obtain ⟨⟨g, hbytes⟩, bs, hblocks⟩ := hg
  refine (executePlanInto_less (fun d d' => d = t.bytes ∧ d' = t'.bytes) ?_ ?_ locs more ps _ _ ⟨rfl, rfl⟩).1
  · intro i b hb
    unfold Index.getDataBlock at hb ⊢
    rw [hblocks, List.getElem?_append_left (List.getElem?_eq_some_iff.mp hb).1, hb]
  · rintro i b hb a d d' ⟨rfl, rfl⟩
    dsimp only [Runner.contents]
    rw [hbytes]
    rcases runOn_mono t.bytes g a b.start with h | h
    · exact Or.inl ⟨h, rfl, rfl⟩
    · exact Or.inr h

/-- On a stream. -/
theorem executePlanInto_stream_less (capacity : Nat) {ix : Index} (hs : StartsFit ix) (locs : List BlockRead)
    (ps : List (Progress α)) (d : Device) (hd : d.bytes.length < 2 ^ 64) :
    Less (executePlanInto S rd (Runner.stream capacity) ix locs ps d) (executePlanInto S rd Runner.contents ix locs ps d.bytes) := by
  refine (executePlanInto_less (fun (e : Device) f => e.bytes = f ∧ f = d.bytes) (fun _ _ h => h) ?_ locs [] ps d d.bytes
    ⟨rfl, rfl⟩).2 rfl
  rintro i b hb a e f ⟨rfl, hf⟩
  have hstart : b.start < 2 ^ 64 := hs b (List.mem_of_getElem? hb)
  dsimp only [Runner.contents]
  unfold Runner.stream BufReader.seekStart
  obtain ⟨used, h1, h2, h3⟩ := e.seekStart_spec b.start
  dsimp only [BufReader.new]
  cases hx : e.seekStart b.start with
  | mk r e' =>
  rw [hx] at h1 h2 h3
  cases r with
  | some kind => exact Or.inr ⟨⟨_, rfl⟩, List.nil_prefix⟩
  | none =>
    dsimp only at h1 h2 h3 ⊢
    have hat := Stands.new capacity e'
    rw [h2, h3.2] at hat
    obtain ⟨used', i1, i2, i3⟩ := runBuf_spec (by rw [hf]; exact hd) a b.start _ hat hstart
    rcases i3 with ⟨_, i3⟩ | ⟨c, _, i3, i4⟩
    · exact Or.inl ⟨i3, i2, hf⟩
    · exact Or.inr ⟨⟨_, i3⟩, i4⟩

/-! ## The slices -/

theorem apply_length (s : CellStore α) (outs : List (List α)) : (s.apply outs).map List.length = outs.map List.length := by
  unfold CellStore.apply
  apply List.ext_getElem?
  intro i
  rw [List.getElem?_map, List.getElem?_map, List.getElem?_modify]
  cases outs[i]? with
  | none => rfl
  | some o =>
    show some _ = some _
    dsimp only
    split
    · rw [List.length_set]
    · rfl

theorem applyAll_length (log : List (CellStore α)) : ∀ outs : List (List α),
    (log.foldl CellStore.apply outs).map List.length = outs.map List.length := by
  induction log with
  | nil => intro outs; rfl
  | cons s log ih => intro outs; rw [List.foldl_cons, ih, apply_length]

theorem applyAll_one (log : List (CellStore α)) (out : List α) : ∃ out', out'.length = out.length ∧
    log.foldl CellStore.apply [out] = [out'] := by
  have := applyAll_length log [out]
  cases h : log.foldl CellStore.apply [out] with
  | nil => rw [h] at this; cases this
  | cons x xs =>
    rw [h] at this
    cases xs with
    | nil => exact ⟨x, List.head_eq_of_cons_eq this, rfl⟩
    | cons y ys => exact absurd (congrArg List.length this) (by simp)

/-- Filling a slice from cell `k` on. -/
theorem apply_run (vs : List α) : ∀ (k : Nat) (out : List α), k + vs.length ≤ out.length →
    (run 0 k vs).foldl CellStore.apply [out] = [out.take k ++ vs ++ out.drop (k + vs.length)] := by
  induction vs with
  | nil =>
    intro k out _
    show [out] = _
    simp
  | cons v vs ih =>
    intro k out hk
    rw [List.length_cons] at hk
    show (run 0 (k + 1) vs).foldl CellStore.apply [out.set k v] = _
    rw [ih (k + 1) (out.set k v) (by rw [List.length_set]; omega)]
    congr 1
    rw [List.length_cons, List.drop_set_of_lt (by omega), show k + 1 + vs.length = k + (vs.length + 1) by omega]
    have : (out.set k v).take (k + 1) = out.take k ++ [v] := by
      apply List.ext_getElem?
      intro i
      rw [List.getElem?_take, List.getElem?_append, List.length_take, List.getElem?_set, List.getElem?_take,
        show min k out.length = k by omega]
      by_cases h1 : i < k
      · rw [if_pos (by omega), if_neg (by omega), if_pos h1, if_pos h1]
      · by_cases h2 : i = k
        · subst h2
          rw [if_pos (by omega), if_pos rfl, if_pos (by omega), if_neg (by omega), Nat.sub_self]
          rfl
        · rw [if_neg (by omega), if_neg h1]
          rw [List.getElem?_eq_none (by simp; omega)]
    rw [this]
    simp [List.append_assoc]

theorem planOne_single (ls : List DataLocation) : ∀ start, SinglePlan (planOne ls start) := by
  induction ls with
  | nil => intro start; unfold planOne; exact nofun
  | cons l ls ih =>
    intro start
    unfold planOne
    split
    · exact ih _
    · intro loc hm
      rcases List.mem_cons.mp hm with rfl | hm
      · exact ⟨_, _, rfl⟩
      · exact ih _ loc hm

theorem planOne_append (ls more : List DataLocation) : ∀ start, ∃ rest, planOne (ls ++ more) start = planOne ls start ++ rest := by
  induction ls with
  | nil => intro start; exact ⟨_, rfl⟩
  | cons l ls ih =>
    intro start
    rw [List.cons_append]
    unfold planOne
    split
    · exact ih _
    · obtain ⟨rest, h⟩ := ih (start - l.numberOfSamples)
      exact ⟨rest, by rw [h]; rfl⟩

end

/-! ## Whole reads -/

section
variable (al : Alloc) (ty : STy)

/-- Two slices of which one is shorter. -/
theorem readChannelLog_cut {δ : Type} {rn : Runner δ ty.Val} (hrn : Runner.Fair rn) (ix : Index) (c : ChannelPath) (start : Nat)
    (out out' : List ty.Val) (f : δ) (h : out ≠ [])
    (hle : out.length ≤ out'.length) : ∃ vs, vs.length ≤ out.length ∧
      (readChannelLog al ty rn ix c start out f).2.1 = run 0 0 vs ∧
      run 0 0 vs = (readChannelLog al ty rn ix c start out' f).2.1.take out.length := by
  unfold readChannelLog
  cases ix.getChannelDataPositions c with
  | none => exact ⟨[], Nat.zero_le _, rfl, List.take_nil.symm⟩
  | some ls =>
    dsimp only
    rw [readPlan_one]
    obtain ⟨vs, h1, h2, h3⟩ := executePlanInto_cut (S := ty.storage al) (rd := Act.value al ty) hrn ix (planOne ls start) f 0 out out'
      (planOne_single ls start) (List.length_pos_iff.mpr h) hle
    exact ⟨vs, by omega, h2, h3⟩

/-- The beginnings of one sequence. -/
theorem readChannelLog_sequence (v₀ : ty.Val) {δ : Type} {rn : Runner δ ty.Val} (hrn : Runner.Fair rn) (ix : Index) (c : ChannelPath) (start : Nat)
    (d : δ) : ∃ sample : Nat → Option ty.Val, (∀ i, sample i = none → sample (i + 1) = none) ∧
      ∀ out : List ty.Val,
        (((readChannelLog al ty rn ix c start out d).2.1.foldl CellStore.apply [out]).headD []).length = out.length ∧
        ∀ i, i < out.length → (((readChannelLog al ty rn ix c start out d).2.1.foldl CellStore.apply [out]).headD [])[i]?
          = (sample i).or out[i]? := by
  let log := fun out : List ty.Val => (readChannelLog al ty rn ix c start out d).2.1
  let sample := fun i => (log (List.replicate (i + 1) v₀))[i]?.map (·.value)
  have hval : ∀ (vs : List ty.Val) (k i : Nat), (run 0 k vs)[i]?.map (·.value) = vs[i]? := by
    intro vs
    induction vs with
    | nil => intro k i; rfl
    | cons v vs ih => intro k i; cases i with
      | zero => rfl
      | succ i => exact ih (k + 1) i
  have hrun : ∀ out : List ty.Val, out ≠ [] → ∃ vs, vs.length ≤ out.length ∧ log out = run 0 0 vs := by
    intro out ho
    obtain ⟨vs, h1, h2, _⟩ := readChannelLog_cut al ty hrn ix c start out out d ho (Nat.le_refl _)
    exact ⟨vs, h1, h2⟩
  have hsample : ∀ (out : List ty.Val) (vs : List ty.Val), log out = run 0 0 vs → ∀ i, i < out.length → sample i = vs[i]? := by
    intro out vs hvs i hi
    obtain ⟨ws, _, h2, h3⟩ := readChannelLog_cut al ty hrn ix c start (List.replicate (i + 1) v₀) out d
      (by simp) (by simp; omega)
    show (log (List.replicate (i + 1) v₀))[i]?.map (·.value) = _
    rw [show log (List.replicate (i + 1) v₀) = run 0 0 ws from h2, h3]
    rw [show (readChannelLog al ty rn ix c start out d).2.1 = run 0 0 vs from hvs,
      List.getElem?_take, if_pos (by simp), hval]
  refine ⟨sample, ?_, ?_⟩
  · intro i hi
    obtain ⟨vs, _, h2⟩ := hrun (List.replicate (i + 2) v₀) (by simp)
    rw [hsample _ vs h2 i (by simp)] at hi
    rw [hsample _ vs h2 (i + 1) (by simp)]
    rw [List.getElem?_eq_none_iff] at hi ⊢
    omega
  · intro out
    constructor
    · obtain ⟨out', h1, h2⟩ := applyAll_one (log out) out
      rw [h2]
      exact h1
    · intro i hi
      obtain ⟨vs, h1, h2⟩ := hrun out (by rintro rfl; cases hi)
      rw [show (readChannelLog al ty rn ix c start out d).2.1 = run 0 0 vs from h2, apply_run vs 0 out (by omega), Nat.zero_add, hsample out vs h2 i hi]
      show (vs ++ out.drop vs.length)[i]? = _
      rw [List.getElem?_append]
      split
      · rename_i h; rw [List.getElem?_eq_getElem h]; rfl
      · rename_i h
        rw [List.getElem?_eq_none (l := vs) (by omega), List.getElem?_drop, show vs.length + (i - vs.length) = i by omega]
        rfl

/-- What one read delivers. -/
theorem readChannelInto_run (t : TdmsFile) (c : ChannelPath) (start : Nat) (out : List ty.Val) (h : out ≠ []) :
    ∃ vs, vs.length ≤ out.length ∧ (readChannelLog al ty Runner.contents t.index c start out t.bytes).2.1 = run 0 0 vs ∧
      (t.readChannelInto al ty c start out).2 = vs ++ out.drop vs.length := by
  obtain ⟨vs, h1, h2, _⟩ := readChannelLog_cut al ty Runner.contents_fair t.index c start out out t.bytes h (Nat.le_refl _)
  refine ⟨vs, h1, h2, ?_⟩
  show ((readChannelLog al ty Runner.contents t.index c start out t.bytes).2.1.foldl CellStore.apply [out]).headD [] = _
  rw [h2, apply_run vs 0 out (by omega), Nat.zero_add]
  rfl

/-- Fewer assignments. -/
theorem run_prefix {log : List (CellStore ty.Val)} {vs : List ty.Val} {out : List ty.Val} (h : log <+: run 0 0 vs)
    (hv : vs.length ≤ out.length) : ∃ n, n ≤ out.length ∧
      (log.foldl CellStore.apply [out]).headD [] = (vs ++ out.drop vs.length).take n ++ out.drop n := by
  have hl := h.length_le
  rw [run_length] at hl
  refine ⟨log.length, by omega, ?_⟩
  have : log = run 0 0 (vs.take log.length) := by rw [← run_take]; exact List.prefix_iff_eq_take.mp h
  have hlen : (vs.take log.length).length = log.length := by rw [List.length_take]; omega
  rw [List.take_append_of_le_length hl]
  refine (congrArg (fun l => (List.foldl CellStore.apply [out] l).headD []) this).trans ?_
  rw [apply_run _ 0 out (by omega), Nat.zero_add, hlen]
  rfl

theorem readChannelLog_unfold {δ : Type} (rn : Runner δ ty.Val) (ix : Index) (c : ChannelPath) (start : Nat) (out : List ty.Val) (d : δ)
    {ls : List DataLocation} (h : ix.getChannelDataPositions c = some ls) :
    (readChannelLog al ty rn ix c start out d).2.1
      = (executePlanInto (ty.storage al) (Act.value al ty) rn ix (planOne ls start) [⟨out, 0⟩] d).2.1 := by
  unfold readChannelLog
  rw [h]
  dsimp only
  rw [readPlan_one]

end
end Tedium
