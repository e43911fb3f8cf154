import Verif.Proofs.Single

/-! # Reading one channel: longer buffers and growing files -/

namespace Tedium

section
variable {α : Type} (S : Storage α)

theorem readChannelFrom_one (t : TdmsFile) (c : ChannelPath) (start : Nat) (out : List α) (h : out ≠ []) :
    t.readChannelFrom S c start out =
      match t.index.getChannelDataPositions c with
      | none => R.err (.missingObject c.path)
      | some ls => (execOne S t ls start out.length).map (fun vs => vs ++ out.drop vs.length) := by
  have hl : 0 < out.length := List.length_pos_iff.mpr h
  unfold TdmsFile.readChannelFrom
  cases t.index.getChannelDataPositions c with
  | none => rfl
  | some ls =>
    dsimp only
    rw [readPlan_one]
    show (executePlan S t (planOne ls start) [⟨out, 0⟩] >>= fun ps => pure ((ps.map (·.output)).headD [])) = _
    rw [executePlan_one S t ls start 0 out hl, Nat.sub_zero]
    cases execOne S t ls start out.length with
    | error er => rfl
    | ok vs =>
      show Except.ok _ = Except.ok _
      simp

theorem executeBlock_empty {t : TdmsFile} {blk : BlockRead} {r : List (Progress α)}
    (hb : ∃ p, blk.channelIndexes = [some p]) (h : executeBlock S t blk [⟨[], 0⟩] = .ok r) : ∃ k, r = [⟨[], k⟩] := by
  obtain ⟨blk, plans⟩ := blk
  obtain ⟨p, hp⟩ := hb
  dsimp only at hp
  subst hp
  unfold executeBlock at h
  dsimp only at h
  cases hd : t.index.getDataBlock blk with
  | none => rw [hd] at h; cases h
  | some b =>
    rw [hd] at h
    dsimp only at h
    have hreq : blockRequests 0 [some p] [(⟨[], 0⟩ : Progress α)] = [] := rfl
    rw [hreq] at h
    generalize hany : List.any [some p] _ = anySkip at h
    cases hr : (if anySkip = true then b.readWithSkip S t.bytes [] else b.read S t.bytes []) with
    | error er => rw [hr] at h; cases h
    | ok x =>
      rw [hr] at h
      have hx : planOutputs x.2 = [] := by
        cases anySkip
        · exact (read_none S).1 hr
        · exact (read_none S).2 hr
      dsimp only at h
      rw [hx] at h
      cases h
      exact ⟨_, rfl⟩

theorem executePlan_empty {t : TdmsFile} (ls : List DataLocation) : ∀ (skip : Nat) {r : List (Progress α)},
    executePlan S t (planOne ls skip) [⟨[], 0⟩] = .ok r → ∃ k, r = [⟨[], k⟩] := by
  induction ls with
  | nil => intro skip r h; cases h; exact ⟨0, rfl⟩
  | cons l ls ih =>
    intro skip r h
    unfold planOne at h
    split at h
    · exact ih _ h
    · unfold executePlan at h
      cases hb : executeBlock S t ⟨l.dataBlock, [some ⟨l.channelIndex, skip⟩]⟩ [⟨[], 0⟩] with
      | error er => rw [hb] at h; cases h
      | ok x =>
        rw [hb] at h
        obtain ⟨k', rfl⟩ := executeBlock_empty S ⟨_, rfl⟩ hb
        dsimp only at h
        rw [if_pos (by simp [Progress.isComplete])] at h
        cases h
        exact ⟨k', rfl⟩

theorem readChannelFrom_empty {t : TdmsFile} {c : ChannelPath} {start : Nat} {r : List α}
    (h : t.readChannelFrom S c start [] = .ok r) : r = [] := by
  unfold TdmsFile.readChannelFrom at h
  cases hc : t.index.getChannelDataPositions c with
  | none => rw [hc] at h; cases h
  | some ls =>
    rw [hc] at h
    dsimp only at h
    rw [readPlan_one] at h
    change (executePlan S t (planOne ls start) [⟨[], 0⟩] >>= fun ps => pure ((ps.map (·.output)).headD [])) = _ at h
    cases hx : executePlan S t (planOne ls start) [⟨[], 0⟩] with
    | error er => rw [hx] at h; cases h
    | ok x =>
      rw [hx] at h
      obtain ⟨k, rfl⟩ := executePlan_empty S ls start hx
      cases h
      rfl

theorem execOne_ext {t : TdmsFile} (ls : List DataLocation) : ∀ {skip n m : Nat} {vs vs' : List α}, n ≤ m →
    execOne S t ls skip n = .ok vs → execOne S t ls skip m = .ok vs' → vs.length ≤ n ∧ vs = vs'.take n := by
  induction ls with
  | nil => intro skip n m vs vs' _ h h'; cases h; cases h'; simp
  | cons l ls ih =>
    intro skip n m vs vs' hnm h h'
    unfold execOne at h h'
    split at h
    · rename_i hs
      rw [if_pos hs] at h'
      exact ih hnm h h'
    · rename_i hs
      rw [if_neg hs] at h'
      cases hd : t.index.getDataBlock l.dataBlock with
      | none => rw [hd] at h; cases h
      | some b =>
        rw [hd] at h h'
        dsimp only at h h'
        cases hb : blockOne S t.bytes b l.channelIndex skip n with
        | error er => rw [hb] at h; cases h
        | ok xs =>
          cases hb' : blockOne S t.bytes b l.channelIndex skip m with
          | error er => rw [hb'] at h'; cases h'
          | ok xs' =>
            rw [hb] at h
            rw [hb'] at h'
            dsimp only at h h'
            obtain ⟨hle, hx⟩ := blockOne_ext S hnm hb hb'
            have full : n ≤ xs.length → vs.length ≤ n ∧ vs = vs'.take n := by
              intro hfull
              rw [if_pos hfull] at h
              rw [← Except.ok.inj h]
              have hpre : xs = xs'.take n := by
                rcases hx with rfl | ⟨_, h2⟩
                · rw [List.take_of_length_le hle]
                · exact h2
              have hn : n ≤ xs'.length := by
                have := congrArg List.length hpre
                rw [List.length_take] at this
                omega
              refine ⟨hle, ?_⟩
              split at h'
              · cases h'; exact hpre
              · cases hm : execOne S t ls (skip - l.numberOfSamples) (m - xs'.length) with
                | error er => rw [hm] at h'; cases h'
                | ok ws => rw [hm] at h'; cases h'; rw [List.take_append_of_le_length hn]; exact hpre
            by_cases hfull : n ≤ xs.length
            · exact full hfull
            · rw [if_neg hfull] at h
              have hxx : xs = xs' := by
                rcases hx with hx | ⟨h1, _⟩
                · exact hx
                · omega
              subst hxx
              rw [if_neg (by omega)] at h'
              cases hw : execOne S t ls (skip - l.numberOfSamples) (n - xs.length) with
              | error er => rw [hw] at h; cases h
              | ok ws =>
                cases hw' : execOne S t ls (skip - l.numberOfSamples) (m - xs.length) with
                | error er => rw [hw'] at h'; cases h'
                | ok ws' =>
                  rw [hw] at h; rw [hw'] at h'
                  cases h; cases h'
                  obtain ⟨h1, h2⟩ := ih (by omega) hw hw'
                  refine ⟨by rw [List.length_append]; omega, ?_⟩
                  rw [List.take_append, List.take_of_length_le hle, ← h2]

theorem execOne_le {t : TdmsFile} {ls : List DataLocation} {skip n : Nat} {vs : List α}
    (h : execOne S t ls skip n = .ok vs) : vs.length ≤ n := (execOne_ext S ls (Nat.le_refl n) h h).1

/-! ## Growing files -/

section
variable {S} (hS : ∀ e, Rd.Mono (S.read e))
include hS

theorem valuesRead_mono (e : Endian) (n : Nat) : Rd.Mono (valuesRead S e n) := by
  induction n with
  | zero => exact .pure _
  | succ n ih => exact (hS e).bind fun _ => ih.bind fun _ => .pure _

theorem seqOne_mono (e : Endian) (samples cells : Nat) : Rd.Mono (seqOne S e samples cells) := by
  unfold seqOne
  refine (valuesRead_mono hS e _).bind fun _ => ?_
  exact Rd.Mono.ite ((Rd.Mono.lift _).bind fun _ => (Rd.Mono.move _).bind fun _ => .pure _) (.pure _)

omit hS in
theorem skipAll_mono (plan : List (RecordEntry α)) : Rd.Mono (skipAll S plan) := by
  induction plan with
  | nil => exact .pure _
  | cons en rest ih => exact (Rd.Mono.lift _).bind fun _ => (Rd.Mono.move _).bind fun _ => ih

omit hS in
theorem skipRow_mono (plan : List (RecordEntry α)) : Rd.Mono (skipRow S plan) := by
  induction plan with
  | nil => exact .pure _
  | cons en rest ih => exact (Rd.Mono.move _).bind fun _ => ih

theorem subOne_mono (e : Endian) (pre post : List (RecordEntry α)) (len skip cells : Nat) :
    Rd.Mono (subOne S e pre post len skip cells) := by
  unfold subOne
  have h := (seqOne_mono hS e (len - min skip len) cells).bind fun vs =>
    (skipAll_mono (S := S) post).bind fun _ => Rd.Mono.pure vs
  exact (skipAll_mono pre).bind fun _ => Rd.Mono.ite ((Rd.Mono.lift _).bind fun _ => (Rd.Mono.move _).bind fun _ => h) h

theorem contigOne_mono (e : Endian) (pre post : List (RecordEntry α)) (len bs toSkip remainder : Nat) :
    ∀ (n idx cells : Nat), Rd.Mono (contigOne S e pre post len bs toSkip remainder n idx cells) := by
  intro n
  induction n with
  | zero => intro idx cells; exact .pure _
  | succ n ih =>
    intro idx cells
    unfold contigOne
    exact Rd.Mono.ite ((Rd.Mono.move _).bind fun _ => ih _ _)
      ((subOne_mono hS e _ _ _ _ _).bind fun _ => (ih _ _).bind fun _ => .pure _)

theorem interOne_mono (e : Endian) (pre post : List (RecordEntry α)) (skip : Nat) :
    ∀ (n row cells : Nat), Rd.Mono (interOne S e pre post skip n row cells) := by
  intro n
  induction n with
  | zero => intro row cells; exact .pure _
  | succ n ih =>
    intro row cells
    unfold interOne
    have hrow : Rd.Mono (rowOne S e pre post) :=
      (skipRow_mono pre).bind fun _ => (hS e).bind fun _ => (skipRow_mono post).bind fun _ => .pure _
    exact hrow.bind fun _ => Rd.Mono.ite ((ih _ _).bind fun _ => .pure _) (.pure _)

theorem blockOne_mono {f : Bytes} (g : Bytes) {b : DataBlock} {idx skip cells : Nat} {vs : List α}
    (h : blockOne S f b idx skip cells = .ok vs) : blockOne S (f ++ g) b idx skip cells = .ok vs := by
  have key : ∀ {x : Rd (List α)}, x.Mono → (x f 0).map (·.1) = .ok vs → (x (f ++ g) 0).map (·.1) = .ok vs := by
    intro x hx h
    cases hx1 : x f 0 with
    | error er => rw [hx1] at h; cases h
    | ok a => rw [hx f g 0 a.1 a.2 hx1]; rw [hx1] at h; exact h
  unfold blockOne at h ⊢
  revert h
  cases b.channels[idx]? with
  | none => intro h; cases h
  | some c =>
    dsimp only
    split
    · cases b.layout with
      | contigious =>
        refine key ?_
        unfold contigBlockOne
        exact (Rd.Mono.seek _).bind fun _ => (Rd.Mono.lift _).bind fun _ => (Rd.Mono.lift _).bind fun _ =>
          (Rd.Mono.lift _).bind fun _ => (Rd.Mono.lift _).bind fun _ => contigOne_mono hS _ _ _ _ _ _ _ _ _ _
      | interleaved =>
        refine key ?_
        unfold interBlockOne
        exact (Rd.Mono.seek _).bind fun _ => (Rd.Mono.lift _).bind fun _ =>
          Rd.Mono.ite ((Rd.Mono.lift _).bind fun _ => (Rd.Mono.move _).bind fun _ => interOne_mono hS _ _ _ _ _ _ _)
            (interOne_mono hS _ _ _ _ _ _ _)
    · intro h; cases h

/-- A read that fills its buffer reads the same values from a file that has grown. -/
theorem execOne_full {t t' : TdmsFile} (hg : Grows t t') (ls more : List DataLocation) :
    ∀ {skip n : Nat} {vs : List α}, 0 < n → execOne S t ls skip n = .ok vs → n ≤ vs.length →
      execOne S t' (ls ++ more) skip n = .ok vs := by
  obtain ⟨⟨g, hbytes⟩, bs, hblocks⟩ := hg
  induction ls with
  | nil => intro skip n vs hn h hle; cases h; simp at hle; omega
  | cons l ls ih =>
    intro skip n vs hn h hle
    rw [List.cons_append]
    unfold execOne at h ⊢
    split at h
    · rename_i hs
      rw [if_pos hs]
      exact ih hn h hle
    · rename_i hs
      rw [if_neg hs]
      cases hd : t.index.getDataBlock l.dataBlock with
      | none => rw [hd] at h; cases h
      | some b =>
        have hd' : t'.index.getDataBlock l.dataBlock = some b := by
          unfold Index.getDataBlock at hd ⊢
          rw [hblocks, List.getElem?_append_left (List.getElem?_eq_some_iff.mp hd).1, hd]
        rw [hd] at h
        rw [hd', hbytes]
        dsimp only at h ⊢
        cases hb : blockOne S t.bytes b l.channelIndex skip n with
        | error er => rw [hb] at h; cases h
        | ok xs =>
          rw [hb] at h
          rw [blockOne_mono hS g hb]
          dsimp only at h ⊢
          by_cases hf : n ≤ xs.length
          · rw [if_pos hf] at h ⊢; exact h
          · rw [if_neg hf] at h ⊢
            cases hw : execOne S t ls (skip - l.numberOfSamples) (n - xs.length) with
            | error er => rw [hw] at h; cases h
            | ok ws =>
              rw [hw] at h
              cases h
              rw [List.length_append] at hle
              rw [ih (by omega) hw (by omega)]
              rfl

/-- What is read from a file that has grown begins with what was read before. -/
theorem execOne_grows {t t' : TdmsFile} (hg : Grows t t') (ls more : List DataLocation) :
    ∀ {skip n m : Nat} {vs vs' : List α}, n ≤ m → execOne S t ls skip n = .ok vs →
      execOne S t' (ls ++ more) skip m = .ok vs' → vs <+: vs' := by
  obtain ⟨⟨g, hbytes⟩, bs, hblocks⟩ := hg
  induction ls with
  | nil => intro skip n m vs vs' hnm h _; cases h; exact List.nil_prefix
  | cons l ls ih =>
    intro skip n m vs vs' hnm h h'
    rw [List.cons_append] at h'
    unfold execOne at h h'
    split at h
    · rename_i hs
      rw [if_pos hs] at h'
      exact ih hnm h h'
    · rename_i hs
      rw [if_neg hs] at h'
      cases hd : t.index.getDataBlock l.dataBlock with
      | none => rw [hd] at h; cases h
      | some b =>
        have hd' : t'.index.getDataBlock l.dataBlock = some b := by
          unfold Index.getDataBlock at hd ⊢
          rw [hblocks, List.getElem?_append_left (List.getElem?_eq_some_iff.mp hd).1, hd]
        rw [hd] at h
        rw [hd', hbytes] at h'
        dsimp only at h h'
        cases hb : blockOne S t.bytes b l.channelIndex skip n with
        | error er => rw [hb] at h; cases h
        | ok xs =>
          cases hb' : blockOne S (t.bytes ++ g) b l.channelIndex skip m with
          | error er => rw [hb'] at h'; cases h'
          | ok xs' =>
            rw [hb] at h
            rw [hb'] at h'
            dsimp only at h h'
            obtain ⟨hle, hx⟩ := blockOne_ext S hnm (blockOne_mono hS g hb) hb'
            have hpre : xs <+: xs' := by
              rcases hx with rfl | ⟨_, h2⟩
              · exact List.prefix_refl _
              · rw [h2]; exact List.take_prefix _ _
            have hpre' : xs' <+: vs' := by
              split at h'
              · cases h'; exact List.prefix_refl _
              · cases hm : execOne S t' (ls ++ more) (skip - l.numberOfSamples) (m - xs'.length) with
                | error er => rw [hm] at h'; cases h'
                | ok ws => rw [hm] at h'; cases h'; exact List.prefix_append _ _
            by_cases hf : n ≤ xs.length
            · rw [if_pos hf] at h
              cases h
              exact hpre.trans hpre'
            · rw [if_neg hf] at h
              have hxx : xs = xs' := by
                rcases hx with hx | ⟨h1, _⟩
                · exact hx
                · omega
              subst hxx
              rw [if_neg (by omega)] at h'
              cases hw : execOne S t ls (skip - l.numberOfSamples) (n - xs.length) with
              | error er => rw [hw] at h; cases h
              | ok ws =>
                cases hw' : execOne S t' (ls ++ more) (skip - l.numberOfSamples) (m - xs.length) with
                | error er => rw [hw'] at h'; cases h'
                | ok ws' =>
                  rw [hw] at h; rw [hw'] at h'
                  cases h; cases h'
                  exact (List.prefix_append_right_inj _).mpr (ih (by omega) hw hw')

end
end
end Tedium
