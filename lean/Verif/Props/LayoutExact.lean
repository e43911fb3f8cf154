import Verif.Props.ReadBack

/-!
# When the layout of a table does not matter, exactly

The guard of C33 cannot be weakened: among the histories that can be written row after row, those whose tables
may be written contiguously as well are exactly the compatible ones.
-/

namespace Tedium

open WriteSpec PlanSpec SegSpec

theorem relayout_rowAfterRow : ∀ ops : List Op, Relayout ops (rowAfterRow ops)
  | [] => .nil
  | .props .. :: ops => .props (relayout_rowAfterRow ops)
  | .write _ _ _ _ .contigious :: ops => .rows (relayout_rowAfterRow ops)
  | .write _ _ _ _ .interleaved :: ops => .same (relayout_rowAfterRow ops)

theorem rowAfterRow_take (ops : List Op) (n : Nat) : rowAfterRow (ops.take n) = (rowAfterRow ops).take n := by
  unfold rowAfterRow
  rw [List.map_take]

theorem tables_shape {ops ops' : List Op} (h : SameShape ops ops')
    (htab : ∀ e ty channels vals layout, Op.write e ty channels vals layout ∈ ops → Table ty channels vals) :
    ∀ e ty channels vals layout, Op.write e ty channels vals layout ∈ ops' → Table ty channels vals := by
  induction h with
  | nil => exact htab
  | props _ ih =>
    intro e ty channels vals layout hm
    rcases List.mem_cons.mp hm with hm | hm
    · cases hm
    · exact ih (fun _ _ _ _ _ h => htab _ _ _ _ _ (List.mem_cons_of_mem _ h)) _ _ _ _ _ hm
  | write hv _ ih =>
    intro e ty channels vals layout hm
    rcases List.mem_cons.mp hm with hm | hm
    · cases hm
      have h := htab _ _ _ _ _ List.mem_cons_self
      refine ⟨h.ordinary, h.some_channel, h.distinct, ?_, by rw [hv]; exact h.whole⟩
      intro hh
      rw [hh] at hv
      exact h.some_value (List.length_eq_zero_iff.mp hv.symm)
    · exact ih (fun _ _ _ _ _ h => htab _ _ _ _ _ (List.mem_cons_of_mem _ h)) _ _ _ _ _ hm

theorem rowAfterRow_shape {ops ops' : List Op} (h : SameShape ops ops')
    (htab : ∀ e ty channels vals layout, Op.write e ty channels vals layout ∈ ops → Table ty channels vals) :
    SameShape (rowAfterRow ops) (rowAfterRow ops') := by
  induction h with
  | nil => exact .nil
  | props _ ih => exact .props (ih fun _ _ _ _ _ h => htab _ _ _ _ _ (List.mem_cons_of_mem _ h))
  | @write e ty channels vals vals' layout ops ops' hv _ ih =>
    have hi := ih fun _ _ _ _ _ h => htab _ _ _ _ _ (List.mem_cons_of_mem _ h)
    obtain ⟨n, hn⟩ := (htab _ _ _ _ _ List.mem_cons_self).whole
    cases layout with
    | interleaved => exact .write hv hi
    | contigious =>
      refine .write ?_ hi
      rw [length_byRows hn, length_byRows (hv.trans hn), hv]

/-- A history and the same history row after row name the same channels, and give them the same values. -/
theorem rowAfterRow_values : ∀ (ops : List Op),
    (∀ e ty channels vals layout, Op.write e ty channels vals layout ∈ ops → Table ty channels vals) →
    (∀ p op, op ∈ rowAfterRow ops → Names p op → ∃ o ∈ ops, Names p o ∧ typeOf o = typeOf op) ∧
    (∀ p op, op ∈ ops → Names p op → ∃ o ∈ rowAfterRow ops, Names p o) ∧
    ∀ ty p, written ty p (rowAfterRow ops) = written ty p ops
  | [], _ => ⟨fun _ _ h => (by cases h), fun _ _ h => (by cases h), fun _ _ => rfl⟩
  | op :: ops, htab => by
    obtain ⟨i1, i2, i3⟩ := rowAfterRow_values ops fun _ _ _ _ _ h => htab _ _ _ _ _ (List.mem_cons_of_mem _ h)
    have key : ∃ o, rowAfterRow (op :: ops) = o :: rowAfterRow ops ∧ (∀ p, Names p o ↔ Names p op) ∧ typeOf o = typeOf op ∧
        ∀ ty p, valuesFor ty p o = valuesFor ty p op := by
      cases op with
      | props => exact ⟨_, rfl, fun _ => Iff.rfl, rfl, fun _ _ => rfl⟩
      | write e ty channels vals layout =>
        cases layout with
        | interleaved => exact ⟨_, rfl, fun _ => Iff.rfl, rfl, fun _ _ => rfl⟩
        | contigious =>
          refine ⟨_, rfl, fun _ => Iff.rfl, rfl, fun ty' p => ?_⟩
          unfold valuesFor
          dsimp only
          by_cases heq : ty = ty'
          · subst heq
            rw [dif_pos rfl, dif_pos rfl]
            cases hidx : (channels.map ChannelPath.path).idxOf? p with
            | none => rfl
            | some i =>
              dsimp only
              apply column_byRows (htab _ _ _ _ _ List.mem_cons_self).whole
              have := (List.getElem?_eq_some_iff.mp (getElem?_of_idxOf? hidx)).1
              rw [List.length_map] at this
              exact this
          · rw [dif_neg heq, dif_neg heq]
    obtain ⟨o, ho, hn, ht, hv⟩ := key
    rw [ho]
    refine ⟨?_, ?_, ?_⟩
    · intro p x hx hnx
      rcases List.mem_cons.mp hx with rfl | hx
      · exact ⟨op, List.mem_cons_self, (hn p).mp hnx, ht.symm⟩
      · obtain ⟨y, hy, h⟩ := i1 p x hx hnx
        exact ⟨y, List.mem_cons_of_mem _ hy, h⟩
    · intro p x hx hnx
      rcases List.mem_cons.mp hx with rfl | hx
      · exact ⟨o, List.mem_cons_self, (hn p).mpr hnx⟩
      · obtain ⟨y, hy, h⟩ := i2 p x hx hnx
        exact ⟨y, List.mem_cons_of_mem _ hy, h⟩
    · intro ty p
      show valuesFor ty p o ++ written ty p (rowAfterRow ops) = valuesFor ty p op ++ written ty p ops
      rw [hv, i3]

/-- If row after row everything is read back, the contents are the same if and only if contiguously everything
    is read back, too. -/
theorem sameContents_readsBack (al : Alloc) (t : TdmsFile) (ops : List Op)
    (htab : ∀ e ty channels vals layout, Op.write e ty channels vals layout ∈ ops → Table ty channels vals)
    (hrows : ReadsBack al t (rowAfterRow ops)) : SameContents al t ops (rowAfterRow ops) ↔ ReadsBack al t ops := by
  obtain ⟨i1, i2, i3⟩ := rowAfterRow_values ops htab
  have hr : ∀ (ty : STy) (c : ChannelPath), (∀ op ∈ ops, Names c.path op → typeOf op = some ty) →
      (∃ op ∈ ops, Names c.path op) →
      (runOps al t (rowAfterRow ops)).channelLength c = .ok (some (written ty c.path ops).length) ∧
      ∀ out : List ty.Val, out.length = (written ty c.path ops).length →
        (runOps al t (rowAfterRow ops)).readChannelFrom (ty.storage al) c 0 out = .ok (written ty c.path ops) := by
    intro ty c htype ⟨op, hop, hn⟩
    have h := hrows.2 ty c (fun x hx hnx => by
      obtain ⟨y, hy, hny, hty⟩ := i1 _ x hx hnx
      rw [← hty]
      exact htype y hy hny) (i2 _ op hop hn)
    rw [i3] at h
    exact h
  constructor
  · rintro ⟨h1, _, h3⟩
    refine ⟨h1, fun ty c htype hn => ?_⟩
    obtain ⟨h4, h5⟩ := h3 ty c htype hn
    obtain ⟨h6, h7⟩ := hr ty c htype hn
    exact ⟨h4.trans h6, fun out ho => (h5 out ho).trans (h7 out ho)⟩
  · rintro ⟨h1, h3⟩
    refine ⟨h1, hrows.1, fun ty c htype hn => ?_⟩
    obtain ⟨h4, h5⟩ := h3 ty c htype hn
    obtain ⟨h6, h7⟩ := hr ty c htype hn
    exact ⟨h4.trans h6.symm, fun out ho => (h5 out ho).trans (h7 out ho).symm⟩

/-- **C33, exactly.** Take a history of tables on a new file that is compatible when all its tables are written row
    after row. Whatever values the tables hold, at every point of the history they give the same contents as
    written row after row, if and only if the history itself is compatible: that is, no contiguous table of several
    channels that repeats the channel list has another number of rows than the first one of that list. -/
theorem layout_irrelevant_iff (al : Alloc) {t : TdmsFile} (ht : TdmsFile.create al = .ok t) (ops : List Op)
    (htabs : Tables ops) (hrows : Compatible Last.none (rowAfterRow ops))
    (hsz : (runOps al t ops).bytes.length < 2 ^ 63) (hszr : (runOps al t (rowAfterRow ops)).bytes.length < 2 ^ 63) :
    (∀ ops', SameShape ops ops' → ∀ n, SameContents al t (ops'.take n) (rowAfterRow (ops'.take n))) ↔
      Compatible Last.none ops := by
  obtain ⟨i1, i2, _⟩ := rowAfterRow_values ops htabs.tables
  have htabsr : Tables (rowAfterRow ops) := by
    refine ⟨compatible_table _ _ hrows, ?_⟩
    intro op hop op' hop' p hn hn'
    obtain ⟨o, ho, hno, hto⟩ := i1 p op hop hn
    obtain ⟨o', ho', hno', hto'⟩ := i1 p op' hop' hn'
    rw [← hto, ← hto']
    exact htabs.types o ho o' ho' p hno hno'
  rw [← reads_back_iff al ht ops htabs hsz]
  have hback := (reads_back_iff al ht (rowAfterRow ops) htabsr hszr).mpr hrows
  refine forall_congr' fun ops' => forall_congr' fun hs => forall_congr' fun n => ?_
  refine sameContents_readsBack al t (ops'.take n) ?_ ?_
  · exact fun e ty channels vals layout hm => tables_shape hs htabs.tables _ _ _ _ _ (List.mem_of_mem_take hm)
  · rw [rowAfterRow_take]
    exact hback _ (rowAfterRow_shape hs htabs.tables) n

/-- The hypotheses hold for `exampleOps`, which is compatible... -/
theorem layout_irrelevant_iff_example : Tables exampleOps ∧ Compatible Last.none exampleOps ∧
    Compatible Last.none (rowAfterRow exampleOps) ∧ (session exampleOps).bytes.length < 2 ^ 63 ∧
    (session (rowAfterRow exampleOps)).bytes.length < 2 ^ 63 := by
  refine ⟨reads_back_iff_example.1, exampleOps_compatible, ?_, by decide +kernel, by decide +kernel⟩
  exact (relayout_spec (relayout_rowAfterRow exampleOps) _ exampleOps_compatible).1

/-- ... and for a history that is compatible only row after row: more rows in the second table. -/
theorem layout_irrelevant_iff_misfit :
    let ops := [writeU16 ["a", "b"] [1, 2], writeU16 ["a", "b"] [3, 4, 5, 6]]
    Tables ops ∧ Compatible Last.none (rowAfterRow ops) ∧ (session ops).bytes.length < 2 ^ 63 ∧
    (session (rowAfterRow ops)).bytes.length < 2 ^ 63 ∧ ¬ Compatible Last.none ops := by
  have htab : ∀ vals : List Nat, vals ≠ [] → 2 ∣ vals.length →
      Table .u16 [chan "a", chan "b"] (vals16 vals) := by
    intro vals h1 h2
    refine ⟨rfl, by simp, by decide +kernel, ?_, ?_⟩
    · intro hh
      have := congrArg List.length hh
      rw [show (vals16 vals).length = vals.length from List.length_map ..] at this
      exact h1 (List.length_eq_zero_iff.mp this)
    · rw [show (vals16 vals).length = vals.length from List.length_map ..]
      exact h2
  refine ⟨tables_of (fun _ => .u16) ?_ ?_, ?_, by decide +kernel, by decide +kernel, ?_⟩
  · intro e ty chs vals layout h
    rcases List.mem_cons.mp h with h | h
    · cases h
      exact htab [1, 2] (by simp) (by decide)
    · cases List.mem_singleton.mp h
      exact htab [3, 4, 5, 6] (by simp) (by decide)
  · intro op h p hn
    rcases List.mem_cons.mp h with h | h
    · rw [h]; rfl
    · rw [List.mem_singleton.mp h]; rfl
  · have h2 : (Last.none.after (.write .little .u16 [chan "a", chan "b"] (byRows 2 (vals16 [1, 2])) .interleaved))
        = ⟨[chan "a", chan "b"].map ChannelPath.path, some (.u16, 1)⟩ := by
      unfold Last.after
      dsimp only
      rw [if_pos (show Diverges Last.none.channels _ from Or.inl rfl)]
      rfl
    refine ⟨⟨htab [1, 2] (by simp) (by decide), Or.inl (Or.inl rfl)⟩, ⟨htab [3, 5, 4, 6] (by simp) (by decide), Or.inr ?_⟩,
      trivial⟩
    refine ⟨congrArg Last.channels h2, 1, congrArg Last.format h2, Or.inr ⟨Nat.one_dvd _, Or.inr rfl⟩⟩
  · rintro ⟨_, ⟨_, h | ⟨_, m, hf, hm⟩⟩, _⟩
    · revert h; decide +kernel
    · have : m = 1 := by
        have h2 : (Last.none.after (writeU16 ["a", "b"] [1, 2])).format = some (.u16, 1) := by decide +kernel
        rw [h2] at hf
        cases hf
        rfl
      subst this
      revert hm
      decide +kernel

end Tedium
