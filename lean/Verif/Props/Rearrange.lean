import Verif.Spec.Rearrange
import Verif.Props.ReadBack

/-! # Properties: how calls are cut and ordered does not matter (C68) -/

namespace Tedium
open SegSpec WriteSpec

theorem column_one {α : Type} (layout : DataLayout) (vals : List α) : column layout 1 0 vals = vals := by
  unfold column
  cases layout with
  | interleaved =>
    dsimp only
    rw [Nat.div_one]
    apply List.ext_getElem?
    intro j
    rw [getElem?_filterMap_some _ _ _ (by
      intro x hx
      have hx := List.mem_range.mp hx
      simp [hx])]
    by_cases hj : j < vals.length
    · rw [List.getElem?_range hj]; simp
    · rw [List.getElem?_eq_none (by simpa using hj), List.getElem?_eq_none (by omega)]; rfl
  | contigious =>
    dsimp only
    rw [Nat.div_one, Nat.zero_mul, List.drop_zero, List.take_of_length_le (Nat.le_refl _)]

theorem column_rows_append {α : Type} {k i : Nat} (hi : i < k) {a b : List α} (ha : k ∣ a.length) (hb : k ∣ b.length) :
    column .interleaved k i (a ++ b) = column .interleaved k i a ++ column .interleaved k i b := by
  obtain ⟨p, hp⟩ := ha
  obtain ⟨q, hq⟩ := hb
  have hk : 0 < k := by omega
  unfold column
  dsimp only
  rw [List.length_append, hp, hq, ← Nat.mul_add, Nat.mul_div_cancel_left _ hk, Nat.mul_div_cancel_left _ hk,
    Nat.mul_div_cancel_left _ hk, List.range_add, List.filterMap_append]
  congr 1
  · apply filterMap_congr'
    intro row hrow
    have hrow := List.mem_range.mp hrow
    rw [List.getElem?_append_left]
    rw [hp]
    have := Nat.mul_le_mul_left k (Nat.succ_le_of_lt hrow)
    rw [Nat.mul_succ, Nat.mul_comm k row] at this
    omega
  · rw [List.filterMap_map]
    apply filterMap_congr'
    intro row _
    show (a ++ b)[(p + row) * k + i]? = _
    have : (p + row) * k + i = a.length + (row * k + i) := by
      rw [hp, Nat.add_mul, Nat.mul_comm p k]; omega
    rw [this, List.getElem?_append_right (by omega), Nat.add_sub_cancel_left]

theorem valuesFor_unnamed {ty : STy} {p : Text} {op : Op} (h : ¬ Names p op) : valuesFor ty p op = [] := by
  cases op with
  | props => rfl
  | write e ty' chs vals layout =>
    unfold valuesFor
    dsimp only
    split
    · have : (chs.map ChannelPath.path).idxOf? p = none := by
        rw [idxOf?_eq_none]
        intro hp
        exact h (List.mem_map.mp hp)
      rw [this]
    · rfl

theorem written_append (ty : STy) (p : Text) (a b : List Op) : written ty p (a ++ b) = written ty p a ++ written ty p b := by
  unfold written
  rw [List.flatMap_append]

/-- Rearranged histories give every channel the same values... -/
theorem rearranged_written {a b : List Op} (h : Rearranged a b) (ty : STy) (p : Text) : written ty p a = written ty p b := by
  induction h with
  | refl => rfl
  | symm _ ih => exact ih.symm
  | trans _ _ ih1 ih2 => exact ih1.trans ih2
  | within before after _ ih => rw [written_append, written_append, written_append, written_append, ih]
  | exchange x y hxy =>
    unfold written
    simp only [List.flatMap_cons, List.flatMap_nil, List.append_nil]
    by_cases hx : Names p x
    · have hy : ¬ Names p y := by
        intro hy
        cases x with
        | props => cases hx
        | write =>
          cases y with
          | props => cases hy
          | write =>
            obtain ⟨c, hc, hcp⟩ := hx
            obtain ⟨c', hc', hcp'⟩ := hy
            exact hxy c hc c' hc' (hcp.trans hcp'.symm)
      rw [valuesFor_unnamed hy, List.append_nil, List.nil_append]
    · rw [valuesFor_unnamed hx, List.append_nil, List.nil_append]
  | cutRows e e₁ e₂ ty' chs vals₁ vals₂ h1 h2 =>
    unfold written
    simp only [List.flatMap_cons, List.flatMap_nil, List.append_nil]
    unfold valuesFor
    dsimp only
    split
    · rename_i heq
      subst heq
      cases hidx : (chs.map ChannelPath.path).idxOf? p with
      | none => rfl
      | some i =>
        have hi : i < chs.length := by
          have := (List.getElem?_eq_some_iff.mp (getElem?_of_idxOf? hidx)).1
          rw [List.length_map] at this
          exact this
        exact column_rows_append hi h1 h2
    · rfl
  | cutChannel e e₁ e₂ ty' c vals₁ vals₂ l l₁ l₂ =>
    unfold written
    simp only [List.flatMap_cons, List.flatMap_nil, List.append_nil]
    unfold valuesFor
    dsimp only
    split
    · rename_i heq
      subst heq
      cases hidx : ([c].map ChannelPath.path).idxOf? p with
      | none => rfl
      | some i =>
        have hi : i = 0 := by
          have := (List.getElem?_eq_some_iff.mp (getElem?_of_idxOf? hidx)).1
          simp at this
          exact this
        subst hi
        dsimp only
        rw [List.length_singleton, column_one, column_one, column_one]
    · rfl
  | cutProperties => rfl

/-- ... of the same types... -/
theorem rearranged_types {a b : List Op} (h : Rearranged a b) (p : Text) :
    ∀ ty : Option STy, (∃ op ∈ a, Names p op ∧ typeOf op = ty) ↔ (∃ op ∈ b, Names p op ∧ typeOf op = ty) := by
  intro ty
  induction h with
  | refl => exact Iff.rfl
  | symm _ ih => exact ih.symm
  | trans _ _ ih1 ih2 => exact ih1.trans ih2
  | within before after _ ih =>
    simp only [List.mem_append, or_and_right, exists_or]
    rw [ih]
  | exchange x y _ =>
    simp only [List.mem_cons, List.not_mem_nil, or_false, or_and_right, exists_or, exists_eq_left]
    exact Or.comm
  | cutRows =>
    simp only [List.mem_cons, List.not_mem_nil, or_false, or_and_right, exists_or, exists_eq_left, Names, typeOf]
    exact (or_self_iff).symm
  | cutChannel =>
    simp only [List.mem_cons, List.not_mem_nil, or_false, or_and_right, exists_or, exists_eq_left, Names, typeOf]
    exact (or_self_iff).symm
  | cutProperties => simp [Names]

/-- ... and every object the same properties. -/
theorem rearranged_properties {a b : List Op} (h : Rearranged a b) (p : Text) :
    a.flatMap (Op.propsFor p) = b.flatMap (Op.propsFor p) := by
  induction h with
  | refl => rfl
  | symm _ ih => exact ih.symm
  | trans _ _ ih1 ih2 => exact ih1.trans ih2
  | within before after _ ih => rw [List.flatMap_append, List.flatMap_append, List.flatMap_append, List.flatMap_append, ih]
  | exchange x y hxy =>
    simp only [List.flatMap_cons, List.flatMap_nil, List.append_nil]
    cases x with
    | write => unfold Op.propsFor; rw [List.append_nil]; rfl
    | props e q ps =>
      cases y with
      | write => unfold Op.propsFor; rw [List.append_nil]; rfl
      | props e' q' ps' =>
        unfold Op.propsFor
        dsimp only
        by_cases h1 : q.path = p
        · rw [if_pos h1, if_neg (fun h2 => hxy (h1.trans h2.symm)), List.append_nil, List.nil_append]
        · rw [if_neg h1, List.append_nil, List.nil_append]
  | cutRows => rfl
  | cutChannel => rfl
  | cutProperties e e₁ e₂ path p1 p2 =>
    simp only [List.flatMap_cons, List.flatMap_nil, List.append_nil, Op.propsFor]
    split <;> simp

/-- **C68, properties** (in full). After rearranged histories on any file, every property has the same value. -/
theorem rearranged_read_property (al : Alloc) (t : TdmsFile) {ops ops' : List Op} (h : Rearranged ops ops')
    (path : PropertyPath) (n : Text) :
    foundValue ((runOps al t ops).readProperty path n) = foundValue ((runOps al t ops').readProperty path n) := by
  rw [last_write_wins, last_write_wins, rearranged_properties h]

/-- **C68, samples** (partial: both histories are compatible, see C31). After rearranged histories on a new
    file, every channel whose values are all of one type has the same length, and every read of it gives the
    same values. -/
theorem rearranged_read_partial (al : Alloc) {t : TdmsFile} (ht : TdmsFile.create al = .ok t) {ops ops' : List Op}
    (h : Rearranged ops ops') (hc : Compatible Last.none ops) (hc' : Compatible Last.none ops')
    (hsz : (runOps al t ops).bytes.length < 2 ^ 63) (hsz' : (runOps al t ops').bytes.length < 2 ^ 63)
    (ty : STy) (c : ChannelPath) (hty : Format.ordinaryTy ty = true)
    (htype : ∀ op ∈ ops, Names c.path op → typeOf op = some ty) (hn : ∃ op ∈ ops, Names c.path op) :
    (∃ n, (runOps al t ops).channelLength c = .ok (some n) ∧ (runOps al t ops').channelLength c = .ok (some n)) ∧
    ∀ start out, ∃ out', (runOps al t ops).readChannelFrom (ty.storage al) c start out = .ok out' ∧
      (runOps al t ops').readChannelFrom (ty.storage al) c start out = .ok out' := by
  obtain ⟨_, h1⟩ := write_then_read_partial al ht ops hc hsz
  obtain ⟨_, h2⟩ := write_then_read_partial al ht ops' hc' hsz'
  obtain ⟨h3, h4⟩ := h1 ty c hty htype hn
  obtain ⟨h5, h6⟩ := h2 ty c hty (by
    intro op hop hnm
    obtain ⟨o, ho, hon, hot⟩ := (rearranged_types h c.path (typeOf op)).mpr ⟨op, hop, hnm, rfl⟩
    rw [← hot]
    exact htype o ho hon) (by
    obtain ⟨op, hop, hnm⟩ := hn
    obtain ⟨o, ho, hon, _⟩ := (rearranged_types h c.path (typeOf op)).mp ⟨op, hop, hnm, rfl⟩
    exact ⟨o, ho, hon⟩)
  rw [← rearranged_written h] at h5 h6
  exact ⟨⟨_, h3, h5⟩, fun start out => ⟨_, h4 start out, h6 start out⟩⟩

/-- A table of four rows, a channel of its own and two properties... -/
def wholeOps : List Op :=
  [writeU16 ["a", "b"] [1, 2, 3, 4, 5, 6, 7, 8] .interleaved,
   .props .little (.group "g".toList) [("n".toList, .i32 5), ("m".toList, .i32 6)],
   writeU16 ["c"] [9, 10]]

/-- ... and the same, row by row, with the other channel first. -/
def cutOps : List Op :=
  [writeU16 ["c"] [9, 10],
   writeU16 ["a", "b"] [1, 2] .interleaved, writeU16 ["a", "b"] [3, 4, 5, 6, 7, 8] .interleaved,
   .props .little (.group "g".toList) [("n".toList, .i32 5)],
   .props .little (.group "g".toList) [("m".toList, .i32 6)]]

theorem cutOps_rearranged : Rearranged wholeOps cutOps := by
  have h1 := (Rearranged.exchange (.props .little (.group "g".toList) [("n".toList, .i32 5), ("m".toList, .i32 6)])
    (writeU16 ["c"] [9, 10]) trivial).within [writeU16 ["a", "b"] [1, 2, 3, 4, 5, 6, 7, 8] .interleaved] []
  have h2 := (Rearranged.exchange (writeU16 ["a", "b"] [1, 2, 3, 4, 5, 6, 7, 8] .interleaved) (writeU16 ["c"] [9, 10])
    (by unfold writeU16 Apart; decide +kernel)).within []
    [.props .little (.group "g".toList) [("n".toList, .i32 5), ("m".toList, .i32 6)]]
  have h3 := (Rearranged.cutRows .little .little .little .u16 (["a", "b"].map chan) (vals16 [1, 2])
    (vals16 [3, 4, 5, 6, 7, 8]) (by decide +kernel) (by decide +kernel)).within [writeU16 ["c"] [9, 10]]
    [.props .little (.group "g".toList) [("n".toList, .i32 5), ("m".toList, .i32 6)]]
  have h4 := (Rearranged.cutProperties .little .little .little (.group "g".toList) [("n".toList, .i32 5)]
    [("m".toList, .i32 6)]).within [writeU16 ["c"] [9, 10], writeU16 ["a", "b"] [1, 2] .interleaved,
      writeU16 ["a", "b"] [3, 4, 5, 6, 7, 8] .interleaved] []
  exact ((h1.trans h2).trans h3).trans h4

theorem rearranged_example : Compatible Last.none wholeOps ∧ Compatible Last.none cutOps ∧
    (session wholeOps).bytes.length < 2 ^ 63 ∧ (session cutOps).bytes.length < 2 ^ 63 ∧
    (session wholeOps).u16s "b" 4 = .ok (vals16 [2, 4, 6, 8]) ∧ (session cutOps).u16s "b" 4 = .ok (vals16 [2, 4, 6, 8]) := by
  refine ⟨⟨⟨⟨rfl, ?_, ?_, ?_, ?_⟩, ?_⟩, trivial, ⟨⟨rfl, ?_, ?_, ?_, ?_⟩, ?_⟩, trivial⟩,
    ⟨⟨⟨rfl, ?_, ?_, ?_, ?_⟩, ?_⟩, ⟨⟨rfl, ?_, ?_, ?_, ?_⟩, ?_⟩, ⟨⟨rfl, ?_, ?_, ?_, ?_⟩, ?_⟩, trivial, trivial, trivial⟩,
    ?_, ?_, ?_, ?_⟩
  all_goals first
    | decide +kernel
    | exact Or.inl (by decide +kernel)
    | exact Or.inr ⟨by decide +kernel, 1, by decide +kernel, Or.inr ⟨by decide +kernel, by decide +kernel⟩⟩

/-- C68 is false in full: cut after three of five values, a value is lost. -/
theorem rearranged_counterexample :
    Rearranged [writeU16 ["a"] [1, 2, 3, 4, 5]] [writeU16 ["a"] [1, 2, 3], writeU16 ["a"] [4, 5]] ∧
    (session [writeU16 ["a"] [1, 2, 3, 4, 5]]).u16s "a" 5 = .ok (vals16 [1, 2, 3, 4, 5]) ∧
    (session [writeU16 ["a"] [1, 2, 3], writeU16 ["a"] [4, 5]]).u16s "a" 5 = .ok (vals16 [1, 2, 3, 0, 0]) := by
  refine ⟨Rearranged.cutChannel .little .little .little .u16 (chan "a") (vals16 [1, 2, 3]) (vals16 [4, 5])
    .contigious .contigious .contigious, ?_, ?_⟩ <;> decide +kernel

end Tedium
