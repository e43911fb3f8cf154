import Verif.Model.SMap

/-! # Helper lemmas: ordered maps -/

namespace Tedium

/-! ## The order on texts -/

theorem textCmp_refl (a : Text) : textCmp a a = .eq := by
  induction a with
  | nil => rfl
  | cons x xs ih => simp [textCmp, ih]

theorem textCmp_eq {a b : Text} : textCmp a b = .eq ↔ a = b := by
  constructor
  · intro h
    induction a generalizing b with
    | nil => cases b <;> simp_all [textCmp]
    | cons x xs ih =>
      cases b with
      | nil => simp [textCmp] at h
      | cons y ys =>
        unfold textCmp at h
        split at h
        · cases h
        · split at h
          · cases h
          · rename_i h1 h2
            have : x.toNat = y.toNat := by omega
            have hxy : x = y := Char.toNat_inj.mp this
            rw [hxy, ih h]
  · intro h; subst h; exact textCmp_refl a

theorem textCmp_gt {a b : Text} : textCmp a b = .gt ↔ textCmp b a = .lt := by
  induction a generalizing b with
  | nil => cases b <;> simp [textCmp]
  | cons x xs ih =>
    cases b with
    | nil => simp [textCmp]
    | cons y ys =>
      unfold textCmp
      by_cases h1 : x.toNat < y.toNat
      · have h2 : ¬ y.toNat < x.toNat := by omega
        simp [h1, h2]
      · by_cases h2 : y.toNat < x.toNat
        · simp [h1, h2]
        · simp [h1, h2, ih]

theorem textCmp_lt_trans {a b c : Text} (h1 : textCmp a b = .lt) (h2 : textCmp b c = .lt) :
    textCmp a c = .lt := by
  induction a generalizing b c with
  | nil =>
    cases b with
    | nil => simp [textCmp] at h1
    | cons y ys =>
      cases c with
      | nil => simp [textCmp] at h2
      | cons z zs => simp [textCmp]
  | cons x xs ih =>
    cases b with
    | nil => simp [textCmp] at h1
    | cons y ys =>
      cases c with
      | nil => simp [textCmp] at h2
      | cons z zs =>
        unfold textCmp at h1 h2 ⊢
        split at h1
        · split at h2
          · rw [if_pos (by omega)]
          · split at h2
            · cases h2
            · rw [if_pos (by omega)]
        · split at h1
          · cases h1
          · split at h2
            · rw [if_pos (by omega)]
            · split at h2
              · cases h2
              · rw [if_neg (by omega), if_neg (by omega)]
                exact ih h1 h2

theorem textCmp_lt_irrefl (a : Text) : textCmp a a ≠ .lt := by rw [textCmp_refl]; simp

theorem textCmp_lt_ne {a b : Text} (h : textCmp a b = .lt) : a ≠ b := by
  intro hh; subst hh; exact textCmp_lt_irrefl a h

theorem textCmp_trichotomy (a b : Text) : textCmp a b = .lt ∨ a = b ∨ textCmp b a = .lt := by
  cases h : textCmp a b with
  | lt => exact Or.inl rfl
  | eq => exact Or.inr (Or.inl (textCmp_eq.mp h))
  | gt => exact Or.inr (Or.inr (textCmp_gt.mp h))

namespace SMap
variable {β : Type}

/-- strictly ascending keys -/
def Sorted (m : SMap β) : Prop := m.Pairwise (fun a b => textCmp a.1 b.1 = .lt)

theorem sorted_nil : Sorted ([] : SMap β) := List.Pairwise.nil

theorem get?_insert (k k' : Text) (v : β) (m : SMap β) :
    get? k (insert k' v m) = if k' = k then some v else get? k m := by
  induction m with
  | nil => simp [insert, get?]
  | cons x xs ih =>
    obtain ⟨kx, vx⟩ := x
    unfold insert
    split
    · simp [get?]
    · rename_i h
      have := textCmp_eq.mp h
      subst this
      simp only [get?]
      split <;> rfl
    · rename_i h
      simp only [get?, ih]
      have hne : k' ≠ kx := by
        intro hh; subst hh; rw [textCmp_refl] at h; cases h
      by_cases h1 : kx = k
      · subst h1; simp [hne]
      · simp [h1]

theorem mem_insert {p : Text × β} {k : Text} {v : β} {m : SMap β} (h : p ∈ insert k v m) :
    p = (k, v) ∨ p ∈ m := by
  induction m with
  | nil => simpa [insert] using h
  | cons x xs ih =>
    obtain ⟨kx, vx⟩ := x
    unfold insert at h
    split at h
    · simpa using h
    · rename_i hc
      have := textCmp_eq.mp hc
      subst this
      rcases List.mem_cons.mp h with h | h
      · exact Or.inl h
      · exact Or.inr (by simp [h])
    · rcases List.mem_cons.mp h with h | h
      · exact Or.inr (by simp [h])
      · rcases ih h with h | h
        · exact Or.inl h
        · exact Or.inr (by simp [h])

theorem sorted_insert {m : SMap β} (hs : Sorted m) (k : Text) (v : β) : Sorted (insert k v m) := by
  induction m with
  | nil => simp [insert, Sorted]
  | cons x xs ih =>
    obtain ⟨kx, vx⟩ := x
    have hs' := List.pairwise_cons.mp hs
    unfold insert
    split
    · rename_i h
      refine List.pairwise_cons.mpr ⟨?_, hs⟩
      intro p hp
      rcases List.mem_cons.mp hp with hp | hp
      · rw [hp]; exact h
      · exact textCmp_lt_trans h (hs'.1 p hp)
    · exact List.pairwise_cons.mpr ⟨hs'.1, hs'.2⟩
    · rename_i h
      refine List.pairwise_cons.mpr ⟨?_, ih hs'.2⟩
      intro p hp
      rcases mem_insert hp with hp | hp
      · rw [hp]; exact textCmp_gt.mp h
      · exact hs'.1 p hp

theorem get?_some_mem {k : Text} {v : β} {m : SMap β} (h : get? k m = some v) : (k, v) ∈ m := by
  induction m with
  | nil => cases h
  | cons x xs ih =>
    obtain ⟨kx, vx⟩ := x
    unfold get? at h
    split at h
    · rename_i hk; subst hk; cases h; simp
    · simp [ih h]

theorem get?_none {k : Text} {m : SMap β} : get? k m = none ↔ k ∉ keys m := by
  induction m with
  | nil => simp [get?, keys]
  | cons x xs ih =>
    obtain ⟨kx, vx⟩ := x
    unfold get?
    split
    · rename_i hk; subst hk; simp [keys]
    · rename_i hk
      rw [ih]
      simp only [keys, List.map_cons, List.mem_cons, not_or]
      constructor
      · intro h; exact ⟨fun hh => hk hh.symm, h⟩
      · intro h; exact h.2

theorem mem_keys {k : Text} {m : SMap β} : k ∈ keys m ↔ ∃ v, get? k m = some v := by
  constructor
  · intro h
    cases hg : get? k m with
    | none => exact absurd h (get?_none.mp hg)
    | some v => exact ⟨v, rfl⟩
  · rintro ⟨v, h⟩
    exact Decidable.byContradiction fun hn => by rw [get?_none.mpr hn] at h; cases h

theorem sorted_mem_get? {k : Text} {v : β} {m : SMap β} (hs : Sorted m) (h : (k, v) ∈ m) :
    get? k m = some v := by
  induction m with
  | nil => cases h
  | cons x xs ih =>
    obtain ⟨kx, vx⟩ := x
    have hs' := List.pairwise_cons.mp hs
    unfold get?
    rcases List.mem_cons.mp h with h | h
    · cases h; simp
    · rw [if_neg (textCmp_lt_ne (hs'.1 _ h))]
      exact ih hs'.2 h

theorem mem_iff_get? {k : Text} {v : β} {m : SMap β} (hs : Sorted m) :
    (k, v) ∈ m ↔ get? k m = some v := ⟨sorted_mem_get? hs, get?_some_mem⟩

theorem sorted_keys {m : SMap β} (hs : Sorted m) :
    (keys m).Pairwise (fun a b => textCmp a b = .lt) := by
  unfold keys
  rw [List.pairwise_map]
  exact hs

/-- A sorted map is determined by its lookups. -/
theorem ext {m m' : SMap β} (hs : Sorted m) (hs' : Sorted m') (h : ∀ k, get? k m = get? k m') :
    m = m' := by
  induction m generalizing m' with
  | nil =>
    cases m' with
    | nil => rfl
    | cons x xs =>
      have := h x.1
      simp [get?] at this
  | cons x xs ih =>
    cases m' with
    | nil =>
      have := h x.1
      simp [get?] at this
    | cons y ys =>
      have h1 := List.pairwise_cons.mp hs
      have h2 := List.pairwise_cons.mp hs'
      have hxy : x.1 = y.1 := by
        rcases textCmp_trichotomy x.1 y.1 with hc | hc | hc
        · exfalso
          have hx := h x.1
          have e1 : get? x.1 (x :: xs) = some x.2 := sorted_mem_get? hs (by simp)
          rw [e1] at hx
          have := get?_some_mem hx.symm
          rcases List.mem_cons.mp this with hm | hm
          · rw [← hm] at hc; exact textCmp_lt_irrefl _ hc
          · exact textCmp_lt_irrefl _ (textCmp_lt_trans hc (h2.1 _ hm))
        · exact hc
        · exfalso
          have hy := h y.1
          have e1 : get? y.1 (y :: ys) = some y.2 := sorted_mem_get? hs' (by simp)
          rw [e1] at hy
          have := get?_some_mem hy
          rcases List.mem_cons.mp this with hm | hm
          · rw [← hm] at hc; exact textCmp_lt_irrefl _ hc
          · exact textCmp_lt_irrefl _ (textCmp_lt_trans hc (h1.1 _ hm))
      have hv : x.2 = y.2 := by
        have := h x.1
        rw [show get? x.1 (x :: xs) = some x.2 from sorted_mem_get? hs (by simp), hxy,
          show get? y.1 (y :: ys) = some y.2 from sorted_mem_get? hs' (by simp)] at this
        exact Option.some.inj this
      have hxy' : x = y := Prod.ext hxy hv
      subst hxy'
      congr 1
      apply ih h1.2 h2.2
      intro k
      have hk := h k
      obtain ⟨kx, vx⟩ := x
      unfold get? at hk
      by_cases hkx : kx = k
      · subst hkx
        have n1 : get? kx xs = none := get?_none.mpr (fun hm => by
          unfold keys at hm
          obtain ⟨p, hp, hpk⟩ := List.mem_map.mp hm
          exact textCmp_lt_ne (h1.1 p hp) hpk.symm)
        have n2 : get? kx ys = none := get?_none.mpr (fun hm => by
          unfold keys at hm
          obtain ⟨p, hp, hpk⟩ := List.mem_map.mp hm
          exact textCmp_lt_ne (h2.1 p hp) hpk.symm)
        rw [n1, n2]
      · simpa [hkx] using hk

/-! ## Prefix ranges -/

theorem isPrefixOf_iff {p k : Text} : p.isPrefixOf k = true ↔ p <+: k := List.isPrefixOf_iff_prefix

theorem not_lt_of_prefix {p k : Text} (h : p <+: k) : textCmp k p ≠ .lt := by
  obtain ⟨r, rfl⟩ := h
  induction p with
  | nil => cases r <;> simp [textCmp]
  | cons x xs ih => simpa [textCmp] using ih

/-- Between a text and its extensions there are only extensions. -/
theorem prefix_convex {p a b : Text} (ha : textCmp a p ≠ .lt) (hab : textCmp a b = .lt)
    (hb : p <+: b) : p <+: a := by
  induction p generalizing a b with
  | nil => exact List.nil_prefix
  | cons x xs ih =>
    obtain ⟨r, rfl⟩ := hb
    cases a with
    | nil => simp [textCmp] at ha
    | cons y ys =>
      unfold textCmp at ha
      rw [List.cons_append] at hab
      unfold textCmp at hab
      split at ha
      · simp at ha
      · split at hab
        · omega
        · split at hab
          · cases hab
          · rename_i h1 h2 h3
            rw [if_neg (by omega)] at ha
            have hxy : y = x := Char.toNat_inj.mp (by omega)
            subst hxy
            have := ih ha hab (List.prefix_append _ _)
            obtain ⟨t, rfl⟩ := this
            exact ⟨t, by simp⟩

/-- The range scan finds exactly the keys with the prefix. -/
theorem range_scan {ks : List Text} (hs : ks.Pairwise (fun a b => textCmp a b = .lt)) (p : Text) :
    (ks.dropWhile (fun k => textCmp k p = .lt)).takeWhile (fun k => p.isPrefixOf k)
      = ks.filter (fun k => p.isPrefixOf k) := by
  induction ks with
  | nil => rfl
  | cons k ks ih =>
    have hs' := List.pairwise_cons.mp hs
    by_cases hk : textCmp k p = .lt
    · have hnp : p.isPrefixOf k = false := by
        rw [Bool.eq_false_iff]
        intro h
        exact not_lt_of_prefix (isPrefixOf_iff.mp h) hk
      rw [List.dropWhile_cons_of_pos (by simpa using hk), List.filter_cons_of_neg (by simp [hnp])]
      exact ih hs'.2
    · rw [List.dropWhile_cons_of_neg (by simpa using hk)]
      -- from here on every key is ≥ p
      clear ih
      have key : ∀ (l : List Text), (l.Pairwise (fun a b => textCmp a b = .lt)) →
          (∀ a ∈ l, textCmp a p ≠ .lt) →
          l.takeWhile (fun k => p.isPrefixOf k) = l.filter (fun k => p.isPrefixOf k) := by
        intro l hl hge
        induction l with
        | nil => rfl
        | cons a as ih =>
          have hl' := List.pairwise_cons.mp hl
          by_cases ha : p.isPrefixOf a = true
          · rw [List.takeWhile_cons_of_pos ha, List.filter_cons_of_pos ha,
              ih hl'.2 (fun b hb => hge b (by simp [hb]))]
          · rw [List.takeWhile_cons_of_neg ha, List.filter_cons_of_neg ha]
            symm
            rw [List.filter_eq_nil_iff]
            intro b hb hpb
            exact ha (isPrefixOf_iff.mpr
              (prefix_convex (hge a (by simp)) (hl'.1 b hb) (isPrefixOf_iff.mp hpb)))
      apply key _ hs
      intro a ha
      rcases List.mem_cons.mp ha with ha | ha
      · rw [ha]; exact hk
      · intro hlt
        exact hk (textCmp_lt_trans (hs'.1 a ha) hlt)

end SMap
end Tedium
