import Verif.Proofs.DeliveredFile

/-! # Cells that can hold different values -/

namespace Tedium
open PlanSpec SegSpec

/-! ## Changing some bytes -/

/-- `f` with the bytes from `p` on replaced by `bs` -/
def splice (f : Bytes) (p : Nat) (bs : Bytes) : Bytes := f.take p ++ bs ++ f.drop (p + bs.length)

theorem splice_getElem? {f : Bytes} {p : Nat} {bs : Bytes} (h : p + bs.length ≤ f.length) (y : Nat) :
    (splice f p bs)[y]? = if p ≤ y ∧ y < p + bs.length then bs[y - p]? else f[y]? := by
  unfold splice
  have hlen : (f.take p).length = p := by rw [List.length_take]; omega
  by_cases h1 : y < p
  · rw [if_neg (by omega), List.append_assoc, List.getElem?_append_left (by omega), List.getElem?_take, if_pos h1]
  · by_cases h2 : y < p + bs.length
    · rw [if_pos (by omega), List.getElem?_append_left (by rw [List.length_append]; omega),
        List.getElem?_append_right (by omega), hlen]
    · rw [if_neg (by omega), List.getElem?_append_right (by rw [List.length_append]; omega),
        List.getElem?_drop, List.length_append, hlen]
      congr 1
      omega

theorem splice_length {f : Bytes} {p : Nat} {bs : Bytes} (h : p + bs.length ≤ f.length) :
    (splice f p bs).length = f.length := by
  unfold splice
  simp only [List.length_append, List.length_take, List.length_drop]
  omega

theorem splice_window {f : Bytes} {p : Nat} {bs : Bytes} {w : Nat} (hw : bs.length = w) (h : p + w ≤ f.length) :
    ((splice f p bs).drop p).take w = bs := by
  subst hw
  unfold splice
  have hlen : (f.take p).length = p := by rw [List.length_take]; omega
  rw [List.append_assoc, List.drop_append, List.drop_eq_nil_of_le (by omega), hlen, Nat.sub_self, List.nil_append,
    List.drop_zero, List.take_left]

theorem window_congr {f g : Bytes} {q w : Nat} (h : ∀ y, q ≤ y → y < q + w → f[y]? = g[y]?) :
    (f.drop q).take w = (g.drop q).take w := by
  apply List.ext_getElem?
  intro j
  rw [List.getElem?_take, List.getElem?_take]
  split
  · rw [List.getElem?_drop, List.getElem?_drop]
    exact h _ (by omega) (by omega)
  · rfl

/-! ## Values of windows -/

/-- the two values of a window that differ in the first or the last byte -/
theorem decode_first (ty : STy) (h : Format.fixedTy ty = true) (e : Endian) (al : Alloc) :
    Format.decode ty e (List.replicate (ty.storage al).memSize 0) ≠
      Format.decode ty e (1 :: List.replicate ((ty.storage al).memSize - 1) 0) := by
  cases ty <;> cases e <;> first
    | (cases h; done)
    | (intro hx; exact absurd hx (by simp only [STy.storage, numeric, boolStorage, timestampStorage, complexStorage]; decide))

theorem decode_last (ty : STy) (h : Format.fixedTy ty = true) (e : Endian) (al : Alloc) :
    Format.decode ty e (List.replicate (ty.storage al).memSize 0) ≠
      Format.decode ty e (List.replicate ((ty.storage al).memSize - 1) 0 ++ [1]) := by
  cases ty <;> cases e <;> first
    | (cases h; done)
    | (intro hx; exact absurd hx (by simp only [STy.storage, numeric, boolStorage, timestampStorage, complexStorage]; decide))

theorem decode_order (ty : STy) (h : Format.fixedTy ty = true) (al : Alloc) (hw : (ty.storage al).memSize ≠ 1) :
    Format.decode ty .little (1 :: List.replicate ((ty.storage al).memSize - 1) 0) ≠
      Format.decode ty .big (1 :: List.replicate ((ty.storage al).memSize - 1) 0) := by
  cases ty <;> first
    | (cases h; done)
    | (exact absurd rfl hw)
    | (intro hx; exact absurd hx (by simp only [STy.storage, numeric, timestampStorage, complexStorage]; decide))

theorem decode_byte (ty : STy) (h : Format.fixedTy ty = true) (al : Alloc) (hw : (ty.storage al).memSize = 1)
    (e e' : Endian) (bs : Bytes) (hb : bs.length ≤ 1) : Format.decode ty e bs = Format.decode ty e' bs := by
  have hd : decNat e bs = decNat e' bs := by
    match bs, hb with
    | [], _ => cases e <;> cases e' <;> rfl
    | [b], _ => cases e <;> cases e' <;> simp [decNat]
  cases ty <;> first
    | (cases h; done)
    | (exact congrArg (BitVec.ofNat 8) hd)
    | rfl
    | (simp [STy.storage, numeric, timestampStorage, complexStorage] at hw; done)

theorem Cell.Same.value {ty : STy} (h : Format.fixedTy ty = true) (al : Alloc) {c d : Cell}
    (hs : Cell.Same (ty.storage al).memSize c d) (f : Bytes) :
    Cell.value (Format.decode ty) (ty.storage al).memSize f c =
      Cell.value (Format.decode ty) (ty.storage al).memSize f d := by
  obtain ⟨e, p⟩ := c
  obtain ⟨e', q⟩ := d
  obtain ⟨h1, h2⟩ := hs
  dsimp only at h1 h2
  subst h1
  unfold Cell.value
  rcases h2 with h2 | h2
  · rw [h2]
  · exact decode_byte ty h al h2 e e' _ (by rw [List.length_take]; omega)

/-- Two cells that are not the same can hold different values: some contents of the window of the first
    one tell them apart. -/
theorem Cell.differ {ty : STy} (h : Format.fixedTy ty = true) (al : Alloc) {c d : Cell} {f : Bytes}
    (hs : ¬ Cell.Same (ty.storage al).memSize c d) (hin : c.2 + (ty.storage al).memSize ≤ f.length) :
    ∃ bs : Bytes, bs.length = (ty.storage al).memSize ∧
      Cell.value (Format.decode ty) (ty.storage al).memSize (splice f c.2 bs) c ≠
        Cell.value (Format.decode ty) (ty.storage al).memSize (splice f c.2 bs) d := by
  obtain ⟨e, p⟩ := c
  obtain ⟨e', q⟩ := d
  have hw0 : 0 < (ty.storage al).memSize := (STy.reads_fixed al ty h).1.pos
  have hfirst := decode_first ty h
  have hlast := decode_last ty h
  have horder := decode_order ty h
  generalize hw : (ty.storage al).memSize = w at *
  unfold Cell.Same at hs
  unfold Cell.value
  dsimp only at hs hin ⊢
  have hz : (List.replicate w (0 : UInt8)).length = w := List.length_replicate
  have ha : (1 :: List.replicate (w - 1) (0 : UInt8)).length = w := by
    rw [List.length_cons, List.length_replicate]; omega
  have hb : (List.replicate (w - 1) (0 : UInt8) ++ [1]).length = w := by
    rw [List.length_append, List.length_replicate]; simp; omega
  -- one of two contents will do
  have hone : ∀ bs bs' : Bytes, bs.length = w → bs'.length = w → Format.decode ty e bs ≠ Format.decode ty e bs' →
      (∀ y, q ≤ y → y < q + w → p ≤ y → y < p + w → bs[y - p]? = bs'[y - p]?) →
      ∃ bs : Bytes, bs.length = w ∧ Format.decode ty e (((splice f p bs).drop p).take w) ≠
        Format.decode ty e' (((splice f p bs).drop q).take w) := by
    intro bs bs' h1 h2 hne hsame
    have hq : ((splice f p bs).drop q).take w = ((splice f p bs').drop q).take w := by
      apply window_congr
      intro y hy1 hy2
      rw [splice_getElem? (by omega), splice_getElem? (by omega), h1, h2]
      by_cases hy : p ≤ y ∧ y < p + w
      · rw [if_pos hy, if_pos hy]
        exact hsame y hy1 hy2 hy.1 hy.2
      · rw [if_neg hy, if_neg hy]
    by_cases hc : Format.decode ty e (((splice f p bs).drop p).take w) =
        Format.decode ty e' (((splice f p bs).drop q).take w)
    · refine ⟨bs', h2, ?_⟩
      rw [← hq, ← hc, splice_window h1 hin, splice_window h2 hin]
      exact fun hx => hne hx.symm
    · exact ⟨bs, h1, hc⟩
  by_cases hpq : p = q
  · subst hpq
    have hw1 : w ≠ 1 := fun hw1 => hs ⟨rfl, Or.inr hw1⟩
    have hee : e ≠ e' := fun he => hs ⟨rfl, Or.inl he⟩
    refine ⟨_, ha, ?_⟩
    rw [splice_window ha hin]
    have := horder al (by rw [hw]; exact hw1)
    rw [hw] at this
    cases e <;> cases e'
    · exact absurd rfl hee
    · exact this
    · exact fun hx => this hx.symm
    · exact absurd rfl hee
  · rcases Nat.lt_or_gt_of_ne hpq with hlt | hgt
    · refine hone _ _ hz ha (by have := hfirst e al; rw [hw] at this; exact this) ?_
      intro y hy1 _ _ hy4
      obtain ⟨k, hk⟩ : ∃ k, y - p = k + 1 := ⟨y - p - 1, by omega⟩
      rw [hk, List.getElem?_cons_succ, List.getElem?_replicate, List.getElem?_replicate, if_pos (by omega),
        if_pos (by omega)]
    · refine hone _ _ hz hb (by have := hlast e al; rw [hw] at this; exact this) ?_
      intro y _ hy2 hy3 hy4
      rw [List.getElem?_append_left (by rw [List.length_replicate]; omega), List.getElem?_replicate,
        List.getElem?_replicate, if_pos (by omega), if_pos (by omega)]

end Tedium
