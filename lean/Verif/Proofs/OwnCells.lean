import Verif.Proofs.Cells
import Verif.Proofs.JointlyCells

/-! # Contents of the raw data that tell a cell from all others -/

namespace Tedium
open PlanSpec SegSpec

/-- Bytes without a zero, whose value depends on the byte order. -/
def markOf (w : Nat) : Bytes := 0xFE :: List.replicate (w - 1) 0xFF

theorem markOf_length {w : Nat} (h : 0 < w) : (markOf w).length = w := by
  unfold markOf
  rw [List.length_cons, List.length_replicate]
  omega

theorem bytes_of_number {w n : Nat} {e : Endian} {bs : Bytes} (hl : bs.length = w) (hn : n < 256 ^ w)
    (h : BitVec.ofNat (8 * w) (decNat e bs) = BitVec.ofNat (8 * w) n) : bs = encNat e w n := by
  have h1 := congrArg BitVec.toNat h
  rw [BitVec.toNat_ofNat, BitVec.toNat_ofNat, Nat.pow_mul] at h1
  have h2 := decNat_lt e bs
  rw [hl] at h2
  rw [show (2 : Nat) ^ 8 = 256 from rfl, Nat.mod_eq_of_lt h2, Nat.mod_eq_of_lt hn] at h1
  rw [← h1, ← hl, encNat_decNat]

theorem number_mark {w : Nat} (h0 : 0 < w) (hz : ∀ e e', (0 : UInt8) ∉ encNat e w (decNat e' (markOf w))) {e e' : Endian}
    {bs : Bytes} (hl : bs.length = w)
    (hd : BitVec.ofNat (8 * w) (decNat e bs) = BitVec.ofNat (8 * w) (decNat e' (markOf w))) : (0 : UInt8) ∉ bs := by
  have := decNat_lt e' (markOf w)
  rw [markOf_length h0] at this
  rw [bytes_of_number hl this hd]
  exact hz e e'

/-- Bytes with a zero never have the value of the mark. -/
theorem decode_mark (ty : STy) (h : Format.fixedTy ty = true) (al : Alloc) (e e' : Endian) (bs : Bytes)
    (hl : bs.length = (ty.storage al).memSize)
    (hd : Format.decode ty e bs = Format.decode ty e' (markOf (ty.storage al).memSize)) : (0 : UInt8) ∉ bs := by
  cases ty with
  | extended => cases h
  | string => cases h
  | bool =>
    replace hl : bs.length = 1 := hl
    match bs, hl with
    | [b], _ =>
      intro hb
      rw [← List.mem_singleton.mp hb] at hd
      replace hd : false = true := hd
      cases hd
  | complex32 =>
    replace hl : bs.length = 8 := hl
    have h1 := bytes_of_number (w := 4) (e := e) (bs := bs.take 4) (n := decNat e' ((markOf 8).take 4))
      (by rw [List.length_take]; omega) (by cases e' <;> decide) (congrArg Complex.real hd)
    have h2 := bytes_of_number (w := 4) (e := e) (bs := bs.drop 4) (n := decNat e' ((markOf 8).drop 4))
      (by rw [List.length_drop]; omega) (by cases e' <;> decide) (congrArg Complex.imaginary hd)
    rw [← List.take_append_drop 4 bs, h1, h2]
    cases e <;> cases e' <;> decide
  | complex64 =>
    replace hl : bs.length = 16 := hl
    have h1 := bytes_of_number (w := 8) (e := e) (bs := bs.take 8) (n := decNat e' ((markOf 16).take 8))
      (by rw [List.length_take]; omega) (by cases e' <;> decide) (congrArg Complex.real hd)
    have h2 := bytes_of_number (w := 8) (e := e) (bs := bs.drop 8) (n := decNat e' ((markOf 16).drop 8))
      (by rw [List.length_drop]; omega) (by cases e' <;> decide) (congrArg Complex.imaginary hd)
    rw [← List.take_append_drop 8 bs, h1, h2]
    cases e <;> cases e' <;> decide
  | i8 => exact number_mark (w := 1) (by decide) (by intro e e'; cases e <;> cases e' <;> decide) hl hd
  | u8 => exact number_mark (w := 1) (by decide) (by intro e e'; cases e <;> cases e' <;> decide) hl hd
  | i16 => exact number_mark (w := 2) (by decide) (by intro e e'; cases e <;> cases e' <;> decide) hl hd
  | u16 => exact number_mark (w := 2) (by decide) (by intro e e'; cases e <;> cases e' <;> decide) hl hd
  | i32 => exact number_mark (w := 4) (by decide) (by intro e e'; cases e <;> cases e' <;> decide) hl hd
  | u32 => exact number_mark (w := 4) (by decide) (by intro e e'; cases e <;> cases e' <;> decide) hl hd
  | f32 => exact number_mark (w := 4) (by decide) (by intro e e'; cases e <;> cases e' <;> decide) hl hd
  | i64 => exact number_mark (w := 8) (by decide) (by intro e e'; cases e <;> cases e' <;> decide) hl hd
  | u64 => exact number_mark (w := 8) (by decide) (by intro e e'; cases e <;> cases e' <;> decide) hl hd
  | f64 => exact number_mark (w := 8) (by decide) (by intro e e'; cases e <;> cases e' <;> decide) hl hd
  | timestamp => exact number_mark (w := 16) (by decide) (by intro e e'; cases e <;> cases e' <;> decide) hl hd

theorem decode_mark_order (ty : STy) (h : Format.fixedTy ty = true) (al : Alloc) (hw : (ty.storage al).memSize ≠ 1) :
    Format.decode ty .little (markOf (ty.storage al).memSize) ≠ Format.decode ty .big (markOf (ty.storage al).memSize) := by
  cases ty <;> first
    | (cases h; done)
    | (exact absurd rfl hw)
    | (intro hx; exact absurd hx (by simp only [STy.storage, numeric, timestampStorage, complexStorage]; decide))

/-- Byte `y` of the file is raw data. -/
def InRaw (segs : List Segment) (y : Nat) : Prop :=
  ∃ pre ∈ dataPrefixes segs, ∃ b ∈ blockOf pre, b.start ≤ y ∧ y < b.start + b.length

open Classical in
/-- The file with the mark at position `p`, and zeros in all other raw data. -/
noncomputable def marked (segs : List Segment) (f : Bytes) (p w : Nat) : Bytes :=
  f.mapIdx fun y b => if p ≤ y ∧ y < p + w then (markOf w).getD (y - p) 0 else if InRaw segs y then 0 else b

theorem marked_length (segs : List Segment) (f : Bytes) (p w : Nat) : (marked segs f p w).length = f.length := by
  unfold marked
  rw [List.length_mapIdx]

theorem marked_same {segs : List Segment} {f : Bytes} {p w : Nat} (h : ∀ y, p ≤ y → y < p + w → InRaw segs y) :
    SameMetaData segs f (marked segs f p w) := by
  refine ⟨(marked_length ..).symm, fun y hy => ?_⟩
  have hn : ¬ InRaw segs y := by
    rintro ⟨pre, hpre, b, hb, h1, h2⟩
    exact hy pre hpre b hb ⟨h1, h2⟩
  unfold marked
  rw [List.getElem?_mapIdx]
  cases f[y]? with
  | none => rfl
  | some b =>
    rw [Option.map_some, if_neg (fun hx => hn (h y hx.1 hx.2)), if_neg hn]

theorem marked_window {segs : List Segment} {f : Bytes} {p w : Nat} (hw : 0 < w) (h : p + w ≤ f.length) :
    ((marked segs f p w).drop p).take w = markOf w := by
  apply List.ext_getElem?
  intro j
  rw [List.getElem?_take]
  by_cases hj : j < w
  · rw [if_pos hj, List.getElem?_drop]
    unfold marked
    rw [List.getElem?_mapIdx, List.getElem?_eq_getElem (by omega : p + j < f.length), Option.map_some,
      if_pos (by omega), show p + j - p = j by omega, List.getD_eq_getElem?_getD,
      List.getElem?_eq_getElem (by rw [markOf_length hw]; exact hj), Option.getD_some]
  · rw [if_neg hj, List.getElem?_eq_none (by rw [markOf_length hw]; omega)]

/-- With the mark in its place, a cell has another value than every cell of raw data that is not the same. -/
theorem marked_differ {ty : STy} (h : Format.fixedTy ty = true) (al : Alloc) {segs : List Segment} {f : Bytes} {c d : Cell}
    (hin : c.2 + (ty.storage al).memSize ≤ f.length) (hd : d.2 + (ty.storage al).memSize ≤ f.length)
    (hraw : ∀ y, d.2 ≤ y → y < d.2 + (ty.storage al).memSize → InRaw segs y)
    (hs : ¬ Cell.Same (ty.storage al).memSize c d) :
    Cell.value (Format.decode ty) (ty.storage al).memSize (marked segs f c.2 (ty.storage al).memSize) d ≠
      Cell.value (Format.decode ty) (ty.storage al).memSize (marked segs f c.2 (ty.storage al).memSize) c := by
  obtain ⟨e, p⟩ := c
  obtain ⟨e', q⟩ := d
  have hw0 : 0 < (ty.storage al).memSize := (STy.reads_fixed al ty h).1.pos
  unfold Cell.Same at hs
  unfold Cell.value
  dsimp only at hs hin hd hraw ⊢
  rw [marked_window hw0 hin]
  by_cases hpq : p = q
  · subst hpq
    rw [marked_window hw0 hin]
    have := decode_mark_order ty h al (fun hw => hs ⟨rfl, Or.inr hw⟩)
    cases e <;> cases e'
    · exact absurd ⟨rfl, Or.inl rfl⟩ hs
    · exact fun hx => this hx.symm
    · exact this
    · exact absurd ⟨rfl, Or.inl rfl⟩ hs
  · intro hx
    refine decode_mark ty h al e' e _ ?_ hx ?_
    · rw [List.length_take, List.length_drop, marked_length]
      omega
    · -- one of the bytes of `d` is outside of `c`
      obtain ⟨y, hy1, hy2, hy3⟩ : ∃ y, q ≤ y ∧ y < q + (ty.storage al).memSize ∧
          ¬ (p ≤ y ∧ y < p + (ty.storage al).memSize) := by
        rcases Nat.lt_or_gt_of_ne hpq with hlt | hgt
        · exact ⟨q + (ty.storage al).memSize - 1, by omega, by omega, by omega⟩
        · exact ⟨q, by omega, by omega, by omega⟩
      apply List.mem_of_getElem? (i := y - q)
      rw [List.getElem?_take, if_pos (by omega), List.getElem?_drop, show q + (y - q) = y by omega]
      unfold marked
      rw [List.getElem?_mapIdx, List.getElem?_eq_getElem (by omega : y < f.length), Option.map_some, if_neg hy3,
        if_pos (hraw y hy1 hy2)]

end Tedium
