import Verif.Model.SMap
import Verif.Model.Utf8

/-! # The order of texts

Rust orders strings by their UTF-8 bytes. The model orders texts by code points; the two orders are the
same. -/

namespace Tedium

/-- Lexicographic comparison of byte strings (`Ord for [u8]`, and so `Ord for str`). -/
def bytesCmp : Bytes → Bytes → Ordering
  | [], [] => .eq
  | [], _ :: _ => .lt
  | _ :: _, [] => .gt
  | a :: as, b :: bs =>
    if a.toNat < b.toNat then .lt
    else if b.toNat < a.toNat then .gt
    else bytesCmp as bs

theorem bytesCmp_append (x y z : Bytes) : bytesCmp (x ++ y) (x ++ z) = bytesCmp y z := by
  induction x with
  | nil => rfl
  | cons a x ih =>
    show (if a.toNat < a.toNat then Ordering.lt else if a.toNat < a.toNat then .gt else bytesCmp (x ++ y) (x ++ z)) = _
    rw [if_neg (Nat.lt_irrefl _), if_neg (Nat.lt_irrefl _), ih]

theorem bytesCmp_swap : ∀ x y : Bytes, bytesCmp y x = (bytesCmp x y).swap
  | [], [] => rfl
  | [], _ :: _ => rfl
  | _ :: _, [] => rfl
  | a :: x, b :: y => by
    unfold bytesCmp
    by_cases h1 : a.toNat < b.toNat
    · rw [if_pos h1, if_neg (by omega), if_pos h1]; rfl
    · by_cases h2 : b.toNat < a.toNat
      · rw [if_pos h2, if_neg h1, if_pos h2]; rfl
      · rw [if_neg h1, if_neg h2, if_neg h1, if_neg h2, bytesCmp_swap x y]

theorem char_bound (c : Char) : c.toNat < 0x110000 := by
  have h := c.valid
  simp only [UInt32.isValidChar, Nat.isValidChar] at h
  show c.val.toNat < _
  omega

theorem bytesCmp_char {c d : Char} (h : c.toNat < d.toNat) (x y : Bytes) :
    bytesCmp (utf8EncChar c ++ x) (utf8EncChar d ++ y) = .lt := by
  have hd := char_bound d
  unfold utf8EncChar
  generalize c.toNat = n at *
  generalize d.toNat = m at *
  dsimp only
  split <;> split <;> (try split) <;> (try split) <;> (try split) <;> (try split) <;>
    (first | omega | skip) <;>
    simp only [List.cons_append, List.nil_append, bytesCmp, UInt8.toNat_ofNat'] <;>
    (repeat' split) <;> first | rfl | omega

/-- The order of the model is the order of the UTF-8 bytes. -/
theorem utf8_order : ∀ a b : Text, textCmp a b = bytesCmp (utf8Enc a) (utf8Enc b)
  | [], [] => rfl
  | [], c :: b => by
    show Ordering.lt = bytesCmp [] (utf8EncChar c ++ utf8Enc b)
    unfold utf8EncChar
    dsimp only
    repeat' split
    all_goals rfl
  | c :: a, [] => by
    show Ordering.gt = bytesCmp (utf8EncChar c ++ utf8Enc a) []
    unfold utf8EncChar
    dsimp only
    repeat' split
    all_goals rfl
  | c :: a, d :: b => by
    show (if c.toNat < d.toNat then Ordering.lt else if d.toNat < c.toNat then .gt else textCmp a b)
      = bytesCmp (utf8EncChar c ++ utf8Enc a) (utf8EncChar d ++ utf8Enc b)
    by_cases h1 : c.toNat < d.toNat
    · rw [if_pos h1, bytesCmp_char h1]
    · by_cases h2 : d.toNat < c.toNat
      · rw [if_neg h1, if_pos h2, bytesCmp_swap, bytesCmp_char h2]; rfl
      · rw [if_neg h1, if_neg h2]
        have hcd : c = d := by
          have hn : c.toNat = d.toNat := by omega
          rw [← Char.ofNat_toNat c, ← Char.ofNat_toNat d, hn]
        rw [hcd, bytesCmp_append, utf8_order a b]

end Tedium
