import Verif.Proofs.Open

/-! # Data in place of metadata

A metadata section that consists of the byte 1 only cannot be read: it announces 16843009 objects, and the
first one has a name of as many bytes and an index of unknown data type. -/

namespace Tedium
open SegSpec

/-- From position `p` to its end the file holds nothing but the byte 1. -/
def Ones (f : Bytes) (p : Nat) : Prop := ∀ x ∈ f.drop p, x = 1

theorem Ones.later {f : Bytes} {p q : Nat} (h : Ones f p) (hq : p ≤ q) : Ones f q := by
  intro x hx
  obtain ⟨k, rfl⟩ := Nat.exists_eq_add_of_le hq
  rw [← List.drop_drop] at hx
  exact h x (List.mem_of_mem_drop hx)

theorem rd_bind_inv {α β : Type} {x : Rd α} {k : α → Rd β} {f : Bytes} {p : Nat} {r : β × Nat}
    (h : (x >>= k) f p = .ok r) : ∃ a q, x f p = .ok (a, q) ∧ k a f q = .ok r := by
  change Rd.bind x k f p = _ at h
  unfold Rd.bind at h
  cases hx : x f p with
  | error e => rw [hx] at h; cases h
  | ok v => rw [hx] at h; exact ⟨v.1, v.2, rfl, h⟩

theorem exact_inv {n : Nat} {f : Bytes} {p : Nat} {r : Bytes × Nat} (h : Rd.exact n f p = .ok r) :
    r = ((f.drop p).take n, p + n) ∧ (n = 0 ∨ p + n ≤ f.length) := by
  unfold Rd.exact at h
  split at h
  · exact ⟨(Except.ok.inj h).symm, by assumption⟩
  · cases h

theorem uint_inv {e : Endian} {w : Nat} {f : Bytes} {p : Nat} {r : Nat × Nat} (h : Rd.uint e w f p = .ok r) :
    r = (decNat e ((f.drop p).take w), p + w) ∧ (w = 0 ∨ p + w ≤ f.length) := by
  unfold Rd.uint at h
  obtain ⟨b, q, h1, h2⟩ := rd_bind_inv h
  obtain ⟨h3, h4⟩ := exact_inv h1
  cases h3
  exact ⟨(Except.ok.inj h2).symm, h4⟩

theorem Ones.uint {e : Endian} {f : Bytes} {p : Nat} {r : Nat × Nat} (ho : Ones f p)
    (h : Rd.uint e 4 f p = .ok r) : r = (16843009, p + 4) := by
  obtain ⟨h1, h2⟩ := uint_inv h
  have h3 : (f.drop p).take 4 = [1, 1, 1, 1] := by
    have hl : ((f.drop p).take 4).length = 4 := by
      rw [List.length_take, List.length_drop]
      rcases h2 with h2 | h2
      · cases h2
      · omega
    have := List.eq_replicate_of_mem (l := (f.drop p).take 4) (a := (1 : UInt8))
      (fun x hx => ho x (List.mem_of_mem_take hx))
    rw [hl] at this
    exact this
  rw [h1, h3]
  cases e <;> rfl

theorem Ones.index {e : Endian} {f : Bytes} {p : Nat} {r : RawDataIndex × Nat} (ho : Ones f p)
    (h : RawDataIndex.read e f p = .ok r) : False := by
  unfold RawDataIndex.read at h
  obtain ⟨a, q, h1, h2⟩ := rd_bind_inv h
  cases ho.uint h1
  rw [if_neg (by decide), if_neg (by decide), if_neg (by decide), if_neg (by decide)] at h2
  obtain ⟨a, q, h3, _⟩ := rd_bind_inv h2
  unfold readDataType at h3
  obtain ⟨b, q', h4, h5⟩ := rd_bind_inv h3
  cases (ho.later (Nat.le_add_right _ _)).uint h4
  cases h5

theorem Ones.object {al : Alloc} {e : Endian} {f : Bytes} {p : Nat} {r : ObjectMetaData × Nat} (ho : Ones f p)
    (h : ObjectMetaData.read al e f p = .ok r) : False := by
  unfold ObjectMetaData.read at h
  obtain ⟨path, q, h1, h2⟩ := rd_bind_inv h
  obtain ⟨ix, q2, h3, _⟩ := rd_bind_inv h2
  refine Ones.index (ho.later ?_) h3
  unfold readText stringStorage at h1
  obtain ⟨n, q1, h4, h5⟩ := rd_bind_inv h1
  have h6 := (uint_inv h4).1
  have h7 : q1 = p + 4 := congrArg Prod.snd h6
  unfold readStringWithLength at h5
  by_cases hal : al (.str n) = true
  rotate_left
  · rw [if_neg hal] at h5; cases h5
  · rw [if_pos hal] at h5
    obtain ⟨b, q4, h8, h9⟩ := rd_bind_inv h5
    have h10 : q4 = q1 + n := congrArg Prod.snd (exact_inv h8).1
    cases hu : utf8Dec b with
    | none => rw [hu] at h9; cases h9
    | some t =>
      rw [hu] at h9
      have h11 : q4 = q := congrArg Prod.snd (Except.ok.inj h9)
      omega

theorem Ones.metaData {al : Alloc} {e : Endian} {f : Bytes} {p : Nat} {r : MetaData × Nat} (ho : Ones f p)
    (h : MetaData.read al e f p = .ok r) : False := by
  unfold MetaData.read at h
  obtain ⟨n, q, h1, h2⟩ := rd_bind_inv h
  cases ho.uint h1
  split at h2
  · obtain ⟨os, q2, h3, _⟩ := rd_bind_inv h2
    obtain ⟨o, q3, h4, _⟩ := rd_bind_inv h3
    exact Ones.object (ho.later (Nat.le_add_right _ _)) h4
  · cases h2

theorem Ones.segment {al : Alloc} {f : Bytes} {p : Nat} (ho : Ones f (p + 28)) :
    ∃ last, Segment.read al f p = .error last := by
  cases h : Segment.read al f p with
  | error last => exact ⟨last, rfl⟩
  | ok r =>
    exfalso
    unfold Segment.read at h
    split at h
    · cases h
    · cases h
    · next tag q hx =>
      have h1 : q = p + 4 := congrArg Prod.snd (exact_inv hx).1
      split at h
      · cases h
      · obtain ⟨buf, q2, h2, h3⟩ := rd_bind_inv h
        have h4 : q2 = q + 4 := congrArg Prod.snd (exact_inv h2).1
        unfold Segment.readSegment at h3
        obtain ⟨v, q3, h5, h6⟩ := rd_bind_inv h3
        have h7 : q3 = q2 + 4 := congrArg Prod.snd (uint_inv h5).1
        obtain ⟨v, q4, h8, h9⟩ := rd_bind_inv h6
        have h10 : q4 = q3 + 8 := congrArg Prod.snd (uint_inv h8).1
        obtain ⟨v, q5, h11, h12⟩ := rd_bind_inv h9
        have h13 : q5 = q4 + 8 := congrArg Prod.snd (uint_inv h11).1
        obtain ⟨m, q6, h14, _⟩ := rd_bind_inv h12
        refine Ones.metaData ?_ h14
        have : q5 = p + 28 := by omega
        rw [this]
        exact ho

theorem replicate_ones {l : Bytes} (n : Nat) (h : l = List.replicate n 1) : ∀ x ∈ l, x = 1 := by
  subst h
  exact fun x hx => List.eq_of_mem_replicate hx

/-- Every type of fixed size has a value that is stored as ones. -/
theorem STy.ones (al : Alloc) {ty : STy} (hs : ty ≠ .string) :
    ∃ v : ty.Val, ∀ e, ∀ x ∈ (ty.storage al).write e v, x = 1 := by
  cases ty
  case string => exact absurd rfl hs
  case bool => exact ⟨(true : Bool), fun e => replicate_ones 1 (by cases e <;> rfl)⟩
  case complex32 => exact ⟨(⟨0x01010101, 0x01010101⟩ : Complex (BitVec 32)), fun e => replicate_ones 8 (by cases e <;> rfl)⟩
  case complex64 => exact ⟨(⟨0x0101010101010101, 0x0101010101010101⟩ : Complex (BitVec 64)), fun e => replicate_ones 16 (by cases e <;> rfl)⟩
  case i8 => exact ⟨(1 : BitVec 8), fun e => replicate_ones 1 (by cases e <;> rfl)⟩
  case u8 => exact ⟨(1 : BitVec 8), fun e => replicate_ones 1 (by cases e <;> rfl)⟩
  case i16 => exact ⟨(0x0101 : BitVec 16), fun e => replicate_ones 2 (by cases e <;> rfl)⟩
  case u16 => exact ⟨(0x0101 : BitVec 16), fun e => replicate_ones 2 (by cases e <;> rfl)⟩
  case i32 => exact ⟨(0x01010101 : BitVec 32), fun e => replicate_ones 4 (by cases e <;> rfl)⟩
  case u32 => exact ⟨(0x01010101 : BitVec 32), fun e => replicate_ones 4 (by cases e <;> rfl)⟩
  case f32 => exact ⟨(0x01010101 : BitVec 32), fun e => replicate_ones 4 (by cases e <;> rfl)⟩
  case i64 => exact ⟨(0x0101010101010101 : BitVec 64), fun e => replicate_ones 8 (by cases e <;> rfl)⟩
  case u64 => exact ⟨(0x0101010101010101 : BitVec 64), fun e => replicate_ones 8 (by cases e <;> rfl)⟩
  case f64 => exact ⟨(0x0101010101010101 : BitVec 64), fun e => replicate_ones 8 (by cases e <;> rfl)⟩
  case extended => exact ⟨(0x01010101010101010101010101010101 : BitVec 128), fun e => replicate_ones 10 (by cases e <;> rfl)⟩
  case timestamp => exact ⟨(0x01010101010101010101010101010101 : BitVec 128), fun e => replicate_ones 16 (by cases e <;> rfl)⟩

end Tedium
