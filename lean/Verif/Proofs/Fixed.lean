import Verif.Proofs.BlockRead
import Verif.Proofs.Codec

/-! # The storage types whose values have a fixed size -/

namespace Tedium

theorem take_drop_take (f : Bytes) (p a b : Nat) :
    ((f.drop p).take (a + b)).take a = (f.drop p).take a ∧
    ((f.drop p).take (a + b)).drop a = (f.drop (p + a)).take b := by
  constructor
  · rw [List.take_take, Nat.min_eq_left (by omega)]
  · rw [List.drop_take, List.drop_drop, Nat.add_sub_cancel_left]

theorem exact_reads {w : Nat} {f : Bytes} {p : Nat} (h : p + w ≤ f.length) :
    Rd.exact w f p = .ok ((f.drop p).take w, p + w) := by
  unfold Rd.exact
  rw [if_pos (Or.inr h)]

theorem numeric_reads (w : Nat) (n : DataType) (sup : List DataType) (e : Endian) (f : Bytes) (p : Nat)
    (h : p + w ≤ f.length) :
    (numeric w n sup).read e f p = .ok (BitVec.ofNat (8 * w) (decNat e ((f.drop p).take w)), p + w) := by
  show (Rd.exact w >>= fun b => pure (BitVec.ofNat (8 * w) (decNat e b))) f p = _
  rw [Rd.bind_ok (exact_reads h)]
  rfl

theorem numeric_fixed {w : Nat} (n : DataType) {sup : List DataType} (hw : 0 < w)
    (h : ∀ dt ∈ sup, dt.size = w ∧ Format.ordinary dt = true) :
    (numeric w n sup).Fixed (fun e bs => BitVec.ofNat (8 * w) (decNat e bs)) :=
  ⟨hw, h, fun e f p hp => numeric_reads _ _ _ e f p hp⟩

theorem complex_fixed {w : Nat} (t c : DataType) (hw : 0 < w)
    (h : t.size = w * 2 ∧ Format.ordinary t = true) :
    (complexStorage w t c).Fixed (fun e bs => ⟨BitVec.ofNat (8 * w) (decNat e (bs.take w)),
      BitVec.ofNat (8 * w) (decNat e (bs.drop w))⟩) := by
  refine ⟨?_, ?_, ?_⟩
  · show 0 < w * 2; omega
  · intro dt hdt
    rw [List.mem_singleton.mp hdt]
    exact h
  · intro e f p hp
    replace hp : p + w * 2 ≤ f.length := hp
    show (((numeric w c [c]).read e >>= fun r => (numeric w c [c]).read e >>= fun i =>
      pure (⟨r, i⟩ : Complex (BitVec (8 * w)))) : Rd _) f p = _
    rw [Rd.bind_ok (numeric_reads _ _ _ _ _ _ (by omega)), Rd.bind_ok (numeric_reads _ _ _ _ _ _ (by omega))]
    have := take_drop_take f p w w
    rw [show w + w = w * 2 by omega] at this
    show _ = Except.ok ((⟨BitVec.ofNat (8 * w) (decNat e (((f.drop p).take (w * 2)).take w)),
      BitVec.ofNat (8 * w) (decNat e (((f.drop p).take (w * 2)).drop w))⟩ : Complex (BitVec (8 * w))), p + w * 2)
    rw [this.1, this.2, Nat.add_assoc, show w + w = w * 2 by omega]
    rfl

theorem bool_fixed : boolStorage.Fixed (fun _ bs => bs.headD 0 != 0) := by
  refine ⟨by decide, by decide, fun e f p hp => ?_⟩
  replace hp : p + 1 ≤ f.length := hp
  show ((Rd.exact 1 >>= fun b => pure ((b.headD 0) != 0)) : Rd _) f p = _
  rw [Rd.bind_ok (exact_reads hp)]
  rfl

theorem STy.fixed (al : Alloc) (t : STy) (h : Format.ordinaryTy t = true) :
    (t.storage al).Fixed (Format.decode t) := by
  cases t <;> first
    | (cases h; done)
    | exact numeric_fixed _ (by decide) (by decide)
    | exact complex_fixed _ _ (by decide) (by decide)
    | exact bool_fixed

/-- the natural type is supported -/
theorem STy.natural_mem (al : Alloc) (t : STy) : (t.storage al).natural ∈ (t.storage al).supported := by
  cases t <;> simp [STy.storage, numeric, boolStorage, extendedStorage, timestampStorage, complexStorage, stringStorage]

theorem numeric_write_decode (w : Nat) (e : Endian) (v : BitVec (8 * w)) :
    BitVec.ofNat (8 * w) (decNat e (encNat e w v.toNat)) = v := by
  rw [decNat_encNat, pow256, Nat.mod_eq_of_lt v.isLt]
  simp

theorem STy.decode_write (al : Alloc) (t : STy) (h : Format.ordinaryTy t = true) (e : Endian) (v : t.Val) :
    Format.decode t e ((t.storage al).write e v) = v := by
  cases t <;> first
    | (cases h; done)
    | exact numeric_write_decode 1 e v
    | exact numeric_write_decode 2 e v
    | exact numeric_write_decode 4 e v
    | exact numeric_write_decode 8 e v
    | skip
  · -- bool
    cases v <;> rfl
  · show (⟨BitVec.ofNat (8 * 4) (decNat e ((encNat e 4 v.real.toNat ++ encNat e 4 v.imaginary.toNat).take 4)),
      BitVec.ofNat (8 * 4) (decNat e ((encNat e 4 v.real.toNat ++ encNat e 4 v.imaginary.toNat).drop 4))⟩
      : Complex (BitVec (8 * 4))) = v
    rw [List.take_left' (by simp), List.drop_left' (by simp), numeric_write_decode 4, numeric_write_decode 4]
    rfl
  · show (⟨BitVec.ofNat (8 * 8) (decNat e ((encNat e 8 v.real.toNat ++ encNat e 8 v.imaginary.toNat).take 8)),
      BitVec.ofNat (8 * 8) (decNat e ((encNat e 8 v.real.toNat ++ encNat e 8 v.imaginary.toNat).drop 8))⟩
      : Complex (BitVec (8 * 8))) = v
    rw [List.take_left' (by simp), List.drop_left' (by simp), numeric_write_decode 8, numeric_write_decode 8]
    rfl

theorem STy.length_write (al : Alloc) (t : STy) (h : Format.ordinaryTy t = true) (e : Endian) (v : t.Val) :
    ((t.storage al).write e v).length = (t.storage al).memSize := by
  rw [length_write_storage al al e t v]
  cases t <;> first | (cases h; done) | rfl

end Tedium
