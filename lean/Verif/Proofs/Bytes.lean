import Verif.Model.Utf8

/-! # Helper lemmas: byte order, positions, readers, UTF-8 -/

namespace Tedium

/-! ## Byte order -/

@[simp] theorem length_leBytes (w n : Nat) : (leBytes w n).length = w := by
  induction w generalizing n with
  | zero => rfl
  | succ w ih => simp [leBytes, ih]

@[simp] theorem length_encNat (e : Endian) (w n : Nat) : (encNat e w n).length = w := by
  cases e <;> simp [encNat]

theorem leVal_leBytes (w n : Nat) : leVal (leBytes w n) = n % 256 ^ w := by
  induction w generalizing n with
  | zero => simp [leBytes, leVal, Nat.mod_one]
  | succ w ih =>
    simp only [leBytes, leVal, ih, UInt8.toNat_ofNat']
    have h := Nat.mod_mul (x := n) (a := 256) (b := 256 ^ w)
    rw [Nat.pow_succ (n := 256) (m := w), Nat.mul_comm (256 ^ w) 256, h]

theorem decNat_encNat (e : Endian) (w n : Nat) : decNat e (encNat e w n) = n % 256 ^ w := by
  cases e <;> simp [encNat, decNat, leVal_leBytes]

theorem leVal_lt (bs : Bytes) : leVal bs < 256 ^ bs.length := by
  induction bs with
  | nil => simp [leVal]
  | cons b bs ih =>
    simp only [leVal, List.length_cons, Nat.pow_succ]
    have := b.toNat_lt
    omega

theorem decNat_lt (e : Endian) (bs : Bytes) : decNat e bs < 256 ^ bs.length := by
  cases e
  · exact leVal_lt bs
  · have := leVal_lt bs.reverse
    simpa [decNat] using this

theorem leBytes_leVal (bs : Bytes) : leBytes bs.length (leVal bs) = bs := by
  induction bs with
  | nil => rfl
  | cons b bs ih =>
    simp only [leVal, List.length_cons, leBytes]
    have hb := b.toNat_lt
    have h1 : (b.toNat + 256 * leVal bs) / 256 = leVal bs := by omega
    have h2 : UInt8.ofNat (b.toNat + 256 * leVal bs) = b := by
      apply UInt8.toNat_inj.mp
      simp only [UInt8.toNat_ofNat']
      omega
    rw [h1, h2, ih]

theorem encNat_decNat (e : Endian) (bs : Bytes) : encNat e bs.length (decNat e bs) = bs := by
  cases e
  · exact leBytes_leVal bs
  · have := leBytes_leVal bs.reverse
    rw [List.length_reverse] at this
    simp only [encNat, decNat, this, List.reverse_reverse]

/-! ## Bytes at a position -/

/-- The bytes `bs` stand at position `p` of the file `f`. -/
def At (f : Bytes) (p : Nat) (bs : Bytes) : Prop := bs <+: f.drop p

theorem At.append {f : Bytes} {p : Nat} {a b : Bytes} :
    At f p (a ++ b) ↔ At f p a ∧ At f (p + a.length) b := by
  unfold At
  constructor
  · rintro ⟨t, ht⟩
    refine ⟨⟨b ++ t, by rw [← ht, List.append_assoc]⟩, ⟨t, ?_⟩⟩
    rw [← List.drop_drop, ← ht]
    simp
  · rintro ⟨⟨t, ht⟩, ⟨u, hu⟩⟩
    refine ⟨u, ?_⟩
    rw [← List.drop_drop, ← ht] at hu
    simp only [List.drop_left] at hu
    rw [← ht, ← hu, List.append_assoc]

theorem At.mid (pre bs post : Bytes) : At (pre ++ (bs ++ post)) pre.length bs := by
  unfold At
  simp

theorem At.le {f : Bytes} {p : Nat} {bs : Bytes} (h : At f p bs) (hn : bs ≠ []) :
    p + bs.length ≤ f.length := by
  have h1 := h.length_le
  rw [List.length_drop] at h1
  have : 0 < bs.length := List.length_pos_iff.mpr hn
  omega

theorem At.take_drop {f : Bytes} {p : Nat} {bs : Bytes} (h : At f p bs) :
    (f.drop p).take bs.length = bs := by
  obtain ⟨t, ht⟩ := h
  rw [← ht]; simp

theorem At.nil (f : Bytes) (p : Nat) : At f p [] := List.nil_prefix

theorem At.extend {f g : Bytes} {p : Nat} {bs : Bytes} (h : At f p bs) : At (f ++ g) p bs := by
  unfold At at *
  rw [List.drop_append]
  exact h.trans (List.prefix_append _ _)

/-! ## Readers -/

theorem Rd.bind_ok {α β : Type} {x : Rd α} {k : α → Rd β} {f : Bytes} {p q : Nat} {a : α}
    (h : x f p = .ok (a, q)) : (x >>= k) f p = k a f q := by
  show Rd.bind x k f p = _
  simp [Rd.bind, h]

theorem Rd.bind_error {α β : Type} {x : Rd α} {k : α → Rd β} {f : Bytes} {p : Nat} {e : Fail}
    (h : x f p = .error e) : (x >>= k) f p = .error e := by
  show Rd.bind x k f p = _
  simp [Rd.bind, h]

theorem Rd.bind_eq {α β : Type} (x : Rd α) (k : α → Rd β) (f : Bytes) (p : Nat) :
    (x >>= k) f p = match x f p with
      | .ok (a, q) => k a f q
      | .error e => .error e := rfl

@[simp] theorem Rd.pure_apply {α : Type} (a : α) (f : Bytes) (p : Nat) :
    (Pure.pure a : Rd α) f p = .ok (a, p) := rfl

@[simp] theorem Rd.pure_apply' {α : Type} (a : α) (f : Bytes) (p : Nat) :
    (Rd.pure a) f p = .ok (a, p) := rfl

/-- The reading action `x` turns the bytes `bs` into `a`, wherever they stand. -/
def Reads {α : Type} (x : Rd α) (bs : Bytes) (a : α) : Prop :=
  ∀ f p, At f p bs → x f p = .ok (a, p + bs.length)

theorem Reads.pure {α : Type} (a : α) : Reads (Pure.pure a : Rd α) [] a := by
  intro f p _; rfl

theorem Reads.bind {α β : Type} {x : Rd α} {k : α → Rd β} {bs cs : Bytes} {a : α} {b : β}
    (h1 : Reads x bs a) (h2 : Reads (k a) cs b) : Reads (x >>= k) (bs ++ cs) b := by
  intro f p h
  obtain ⟨ha, hb⟩ := At.append.mp h
  rw [Rd.bind_ok (h1 f p ha), h2 f _ hb]
  simp [Nat.add_assoc]

theorem Reads.bind_pure {α β : Type} {x : Rd α} {k : α → Rd β} {bs : Bytes} {a : α} {b : β}
    (h1 : Reads x bs a) (h2 : Reads (k a) [] b) : Reads (x >>= k) bs b := by
  have := Reads.bind h1 h2
  simpa using this

theorem Reads.exact (bs : Bytes) : Reads (Rd.exact bs.length) bs bs := by
  intro f p h
  unfold Rd.exact
  have : bs.length = 0 ∨ p + bs.length ≤ f.length := by
    by_cases hn : bs = []
    · left; simp [hn]
    · right; exact h.le hn
  rw [if_pos this, h.take_drop]

theorem Reads.exact' {n : Nat} {bs : Bytes} (h : bs.length = n) : Reads (Rd.exact n) bs bs := by
  subst h; exact Reads.exact bs

theorem Reads.uint (e : Endian) (w n : Nat) (h : n < 256 ^ w) :
    Reads (Rd.uint e w) (encNat e w n) n := by
  unfold Rd.uint
  refine Reads.bind_pure (Reads.exact' (length_encNat e w n)) ?_
  rw [decNat_encNat, Nat.mod_eq_of_lt h]
  exact Reads.pure n

/-- What happens on input that is too short. -/
theorem Rd.exact_eof {n : Nat} {f : Bytes} {p : Nat} (hn : 0 < n) (h : f.length < p + n) :
    Rd.exact n f p = R.err (.ioError .unexpectedEof) := by
  unfold Rd.exact
  rw [if_neg (by omega)]

theorem Rd.exact_ok {n : Nat} {f : Bytes} {p : Nat} {b : Bytes} {q : Nat}
    (h : Rd.exact n f p = .ok (b, q)) :
    q = p + n ∧ b = (f.drop p).take n ∧ b.length = n ∧ (0 < n → p + n ≤ f.length) := by
  unfold Rd.exact at h
  split at h
  · rename_i hc
    simp only [Except.ok.injEq, Prod.mk.injEq] at h
    obtain ⟨rfl, rfl⟩ := h
    refine ⟨rfl, rfl, ?_, by omega⟩
    simp only [List.length_take, List.length_drop]
    omega
  · cases h

/-! ## UTF-8 -/

theorem Char.valid_cases (c : Char) : c.toNat < 0xD800 ∨ (0xDFFF < c.toNat ∧ c.toNat < 0x110000) := by
  have := c.valid
  exact this

theorem Char.ofNat_toNat' (c : Char) : Char.ofNat c.toNat = c := by
  simp

theorem isCont_ofNat (n : Nat) : isCont (UInt8.ofNat (0x80 + n % 64)) = true := by
  unfold isCont
  simp only [UInt8.toNat_ofNat', Bool.and_eq_true, decide_eq_true_eq]
  omega

theorem utf8Dec_append_encChar (c : Char) (rest : Bytes) :
    utf8Dec (utf8EncChar c ++ rest) = (utf8Dec rest).map (c :: ·) := by
  have hv := Char.valid_cases c
  have hc := Char.ofNat_toNat' c
  unfold utf8EncChar
  dsimp only
  split
  · rename_i h
    simp only [List.cons_append, List.nil_append]
    rw [utf8Dec.eq_def]
    have : (UInt8.ofNat c.toNat).toNat = c.toNat := by simp only [UInt8.toNat_ofNat']; omega
    simp only [this, h, if_true, hc]
  · split
    · rename_i h1 h2
      simp only [List.cons_append, List.nil_append]
      rw [utf8Dec]
      have e0 : (UInt8.ofNat (0xC0 + c.toNat / 64)).toNat = 0xC0 + c.toNat / 64 := by
        simp only [UInt8.toNat_ofNat']; omega
      have e1 : (UInt8.ofNat (0x80 + c.toNat % 64)).toNat = 0x80 + c.toNat % 64 := by
        simp only [UInt8.toNat_ofNat']; omega
      simp only [e0, e1, isCont_ofNat]
      have a1 : ¬ (0xC0 + c.toNat / 64 < 0x80) := by omega
      have a2 : (decide (0xC2 ≤ 0xC0 + c.toNat / 64) && decide (0xC0 + c.toNat / 64 < 0xE0)) = true := by
        simp only [Bool.and_eq_true, decide_eq_true_eq]; omega
      have a3 : (0xC0 + c.toNat / 64 - 0xC0) * 64 + (0x80 + c.toNat % 64 - 0x80) = c.toNat := by omega
      simp only [a1, a2, a3, if_true, if_false, hc]
    · split
      · rename_i h1 h2 h3
        simp only [List.cons_append, List.nil_append]
        rw [utf8Dec]
        have e0 : (UInt8.ofNat (0xE0 + c.toNat / 4096)).toNat = 0xE0 + c.toNat / 4096 := by
          simp only [UInt8.toNat_ofNat']; omega
        have e1 : (UInt8.ofNat (0x80 + c.toNat / 64 % 64)).toNat = 0x80 + c.toNat / 64 % 64 := by
          simp only [UInt8.toNat_ofNat']; omega
        have e2 : (UInt8.ofNat (0x80 + c.toNat % 64)).toNat = 0x80 + c.toNat % 64 := by
          simp only [UInt8.toNat_ofNat']; omega
        simp only [e0, e1, e2, isCont_ofNat]
        have a1 : ¬ (0xE0 + c.toNat / 4096 < 0x80) := by omega
        have a2 : (decide (0xC2 ≤ 0xE0 + c.toNat / 4096) && decide (0xE0 + c.toNat / 4096 < 0xE0)) = false := by
          simp only [Bool.and_eq_false_iff, decide_eq_false_iff_not]; omega
        have a3 : (decide (0xE0 ≤ 0xE0 + c.toNat / 4096) && decide (0xE0 + c.toNat / 4096 < 0xF0)) = true := by
          simp only [Bool.and_eq_true, decide_eq_true_eq]; omega
        have a4 : (0xE0 + c.toNat / 4096 - 0xE0) * 4096 + (0x80 + c.toNat / 64 % 64 - 0x80) * 64
            + (0x80 + c.toNat % 64 - 0x80) = c.toNat := by omega
        have a5 : (true && true && decide (0x800 ≤ c.toNat) &&
            !(decide (0xD800 ≤ c.toNat) && decide (c.toNat < 0xE000))) = true := by
          simp only [Bool.and_eq_true, Bool.not_eq_true', Bool.and_eq_false_iff,
            decide_eq_true_eq, decide_eq_false_iff_not]
          refine ⟨⟨⟨trivial, trivial⟩, ?_⟩, ?_⟩ <;> omega
        simp only [a1, a2, a3, a4, a5, if_true, if_false, hc, Bool.false_eq_true]
      · rename_i h1 h2 h3
        simp only [List.cons_append, List.nil_append]
        rw [utf8Dec]
        have e0 : (UInt8.ofNat (0xF0 + c.toNat / 262144)).toNat = 0xF0 + c.toNat / 262144 := by
          simp only [UInt8.toNat_ofNat']; omega
        have e1 : (UInt8.ofNat (0x80 + c.toNat / 4096 % 64)).toNat = 0x80 + c.toNat / 4096 % 64 := by
          simp only [UInt8.toNat_ofNat']; omega
        have e2 : (UInt8.ofNat (0x80 + c.toNat / 64 % 64)).toNat = 0x80 + c.toNat / 64 % 64 := by
          simp only [UInt8.toNat_ofNat']; omega
        have e3 : (UInt8.ofNat (0x80 + c.toNat % 64)).toNat = 0x80 + c.toNat % 64 := by
          simp only [UInt8.toNat_ofNat']; omega
        simp only [e0, e1, e2, e3, isCont_ofNat]
        have a1 : ¬ (0xF0 + c.toNat / 262144 < 0x80) := by omega
        have a2 : (decide (0xC2 ≤ 0xF0 + c.toNat / 262144) && decide (0xF0 + c.toNat / 262144 < 0xE0)) = false := by
          simp only [Bool.and_eq_false_iff, decide_eq_false_iff_not]; omega
        have a3 : (decide (0xE0 ≤ 0xF0 + c.toNat / 262144) && decide (0xF0 + c.toNat / 262144 < 0xF0)) = false := by
          simp only [Bool.and_eq_false_iff, decide_eq_false_iff_not]; omega
        have a4 : (0xF0 + c.toNat / 262144 - 0xF0) * 262144 + (0x80 + c.toNat / 4096 % 64 - 0x80) * 4096
            + (0x80 + c.toNat / 64 % 64 - 0x80) * 64
            + (0x80 + c.toNat % 64 - 0x80) = c.toNat := by omega
        have a5 : (decide (0xF0 ≤ 0xF0 + c.toNat / 262144) && decide (0xF0 + c.toNat / 262144 < 0xF8) &&
            true && true && true && decide (0x10000 ≤ c.toNat) && decide (c.toNat < 0x110000)) = true := by
          simp only [Bool.and_eq_true, decide_eq_true_eq]
          refine ⟨⟨⟨⟨⟨⟨?_, ?_⟩, trivial⟩, trivial⟩, trivial⟩, ?_⟩, ?_⟩ <;> omega
        simp only [a1, a2, a3, a4, a5, if_true, if_false, hc, Bool.false_eq_true]

theorem utf8Dec_utf8Enc (t : Text) : utf8Dec (utf8Enc t) = some t := by
  induction t with
  | nil => rfl
  | cons c cs ih => rw [utf8Enc, utf8Dec_append_encChar, ih]; rfl

end Tedium

namespace Tedium

theorem toNat_charOfNat {n : Nat} (h : n < 0xD800 ∨ (0xDFFF < n ∧ n < 0x110000)) :
    (Char.ofNat n).toNat = n := by
  have hv : n.isValidChar := h
  unfold Char.ofNat
  rw [dif_pos hv]
  simp [Char.toNat, Char.ofNatAux]

theorem ofNat_toNat_uint8 (b : UInt8) {n : Nat} (h : n = b.toNat) : UInt8.ofNat n = b := by
  subst h; simp

theorem utf8Enc_of_utf8Dec (bs : Bytes) (t : Text) (h : utf8Dec bs = some t) : utf8Enc t = bs := by
  fun_induction utf8Dec bs generalizing t with
  | case1 => simp at h; subst h; rfl
  | case2 b0 t0 n0 hn ih =>
    simp only [Option.map_eq_some_iff] at h
    obtain ⟨s, hs, rfl⟩ := h
    rw [utf8Enc, ih s hs, utf8EncChar]
    rw [toNat_charOfNat (by omega), if_pos hn, ofNat_toNat_uint8 b0 rfl]
    rfl
  | case3 => simp at h
  | case4 b0 n0 hn b1 t1 n1 h2 hc ih =>
    simp only [Option.map_eq_some_iff] at h
    obtain ⟨s, hs, rfl⟩ := h
    simp only [Bool.and_eq_true, decide_eq_true_eq] at h2
    simp only [isCont, Bool.and_eq_true, decide_eq_true_eq] at hc
    have e0 : n0 = b0.toNat := rfl
    have e1 : n1 = b1.toNat := rfl
    rw [utf8Enc, ih s hs, utf8EncChar]
    rw [toNat_charOfNat (by omega), if_neg (by omega), if_pos (by omega),
      ofNat_toNat_uint8 b0 (by omega), ofNat_toNat_uint8 b1 (by omega)]
    rfl
  | case5 => simp at h
  | case6 => simp at h
  | case7 b0 n0 hn b1 n1 h2 b2 t2 n2 h3 n hc ih =>
    simp only [Option.map_eq_some_iff] at h
    obtain ⟨s, hs, rfl⟩ := h
    simp only [Bool.and_eq_true, decide_eq_true_eq] at h3
    simp only [isCont, Bool.and_eq_true, decide_eq_true_eq, Bool.not_eq_true',
      Bool.and_eq_false_iff, decide_eq_false_iff_not] at hc
    have e0 : n0 = b0.toNat := rfl
    have e1 : n1 = b1.toNat := rfl
    have e2 : n2 = b2.toNat := rfl
    have en : n = (n0 - 0xE0) * 4096 + (n1 - 0x80) * 64 + (n2 - 0x80) := rfl
    rw [utf8Enc, ih s hs, utf8EncChar]
    rw [toNat_charOfNat (by omega), if_neg (by omega), if_neg (by omega), if_pos (by omega),
      ofNat_toNat_uint8 b0 (by omega), ofNat_toNat_uint8 b1 (by omega),
      ofNat_toNat_uint8 b2 (by omega)]
    rfl
  | case8 => simp at h
  | case9 => simp at h
  | case10 b0 n0 hn b1 n1 h2 b2 n2 h3 b3 t3 n3 n hc ih =>
    simp only [Option.map_eq_some_iff] at h
    obtain ⟨s, hs, rfl⟩ := h
    simp only [isCont, Bool.and_eq_true, decide_eq_true_eq] at hc
    have e0 : n0 = b0.toNat := rfl
    have e1 : n1 = b1.toNat := rfl
    have e2 : n2 = b2.toNat := rfl
    have e3 : n3 = b3.toNat := rfl
    have en : n = (n0 - 0xF0) * 262144 + (n1 - 0x80) * 4096 + (n2 - 0x80) * 64 + (n3 - 0x80) := rfl
    rw [utf8Enc, ih s hs, utf8EncChar]
    rw [toNat_charOfNat (by omega), if_neg (by omega), if_neg (by omega), if_neg (by omega),
      ofNat_toNat_uint8 b0 (by omega), ofNat_toNat_uint8 b1 (by omega),
      ofNat_toNat_uint8 b2 (by omega), ofNat_toNat_uint8 b3 (by omega)]
    rfl
  | case11 => simp at h

/-- The decoder accepts exactly the UTF-8 encodings. -/
theorem utf8Dec_eq_some {bs : Bytes} {t : Text} : utf8Dec bs = some t ↔ bs = utf8Enc t :=
  ⟨fun h => (utf8Enc_of_utf8Dec bs t h).symm, fun h => h ▸ utf8Dec_utf8Enc t⟩

theorem utf8Dec_eq_none {bs : Bytes} : utf8Dec bs = none ↔ ∀ t, bs ≠ utf8Enc t := by
  constructor
  · intro h t ht
    rw [utf8Dec_eq_some.mpr ht] at h
    cases h
  · intro h
    cases hd : utf8Dec bs with
    | none => rfl
    | some t => exact absurd (utf8Dec_eq_some.mp hd) (h t)

end Tedium
