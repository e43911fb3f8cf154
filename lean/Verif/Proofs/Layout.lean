import Verif.Spec.Layout
import Verif.Props.Codec
import Verif.Props.Reopen
import Verif.Proofs.Utf8Order

/-! # The layout of the format and the encoders -/

namespace Tedium
open Layout SegSpec WriteSpec

theorem utf8Enc_char (c : Char) : utf8EncChar c = String.utf8EncodeChar c := by
  have hc := char_bound c
  unfold utf8EncChar String.utf8EncodeChar
  show _ = (let v := c.toNat; _)
  dsimp only
  have e0 : c.val.toNat = c.toNat := rfl
  rw [e0]
  generalize c.toNat = n at *
  by_cases h1 : n < 0x80
  · rw [if_pos h1, if_pos (show n ≤ 127 by omega)]
  rw [if_neg h1, if_neg (show ¬ n ≤ 127 by omega)]
  by_cases h2 : n < 0x800
  · rw [if_pos h2, if_pos (show n ≤ 2047 by omega), show n / 64 % 32 = n / 64 by omega, Nat.add_comm 0xC0,
      Nat.add_comm 0x80]
  rw [if_neg h2, if_neg (show ¬ n ≤ 2047 by omega)]
  by_cases h3 : n < 0x10000
  · rw [if_pos h3, if_pos (show n ≤ 65535 by omega), show n / 4096 % 16 = n / 4096 by omega, Nat.add_comm 0xE0,
      Nat.add_comm 0x80, Nat.add_comm 0x80]
  rw [if_neg h3, if_neg (show ¬ n ≤ 65535 by omega), show n / 262144 % 8 = n / 262144 by omega, Nat.add_comm 0xF0,
    Nat.add_comm 0x80, Nat.add_comm 0x80, Nat.add_comm 0x80]

theorem utf8Enc_eq (t : Text) : utf8Enc t = utf8 t := by
  induction t with
  | nil => rfl
  | cons c t ih =>
    show utf8EncChar c ++ utf8Enc t = utf8 (c :: t)
    rw [utf8Enc_char, ih]
    rfl

theorem isNumber_iff (e : Endian) (w n : Nat) (bs : Bytes) : IsNumber e w n bs ↔ n < 256 ^ w ∧ bs = encNat e w n := by
  constructor
  · intro ⟨h, hl, hb⟩
    refine ⟨h, List.ext_getElem? fun i => ?_⟩
    obtain ⟨hl', hb'⟩ := isUInt_encNat e w n
    by_cases hi : i < w
    · cases e with
      | little => exact (hb i hi).trans (hb' i hi).symm
      | big =>
        have h1 := hb (w - 1 - i) (by omega)
        have h2 := hb' (w - 1 - i) (by omega)
        dsimp only at h1 h2
        rw [show w - 1 - (w - 1 - i) = i by omega] at h1 h2
        exact h1.trans h2.symm
    · rw [List.getElem?_eq_none (by omega), List.getElem?_eq_none (by omega)]
  · rintro ⟨h, rfl⟩
    exact ⟨h, isUInt_encNat e w n⟩

theorem isString_iff (e : Endian) (t : Text) (bs : Bytes) : IsString e t bs ↔ Text.Fits t ∧ bs = writeText e t := by
  unfold IsString Text.Fits
  rw [← utf8Enc_eq]
  constructor
  · rintro ⟨len, rfl, h⟩
    obtain ⟨h1, rfl⟩ := (isNumber_iff ..).mp h
    refine ⟨h1, ?_⟩
    show _ = encNat e 4 ((utf8Enc t).length % u32Lim) ++ utf8Enc t
    rw [Nat.mod_eq_of_lt h1]
  · rintro ⟨h, rfl⟩
    refine ⟨encNat e 4 (utf8Enc t).length, ?_, (isNumber_iff ..).mpr ⟨h, rfl⟩⟩
    show encNat e 4 ((utf8Enc t).length % u32Lim) ++ utf8Enc t = _
    rw [Nat.mod_eq_of_lt h]

theorem isList_iff {α : Type} {item : α → Bytes → Prop} {P : α → Prop} {w : α → Bytes}
    (h : ∀ a bs, item a bs ↔ P a ∧ bs = w a) :
    ∀ (as : List α) (bs : Bytes), IsList item as bs ↔ (∀ a ∈ as, P a) ∧ bs = as.flatMap w
  | [], bs => ⟨fun hb => ⟨fun _ h => (by cases h), hb⟩, fun hb => hb.2⟩
  | a :: as, bs => by
    constructor
    · rintro ⟨x, y, rfl, hx, hy⟩
      obtain ⟨h1, rfl⟩ := (h a x).mp hx
      obtain ⟨h2, rfl⟩ := (isList_iff h as y).mp hy
      exact ⟨List.forall_mem_cons.mpr ⟨h1, h2⟩, rfl⟩
    · rintro ⟨h1, rfl⟩
      obtain ⟨h1, h2⟩ := List.forall_mem_cons.mp h1
      exact ⟨w a, as.flatMap w, rfl, (h a _).mpr ⟨h1, rfl⟩, (isList_iff h as _).mpr ⟨h2, rfl⟩⟩

theorem isCounted_iff {α : Type} {e : Endian} {item : α → Bytes → Prop} {P : α → Prop} {w : α → Bytes}
    (h : ∀ a bs, item a bs ↔ P a ∧ bs = w a) (as : List α) (bs : Bytes) :
    IsCounted e item as bs ↔ as.length < 2 ^ 32 ∧ (∀ a ∈ as, P a) ∧
      bs = encNat e 4 (as.length % u32Lim) ++ as.flatMap w := by
  constructor
  · rintro ⟨n, x, rfl, hn, hx⟩
    obtain ⟨h1, rfl⟩ := (isNumber_iff ..).mp hn
    obtain ⟨h2, rfl⟩ := (isList_iff h ..).mp hx
    exact ⟨h1, h2, by rw [Nat.mod_eq_of_lt h1]⟩
  · rintro ⟨h1, h2, rfl⟩
    refine ⟨_, _, rfl, ?_, (isList_iff h ..).mpr ⟨h2, rfl⟩⟩
    rw [Nat.mod_eq_of_lt h1]
    exact (isNumber_iff ..).mpr ⟨h1, rfl⟩

theorem isType_iff (e : Endian) (t : DataType) (hu : t ≠ .doubleFloatWithUnit ∧ t ≠ .extendedFloatWithUnit)
    (bs : Bytes) : IsType e t bs ↔ bs = writeDataType e t := by
  have key : ∀ c, (c, t) ∈ Format.publishedCodes ↔ c = t.code := by
    intro c
    constructor
    · intro h
      cases t with
      | doubleFloatWithUnit => exact absurd rfl hu.1
      | extendedFloatWithUnit => exact absurd rfl hu.2
      | _ => simp [Format.publishedCodes] at h; exact h
    · rintro rfl
      cases t with
      | doubleFloatWithUnit => exact absurd rfl hu.1
      | extendedFloatWithUnit => exact absurd rfl hu.2
      | _ => decide
  have lim : t.code < 256 ^ 4 := by cases t <;> decide
  constructor
  · rintro ⟨c, hc, h⟩
    obtain ⟨_, rfl⟩ := (isNumber_iff ..).mp h
    rw [(key c).mp hc]
    rfl
  · rintro rfl
    exact ⟨t.code, (key _).mpr rfl, (isNumber_iff ..).mpr ⟨lim, rfl⟩⟩

theorem isNumber_bits (e : Endian) (w : Nat) {k : Nat} (v : BitVec k) (hk : 2 ^ k = 256 ^ w) (bs : Bytes) :
    IsNumber e w v.toNat bs ↔ bs = encNat e w v.toNat := by
  rw [isNumber_iff]
  exact ⟨fun h => h.2, fun h => ⟨hk ▸ v.isLt, h⟩⟩

theorem extended_bytes (e : Endian) (v : BitVec 128) :
    (STy.storage PropertyValue.anyAlloc .extended).write e v = encNat e 10 v.toNat := by
  have ht : (leBytes 16 v.toNat).take 10 = leBytes 10 v.toNat := leBytes_take 10 6 _
  cases e
  · exact ht
  · show ((leBytes 16 v.toNat).reverse).drop 6 = (leBytes 10 v.toNat).reverse
    rw [List.drop_reverse, length_leBytes, ← ht]

theorem isValue_iff (e : Endian) (v : PropertyValue) (bs : Bytes) :
    IsValue e v bs ↔ v.Fits ∧ bs = v.writeInner e := by
  cases v with
  | void => exact ⟨fun h => ⟨trivial, h⟩, fun h => h.2⟩
  | boolean v => exact ⟨fun h => ⟨trivial, h⟩, fun h => h.2⟩
  | string t => exact isString_iff e t bs
  | extended v =>
    show IsNumber e 10 v.toNat bs ↔ v.toNat < 2 ^ 80 ∧ bs = (STy.storage PropertyValue.anyAlloc .extended).write e v
    rw [extended_bytes, isNumber_iff]
  | complexSingleFloat v =>
    constructor
    · rintro ⟨x, y, rfl, hx, hy⟩
      rw [isNumber_bits e 4 v.real (by decide)] at hx
      rw [isNumber_bits e 4 v.imaginary (by decide)] at hy
      subst hx hy
      exact ⟨trivial, rfl⟩
    · rintro ⟨_, rfl⟩
      exact ⟨_, _, rfl, (isNumber_bits e 4 v.real (by decide) _).mpr rfl, (isNumber_bits e 4 v.imaginary (by decide) _).mpr rfl⟩
  | complexDoubleFloat v =>
    constructor
    · rintro ⟨x, y, rfl, hx, hy⟩
      rw [isNumber_bits e 8 v.real (by decide)] at hx
      rw [isNumber_bits e 8 v.imaginary (by decide)] at hy
      subst hx hy
      exact ⟨trivial, rfl⟩
    · rintro ⟨_, rfl⟩
      exact ⟨_, _, rfl, (isNumber_bits e 8 v.real (by decide) _).mpr rfl, (isNumber_bits e 8 v.imaginary (by decide) _).mpr rfl⟩
  | _ =>
    rename_i v
    refine (isNumber_bits e _ v (by decide) bs).trans ⟨fun h => ⟨trivial, h⟩, fun h => h.2⟩

theorem valueType_eq (v : PropertyValue) : valueType v = v.datatype := by cases v <;> rfl

theorem valueType_usual (v : PropertyValue) :
    v.datatype ≠ .doubleFloatWithUnit ∧ v.datatype ≠ .extendedFloatWithUnit := by
  cases v <;> exact ⟨nofun, nofun⟩

theorem isProperty_iff (e : Endian) (p : Text × PropertyValue) (bs : Bytes) :
    IsProperty e p bs ↔ (Text.Fits p.1 ∧ p.2.Fits) ∧ bs = writeText e p.1 ++ p.2.write e := by
  constructor
  · rintro ⟨x, y, z, rfl, hx, hy, hz⟩
    obtain ⟨h1, rfl⟩ := (isString_iff ..).mp hx
    obtain ⟨h2, rfl⟩ := (isValue_iff ..).mp hz
    rw [valueType_eq, isType_iff e _ (valueType_usual _)] at hy
    subst hy
    exact ⟨⟨h1, h2⟩, rfl⟩
  · rintro ⟨⟨h1, h2⟩, rfl⟩
    exact ⟨_, _, _, rfl, (isString_iff ..).mpr ⟨h1, rfl⟩, (by rw [valueType_eq]; exact (isType_iff e _ (valueType_usual _) _).mpr rfl),
      (isValue_iff ..).mpr ⟨h2, rfl⟩⟩

theorem isIndex_iff (e : Endian) (i : RawDataIndex) (hs : Usual i) (bs : Bytes) :
    IsIndex e i bs ↔ i.Fits ∧ bs = i.write e := by
  cases i with
  | none => exact (isNumber_iff ..).trans ⟨fun h => ⟨trivial, h.2⟩, fun h => ⟨by decide, h.2⟩⟩
  | matchPrevious => exact (isNumber_iff ..).trans ⟨fun h => ⟨trivial, h.2⟩, fun h => ⟨by decide, h.2⟩⟩
  | rawData m =>
    obtain ⟨hs', hu⟩ : m.dataType ≠ .tdmsString ∧ _ := hs
    constructor
    · rintro ⟨h, _⟩
      obtain ⟨h0, len, ty, dim, n, rfl, h1, h2, h3, h4⟩ := h hs'
      obtain ⟨_, rfl⟩ := (isNumber_iff ..).mp h1
      rw [isType_iff e _ hu] at h2
      obtain ⟨_, rfl⟩ := (isNumber_iff ..).mp h3
      obtain ⟨h5, rfl⟩ := (isNumber_iff ..).mp h4
      subst h2
      exact ⟨⟨h5, h0⟩, rfl⟩
    · rintro ⟨⟨h5, h0⟩, rfl⟩
      refine ⟨fun _ => ⟨h0, _, _, _, _, rfl, (isNumber_iff ..).mpr ⟨by decide, rfl⟩, (isType_iff e _ hu _).mpr rfl,
        (isNumber_iff ..).mpr ⟨by decide, rfl⟩, (isNumber_iff ..).mpr ⟨h5, rfl⟩⟩, fun h => absurd h hs'⟩

theorem isObject_iff (e : Endian) (o : ObjectMetaData) (hs : Usual o.rawDataIndex) (bs : Bytes) :
    IsObject e o bs ↔ o.Fits ∧ bs = o.write e := by
  constructor
  · rintro ⟨x, y, z, rfl, hx, hy, hz⟩
    obtain ⟨h1, rfl⟩ := (isString_iff ..).mp hx
    obtain ⟨h2, rfl⟩ := (isIndex_iff e _ hs _).mp hy
    obtain ⟨h3, h4, rfl⟩ := (isCounted_iff (isProperty_iff e) ..).mp hz
    refine ⟨⟨h1, h2, h3, h4⟩, ?_⟩
    unfold ObjectMetaData.write
    rw [writeProps_eq]
  · rintro ⟨⟨h1, h2, h3, h4⟩, rfl⟩
    unfold ObjectMetaData.write
    rw [writeProps_eq]
    exact ⟨_, _, _, rfl, (isString_iff ..).mpr ⟨h1, rfl⟩, (isIndex_iff e _ hs _).mpr ⟨h2, rfl⟩,
      (isCounted_iff (isProperty_iff e) ..).mpr ⟨h3, h4, rfl⟩⟩

theorem isList_iff_of {α : Type} {item : α → Bytes → Prop} {P : α → Prop} {w : α → Bytes} :
    ∀ (as : List α) (_ : ∀ a ∈ as, ∀ bs, item a bs ↔ P a ∧ bs = w a) (bs : Bytes),
      IsList item as bs ↔ (∀ a ∈ as, P a) ∧ bs = as.flatMap w
  | [], _, bs => ⟨fun hb => ⟨fun _ h => (by cases h), hb⟩, fun hb => hb.2⟩
  | a :: as, h, bs => by
    have ha := h a List.mem_cons_self
    have has := isList_iff_of as (fun b hb => h b (List.mem_cons_of_mem _ hb))
    constructor
    · rintro ⟨x, y, rfl, hx, hy⟩
      obtain ⟨h1, rfl⟩ := (ha x).mp hx
      obtain ⟨h2, rfl⟩ := (has y).mp hy
      exact ⟨List.forall_mem_cons.mpr ⟨h1, h2⟩, rfl⟩
    · rintro ⟨h1, rfl⟩
      obtain ⟨h1, h2⟩ := List.forall_mem_cons.mp h1
      exact ⟨w a, as.flatMap w, rfl, (ha _).mpr ⟨h1, rfl⟩, (has _).mpr ⟨h2, rfl⟩⟩

theorem isMetaData_iff (e : Endian) (m : MetaData) (hs : ∀ o ∈ m.objects, Usual o.rawDataIndex) (bs : Bytes) :
    IsMetaData e m bs ↔ m.Fits ∧ bs = m.write e := by
  have hl := isList_iff_of (item := IsObject e) (P := ObjectMetaData.Fits) (w := ObjectMetaData.write e)
    m.objects (fun o ho bs => isObject_iff e o (hs o ho) bs)
  constructor
  · rintro ⟨n, x, rfl, hn, hx⟩
    obtain ⟨h1, rfl⟩ := (isNumber_iff ..).mp hn
    obtain ⟨h2, rfl⟩ := (hl _).mp hx
    refine ⟨⟨h1, h2⟩, ?_⟩
    unfold MetaData.write
    rw [writeObjects_eq, Nat.mod_eq_of_lt h1]
  · rintro ⟨⟨h1, h2⟩, rfl⟩
    unfold MetaData.write
    rw [writeObjects_eq, Nat.mod_eq_of_lt h1]
    exact ⟨_, _, rfl, (isNumber_iff ..).mpr ⟨h1, rfl⟩, (hl _).mpr ⟨h2, rfl⟩⟩

theorem flags_eq (t : ToC) : flags t = t.toU32 ∧ flags t < 256 ^ 4 := by
  obtain ⟨a, b, c, d, e, f⟩ := t
  cases a <;> cases b <;> cases c <;> cases d <;> cases e <;> cases f <;> decide

theorem isLeadIn_iff (e : Endian) (toc : ToC) (version next raw : Nat) (bs : Bytes) :
    IsLeadIn e toc version next raw bs ↔ (version < 2 ^ 32 ∧ next < 2 ^ 64 ∧ raw < 2 ^ 64) ∧
      bs = tdsmTag ++ (toc.asBytes ++ (encNat e 4 version ++ (encNat e 8 next ++ encNat e 8 raw))) := by
  have htag : ['T', 'D', 'S', 'm'].map (fun c => UInt8.ofNat c.toNat) = tdsmTag := by decide
  unfold IsLeadIn
  rw [htag, (flags_eq toc).1]
  have hlim : toc.toU32 < 256 ^ 4 := (flags_eq toc).1 ▸ (flags_eq toc).2
  constructor
  · rintro ⟨f, v, x, y, rfl, h1, h2, h3, h4⟩
    obtain ⟨_, rfl⟩ := (isNumber_iff ..).mp h1
    obtain ⟨g2, rfl⟩ := (isNumber_iff ..).mp h2
    obtain ⟨g3, rfl⟩ := (isNumber_iff ..).mp h3
    obtain ⟨g4, rfl⟩ := (isNumber_iff ..).mp h4
    exact ⟨⟨g2, g3, g4⟩, rfl⟩
  · rintro ⟨⟨g2, g3, g4⟩, rfl⟩
    exact ⟨_, _, _, _, rfl, (isNumber_iff ..).mpr ⟨hlim, rfl⟩, (isNumber_iff ..).mpr ⟨g2, rfl⟩,
      (isNumber_iff ..).mpr ⟨g3, rfl⟩, (isNumber_iff ..).mpr ⟨g4, rfl⟩⟩

/-- The encoding of segments used in the statements about opening is the layout of the format. -/
theorem isSegment_iff (s : FileSegment) (hs : ∀ o ∈ s.metaData.objects, Usual o.rawDataIndex) (bs : Bytes) :
    IsSegment s bs ↔ s.Fits ∧ bs = s.encode := by
  have hflag : (s.toc.bigEndian = true ↔ s.endian = .big) ↔ s.toc.bigEndian = s.endian.isBig := by
    cases s.toc.bigEndian <;> cases s.endian <;> simp [Endian.isBig]
  unfold IsSegment
  rw [hflag]
  constructor
  · rintro ⟨h0, lead, md, rfl, h1, h2⟩
    obtain ⟨h6, rfl⟩ := (isMetaData_iff _ _ hs _).mp h2
    obtain ⟨⟨h3, h4, h5⟩, rfl⟩ := (isLeadIn_iff ..).mp h1
    rw [length_writeMetaData] at h4 ⊢
    refine ⟨⟨h0, h3, h5, h4, h6⟩, ?_⟩
    unfold FileSegment.encode FileSegment.head
    simp only [List.append_assoc]
  · rintro ⟨⟨h0, h3, h5, h4, h2⟩, rfl⟩
    refine ⟨h0, _, s.metaData.write s.endian, ?_, (isLeadIn_iff ..).mpr ⟨⟨h3, ?_, h5⟩, rfl⟩,
      (isMetaData_iff _ _ hs _).mpr ⟨h2, rfl⟩⟩
    · unfold FileSegment.encode FileSegment.head
      rw [length_writeMetaData]
      simp only [List.append_assoc]
    · rw [length_writeMetaData]; exact h4

/-- Stored values, but extended floats and strings, are written in their layout. -/
theorem isSample_iff (al : Alloc) (e : Endian) {ty : STy} (h : SizedTy ty) (v : ty.Val) (bs : Bytes) :
    IsSample e ty v bs ↔ bs = (ty.storage al).write e v := by
  cases ty with
  | extended => exact absurd rfl h.1
  | string => exact absurd rfl h.2
  | bool => exact Iff.rfl
  | complex32 => exact (isValue_iff e (.complexSingleFloat v) bs).trans ⟨fun h => h.2, fun h => ⟨trivial, h⟩⟩
  | complex64 => exact (isValue_iff e (.complexDoubleFloat v) bs).trans ⟨fun h => h.2, fun h => ⟨trivial, h⟩⟩
  | _ => exact isNumber_bits e _ (k := _) v (by decide) bs

theorem isSamples (al : Alloc) (e : Endian) {ty : STy} (h : SizedTy ty) (vals : List ty.Val) :
    IsList (IsSample e ty) vals (vals.flatMap ((ty.storage al).write e)) :=
  (isList_iff (P := fun _ => True) (w := (ty.storage al).write e)
    (fun v bs => (isSample_iff al e h v bs).trans ⟨fun h => ⟨trivial, h⟩, fun h => h.2⟩) vals _).mpr ⟨fun _ _ => trivial, rfl⟩

end Tedium
