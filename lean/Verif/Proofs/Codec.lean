import Verif.Spec.WellFormed
import Verif.Proofs.Bytes

/-! # Helper lemmas: every encoder is inverted by its decoder -/

namespace Tedium

theorem pow256 (w : Nat) : 256 ^ w = 2 ^ (8 * w) := by
  rw [Nat.pow_mul]

theorem Reads.numeric (e : Endian) (w : Nat) (nat : DataType) (sup : List DataType)
    (v : BitVec (8 * w)) : Reads ((numeric w nat sup).read e) ((numeric w nat sup).write e v) v := by
  unfold Tedium.numeric
  dsimp only
  refine Reads.bind_pure (Reads.exact' (length_encNat e w _)) ?_
  have : BitVec.ofNat (8 * w) (decNat e (encNat e w v.toNat)) = v := by
    apply BitVec.eq_of_toNat_eq
    rw [decNat_encNat, BitVec.toNat_ofNat, pow256, Nat.mod_mod, Nat.mod_eq_of_lt v.isLt]
  rw [this]
  exact Reads.pure v

theorem Reads.bool (e : Endian) (v : Bool) :
    Reads (boolStorage.read e) (boolStorage.write e v) v := by
  unfold boolStorage
  dsimp only
  refine Reads.bind_pure (Reads.exact' (by simp)) ?_
  cases v <;> exact Reads.pure _

theorem Reads.timestamp (e : Endian) (v : BitVec 128) :
    Reads (timestampStorage.read e) (timestampStorage.write e v) v :=
  Reads.numeric e 16 .timestamp [.timestamp] v

theorem leBytes_take (k w n : Nat) : (leBytes (k + w) n).take k = leBytes k n := by
  induction k generalizing n with
  | zero => simp [leBytes]
  | succ k ih =>
    rw [show k + 1 + w = (k + w) + 1 by omega]
    simp [leBytes, ih]

theorem leVal_append_zeros (bs : Bytes) (k : Nat) :
    leVal (bs ++ List.replicate k 0) = leVal bs := by
  induction bs with
  | nil =>
    induction k with
    | zero => rfl
    | succ k ih =>
      simp only [List.nil_append] at ih
      simp [List.replicate_succ, leVal, ih]
  | cons b bs ih => simp [leVal, ih]

theorem Reads.extended (e : Endian) (v : BitVec 128) (h : v.toNat < 2 ^ 80) :
    Reads (extendedStorage.read e) (extendedStorage.write e v) v := by
  have key : BitVec.ofNat 128 (leVal (leBytes 10 v.toNat ++ List.replicate 6 0)) = v := by
    apply BitVec.eq_of_toNat_eq
    rw [leVal_append_zeros, leVal_leBytes, BitVec.toNat_ofNat]
    omega
  unfold extendedStorage
  dsimp only
  cases e with
  | little =>
    dsimp only
    have hw : (encNat .little 16 v.toNat).take 10 = leBytes 10 v.toNat := leBytes_take 10 6 _
    rw [hw]
    refine Reads.bind_pure (Reads.exact' (length_leBytes 10 _)) ?_
    dsimp only [decNat]
    rw [key]
    exact Reads.pure v
  | big =>
    dsimp only
    have hw : (encNat .big 16 v.toNat).drop 6 = (leBytes 10 v.toNat).reverse := by
      have : (leBytes 16 v.toNat).take 10 = leBytes 10 v.toNat := leBytes_take 10 6 _
      rw [encNat, List.drop_reverse, length_leBytes, this]
    rw [hw]
    refine Reads.bind_pure (Reads.exact' (by simp)) ?_
    dsimp only [decNat]
    rw [List.reverse_append, List.reverse_reverse, List.reverse_replicate, key]
    exact Reads.pure v

theorem Reads.complex (e : Endian) (w : Nat) (t c : DataType) (v : Complex (BitVec (8 * w))) :
    Reads ((complexStorage w t c).read e) ((complexStorage w t c).write e v) v := by
  unfold complexStorage
  dsimp only
  refine Reads.bind (Reads.numeric e w c [c] v.real) ?_
  refine Reads.bind_pure (Reads.numeric e w c [c] v.imaginary) ?_
  exact Reads.pure v

theorem Reads.stringWithLength (al : Alloc) (t : Text)
    (ha : al (.str (utf8Enc t).length) = true) :
    Reads (readStringWithLength al (utf8Enc t).length) (utf8Enc t) t := by
  unfold readStringWithLength
  rw [if_pos ha]
  refine Reads.bind_pure (Reads.exact _) ?_
  rw [utf8Dec_utf8Enc]
  exact Reads.pure t

theorem Reads.string (al al' : Alloc) (e : Endian) (t : Text) (h : Text.Fits t)
    (ha : al (.str (utf8Enc t).length) = true) :
    Reads ((stringStorage al).read e) ((stringStorage al').write e t) t := by
  unfold stringStorage
  dsimp only
  rw [Nat.mod_eq_of_lt h]
  exact Reads.bind (Reads.uint e 4 _ h) (Reads.stringWithLength al t ha)

theorem Reads.text (al : Alloc) (hal : Generous al) (e : Endian) (t : Text) (h : Text.Fits t) :
    Reads (readText al e) (writeText e t) t := Reads.string al _ e t h (hal _)

theorem Reads.storage (al al' : Alloc) (hal : Generous al) (e : Endian) (t : STy) (v : t.Val)
    (h : t.Fits v) : Reads ((t.storage al).read e) ((t.storage al').write e v) v := by
  cases t
  case bool => exact Reads.bool e v
  case extended => exact Reads.extended e v h
  case timestamp => exact Reads.timestamp e v
  case complex32 => exact Reads.complex e 4 _ _ v
  case complex64 => exact Reads.complex e 8 _ _ v
  case string => exact Reads.string al al' e v h (hal _)
  all_goals first
    | exact Reads.numeric e 1 _ _ v
    | exact Reads.numeric e 2 _ _ v
    | exact Reads.numeric e 4 _ _ v
    | exact Reads.numeric e 8 _ _ v

/-! ## Sizes -/

theorem length_write_storage (al al' : Alloc) (e : Endian) (t : STy) (v : t.Val) :
    ((t.storage al).write e v).length = (t.storage al').size v := by
  cases t
  case bool => rfl
  case extended => cases e <;> simp [STy.storage, extendedStorage]
  case timestamp => simp [STy.storage, timestampStorage]
  case complex32 => simp [STy.storage, complexStorage, Tedium.numeric]
  case complex64 => simp [STy.storage, complexStorage, Tedium.numeric]
  case string => simp [STy.storage, stringStorage, Nat.add_comm]
  all_goals simp [STy.storage, Tedium.numeric]

theorem length_writeText (e : Endian) (t : Text) : (writeText e t).length = textSize t :=
  length_write_storage PropertyValue.anyAlloc PropertyValue.anyAlloc e .string t

theorem length_writeDataType (e : Endian) (t : DataType) : (writeDataType e t).length = 4 := by
  simp [writeDataType]

theorem length_writeProperty (e : Endian) (v : PropertyValue) : (v.write e).length = v.size := by
  unfold PropertyValue.write PropertyValue.size
  rw [List.length_append, length_writeDataType, Nat.add_comm]
  congr 1
  cases v
  case void => rfl
  all_goals exact length_write_storage _ _ e _ _

theorem length_writeRawIndex (e : Endian) (i : RawDataIndex) : (i.write e).length = i.size := by
  cases i <;> simp [RawDataIndex.write, RawDataIndex.size, writeDataType]

theorem length_writeProps (e : Endian) (ps : List (Text × PropertyValue)) :
    (ObjectMetaData.writeProps e ps).length =
      (ps.map (fun (n, v) => textSize n + v.size)).sum := by
  induction ps with
  | nil => rfl
  | cons p ps ih =>
    obtain ⟨n, v⟩ := p
    simp only [ObjectMetaData.writeProps, List.length_append, length_writeText,
      length_writeProperty, ih, List.map_cons, List.sum_cons]
    omega

theorem length_writeObject (e : Endian) (o : ObjectMetaData) : (o.write e).length = o.size := by
  simp only [ObjectMetaData.write, ObjectMetaData.size, List.length_append, length_writeText,
    length_writeRawIndex, length_encNat, length_writeProps]
  omega

theorem length_writeObjects (e : Endian) (os : List ObjectMetaData) :
    (MetaData.writeObjects e os).length = (os.map ObjectMetaData.size).sum := by
  induction os with
  | nil => rfl
  | cons o os ih => simp [MetaData.writeObjects, length_writeObject, ih]

theorem length_writeMetaData (e : Endian) (m : MetaData) : (m.write e).length = m.size := by
  simp [MetaData.write, MetaData.size, length_writeObjects]

/-! ## Type codes -/

theorem ofCode?_code (t : DataType) : DataType.ofCode? t.code = some t := by
  cases t <;> decide

theorem code_lt (t : DataType) : t.code < 2 ^ 32 := by
  cases t <;> decide

theorem code_of_ofCode? {n : Nat} {t : DataType} (h : DataType.ofCode? n = some t) : t.code = n := by
  unfold DataType.ofCode? at h
  have := List.find?_some h
  simpa using this

theorem Reads.dataType (e : Endian) (t : DataType) :
    Reads (readDataType e) (writeDataType e t) t := by
  unfold readDataType writeDataType
  refine Reads.bind_pure (Reads.uint e 4 _ (code_lt t)) ?_
  rw [ofCode?_code]
  exact Reads.pure t

/-! ## Properties and metadata -/

theorem Reads.map {α β : Type} {x : Rd α} {bs : Bytes} {a : α} (g : α → β) (h : Reads x bs a) :
    Reads (do return g (← x)) bs (g a) := Reads.bind_pure h (Reads.pure _)

theorem Reads.property (al : Alloc) (hal : Generous al) (e : Endian) (v : PropertyValue)
    (h : v.Fits) : Reads (PropertyValue.read al e) (v.write e) v := by
  unfold PropertyValue.read PropertyValue.write
  refine Reads.bind (Reads.dataType e _) ?_
  cases v <;> dsimp only [PropertyValue.datatype, PropertyValue.writeInner]
  case void => exact Reads.pure _
  case string v => exact Reads.map PropertyValue.string (Reads.string al _ e v h (hal _))
  case extended v => exact Reads.map PropertyValue.extended (Reads.extended e v h)
  all_goals exact Reads.map _ (Reads.storage al _ hal e _ _ trivial)

theorem Reads.many {α : Type} {x : Rd α} {enc : α → Bytes} (as : List α)
    (h : ∀ a ∈ as, Reads x (enc a) a) :
    Reads (Rd.many x as.length) (as.flatMap enc) as := by
  induction as with
  | nil => exact Reads.pure []
  | cons a as ih =>
    simp only [List.length_cons, Rd.many, List.flatMap_cons]
    refine Reads.bind (h a (by simp)) ?_
    refine Reads.bind_pure (ih (fun b hb => h b (by simp [hb]))) ?_
    exact Reads.pure _

theorem Reads.rawIndex (e : Endian) (i : RawDataIndex) (h : i.Fits) :
    Reads (RawDataIndex.read e) (i.write e) i := by
  unfold RawDataIndex.read
  cases i with
  | none =>
    refine Reads.bind_pure (Reads.uint e 4 _ (by decide)) ?_
    exact Reads.pure _
  | matchPrevious =>
    refine Reads.bind_pure (Reads.uint e 4 _ (by decide)) ?_
    exact Reads.pure _
  | rawData m =>
    obtain ⟨dt, n, ts⟩ := m
    obtain ⟨hn, hts⟩ := h
    dsimp only at hn hts
    subst hts
    unfold RawDataIndex.write
    refine Reads.bind (Reads.uint e 4 _ (by decide)) ?_
    refine Reads.bind (Reads.dataType e dt) ?_
    refine Reads.bind (Reads.uint e 4 _ (by decide)) ?_
    refine Reads.bind_pure (Reads.uint e 8 _ hn) ?_
    exact Reads.pure _

theorem writeProps_eq (e : Endian) (ps : List (Text × PropertyValue)) :
    ObjectMetaData.writeProps e ps = ps.flatMap (fun p => writeText e p.1 ++ p.2.write e) := by
  induction ps with
  | nil => rfl
  | cons p ps ih => obtain ⟨n, v⟩ := p; simp [ObjectMetaData.writeProps, ih]

theorem writeObjects_eq (e : Endian) (os : List ObjectMetaData) :
    MetaData.writeObjects e os = os.flatMap (fun o => o.write e) := by
  induction os with
  | nil => rfl
  | cons o os ih => simp [MetaData.writeObjects, ih]

theorem Reads.object (al : Alloc) (hal : Generous al) (e : Endian) (o : ObjectMetaData)
    (h : o.Fits) : Reads (ObjectMetaData.read al e) (o.write e) o := by
  unfold ObjectMetaData.read ObjectMetaData.write
  rw [Nat.mod_eq_of_lt h.count]
  refine Reads.bind (Reads.text al hal e _ h.path) ?_
  refine Reads.bind (Reads.rawIndex e _ h.index) ?_
  refine Reads.bind (Reads.uint e 4 _ h.count) ?_
  rw [if_pos (hal _), writeProps_eq]
  refine Reads.bind_pure (Reads.many o.properties ?_) (Reads.pure _)
  rintro ⟨n, v⟩ hp
  obtain ⟨h1, h2⟩ := h.props _ hp
  unfold ObjectMetaData.readProp
  refine Reads.bind (Reads.text al hal e _ h1) ?_
  exact Reads.bind_pure (Reads.property al hal e _ h2) (Reads.pure _)

theorem Reads.metaData (al : Alloc) (hal : Generous al) (e : Endian) (m : MetaData)
    (h : m.Fits) : Reads (MetaData.read al e) (m.write e) m := by
  unfold MetaData.read MetaData.write
  rw [Nat.mod_eq_of_lt h.count]
  refine Reads.bind (Reads.uint e 4 _ h.count) ?_
  rw [if_pos (hal _), writeObjects_eq]
  exact Reads.bind_pure (Reads.many m.objects (fun o ho => Reads.object al hal e o (h.objects o ho)))
    (Reads.pure _)

/-! ## Table of contents and segments -/

theorem fromU32_toU32 (t : ToC) : ToC.fromU32 t.toU32 = t := by
  obtain ⟨a, b, c, d, e, f⟩ := t
  cases a <;> cases b <;> cases c <;> cases d <;> cases e <;> cases f <;> decide

theorem toU32_lt (t : ToC) : t.toU32 < 2 ^ 32 := by
  obtain ⟨a, b, c, d, e, f⟩ := t
  cases a <;> cases b <;> cases c <;> cases d <;> cases e <;> cases f <;> decide

theorem isBig_endian (e : Endian) : (if e.isBig = true then Endian.big else Endian.little) = e := by
  cases e <;> rfl

theorem Reads.toc {β : Type} (t : ToC) (k : ToC → Rd β) {cs : Bytes} {b : β}
    (h : Reads (k t) cs b) :
    Reads (do let buf ← Rd.exact 4; k (ToC.fromU32 (decNat .little buf))) (t.asBytes ++ cs) b := by
  refine Reads.bind (Reads.exact' (length_encNat _ _ _)) ?_
  rw [ToC.asBytes, decNat_encNat, Nat.mod_eq_of_lt (toU32_lt t), fromU32_toU32]
  exact h

/-- Reading the header and metadata of a segment that has a metadata section. -/
theorem Reads.segment (al : Alloc) (hal : Generous al) (e : Endian) (toc : ToC) (m : MetaData)
    (data : Option DataToWrite) (h : m.Fits)
    (hs : m.size + DataToWrite.optSize data < 2 ^ 64) :
    Reads (Segment.read al)
      (tdsmTag ++ ((finalToC e toc (some m) data).asBytes ++ (encNat e 4 4713 ++
        (encNat e 8 (m.size + DataToWrite.optSize data) ++ (encNat e 8 m.size ++ m.write e)))))
      (writeSegment e toc (some m) data).1 := by
  intro f p hat
  rw [At.append] at hat
  obtain ⟨htag, hat⟩ := hat
  have h4 := Reads.exact' (n := 4) (bs := tdsmTag) rfl f p htag
  unfold Segment.read
  rw [h4]
  dsimp only
  rw [if_neg (by simp)]
  have hread : Reads (do
        let buf ← Rd.exact 4
        Segment.readSegment al (if (ToC.fromU32 (decNat .little buf)).bigEndian then .big else .little)
          (ToC.fromU32 (decNat .little buf)))
      ((finalToC e toc (some m) data).asBytes ++
        (encNat e 4 4713 ++ (encNat e 8 (m.size + DataToWrite.optSize data) ++
          (encNat e 8 m.size ++ m.write e))))
      (writeSegment e toc (some m) data).1 := by
    refine Reads.toc _ (fun t => Segment.readSegment al (if t.bigEndian then .big else .little) t) ?_
    have : (finalToC e toc (some m) data).bigEndian = e.isBig := rfl
    rw [this, isBig_endian]
    unfold Segment.readSegment
    refine Reads.bind (Reads.uint e 4 _ (by decide)) ?_
    refine Reads.bind (Reads.uint e 8 _ hs) ?_
    refine Reads.bind (Reads.uint e 8 _ (by omega)) ?_
    exact Reads.bind_pure (Reads.metaData al hal e m h) (Reads.pure _)
  have := hread f _ hat
  refine this.trans ?_
  simp [Nat.add_assoc]

theorem length_header (e : Endian) (toc : ToC) (a b : Nat) (rest : Bytes) :
    (tdsmTag ++ (toc.asBytes ++ (encNat e 4 4713 ++ (encNat e 8 a ++ (encNat e 8 b ++ rest))))).length
      = leadInBytes + rest.length := by
  simp only [List.length_append, length_encNat, ToC.asBytes, tdsmTag, leadInBytes, List.length_cons,
    List.length_nil]
  omega

theorem writeSegment_split (e : Endian) (toc : ToC) (m : MetaData) (data : Option DataToWrite) :
    (writeSegment e toc (some m) data).2 =
      (tdsmTag ++ ((finalToC e toc (some m) data).asBytes ++ (encNat e 4 4713 ++
        (encNat e 8 (m.size + DataToWrite.optSize data) ++ (encNat e 8 m.size ++ m.write e))))) ++
      DataToWrite.optBytes data := by
  simp [writeSegment, MetaData.optSize, MetaData.optWrite]

end Tedium
