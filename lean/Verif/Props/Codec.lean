import Verif.Proofs.Codec
import Verif.Spec.Format

/-!
# C06-C13, C42: encoding and decoding

In every statement the encoded bytes stand between arbitrary other bytes `pre` and `post`; reading
starts at the position of the encoded bytes.
-/

namespace Tedium

theorem Reads.mid {α : Type} {x : Rd α} {bs : Bytes} {a : α} (h : Reads x bs a) (pre post : Bytes) :
    x (pre ++ (bs ++ post)) pre.length = .ok (a, pre.length + bs.length) :=
  h _ _ (At.mid pre bs post)

/-! ## C06 -/

/-- C06: a stored value is read back unchanged and exactly its bytes are consumed. -/
theorem value_roundtrip (al : Alloc) (hal : Generous al) (e : Endian) (t : STy) (v : t.Val)
    (h : t.Fits v) (pre post : Bytes) :
    (t.storage al).read e (pre ++ ((t.storage al).write e v ++ post)) pre.length
      = .ok (v, pre.length + ((t.storage al).write e v).length) :=
  (Reads.storage al al hal e t v h).mid pre post

/-- Non-vacuity of `value_roundtrip`: a string with a two-byte and a four-byte character, and an
    80-bit extended value. -/
example : STy.Fits .string ['é', '𝄞', 'a'] ∧ STy.Fits .extended (BitVec.ofNat 128 (2 ^ 80 - 1)) ∧
    Generous (fun _ => true) := by
  refine ⟨?_, ?_, fun _ => rfl⟩
  · show (utf8Enc _).length < _; decide
  · show (2 ^ 80 - 1) % 2 ^ 128 < 2 ^ 80; decide

/-- C06: an extended value is read back unchanged exactly when it fits into 80 bits. -/
theorem extended_roundtrip_iff (al : Alloc) (e : Endian) (v : BitVec 128) (pre post : Bytes) :
    (∃ q, (STy.extended.storage al).read e
        (pre ++ ((STy.extended.storage al).write e v ++ post)) pre.length = .ok (v, q))
      ↔ v.toNat < 2 ^ 80 := by
  constructor
  · intro ⟨q, hq⟩
    -- the bytes written are those of `v % 2^80`
    let u : BitVec 128 := BitVec.ofNat 128 (v.toNat % 2 ^ 80)
    have hu : u.toNat = v.toNat % 2 ^ 80 := by
      show (BitVec.ofNat 128 (v.toNat % 2 ^ 80)).toNat = _
      rw [BitVec.toNat_ofNat]; omega
    have hle : leBytes 10 v.toNat = leBytes 10 u.toNat := by
      have h1 := leBytes_leVal (leBytes 10 v.toNat)
      rw [length_leBytes, leVal_leBytes] at h1
      rw [← h1, hu]
    have hw : extendedStorage.write e v = extendedStorage.write e u := by
      have ht : ∀ x : Nat, (leBytes 16 x).take 10 = leBytes 10 x := fun x => leBytes_take 10 6 x
      cases e
      · show (leBytes 16 v.toNat).take 10 = (leBytes 16 u.toNat).take 10
        rw [ht, ht, hle]
      · show ((leBytes 16 v.toNat).reverse).drop 6 = ((leBytes 16 u.toNat).reverse).drop 6
        rw [List.drop_reverse, List.drop_reverse, length_leBytes, length_leBytes]
        rw [show 16 - 6 = 10 from rfl, ht, ht, hle]
    have hr := (Reads.extended e u (by omega)).mid pre post
    rw [← hw] at hr
    have : (Except.ok (v, q) : R (BitVec 128 × Nat)) = .ok (u, _) := hq.symm.trans hr
    simp only [Except.ok.injEq, Prod.mk.injEq] at this
    rw [this.1, hu]
    omega
  · intro h
    exact ⟨_, (Reads.extended e v h).mid pre post⟩

/-- C06: a string is read back unchanged exactly when its UTF-8 length fits into 32 bits. -/
theorem string_roundtrip_iff (al : Alloc) (hal : Generous al) (e : Endian) (t : Text)
    (pre post : Bytes) :
    (STy.string.storage al).read e (pre ++ ((STy.string.storage al).write e t ++ post)) pre.length
        = .ok (t, pre.length + ((STy.string.storage al).write e t).length)
      ↔ (utf8Enc t).length < 2 ^ 32 := by
  constructor
  · intro h
    have hlt : (utf8Enc t).length % u32Lim < 2 ^ 32 := Nat.mod_lt _ (by decide)
    have hat := At.mid pre ((STy.string.storage al).write e t) post
    have hw : (STy.string.storage al).write e t
        = encNat e 4 ((utf8Enc t).length % u32Lim) ++ utf8Enc t := rfl
    rw [hw] at hat
    have h4 := Reads.uint e 4 _ hlt _ _ (At.append.mp hat).1
    have hr : (STy.string.storage al).read e
        = (do let length ← Rd.uint e 4; readStringWithLength al length) := rfl
    rw [hr, hw, Rd.bind_ok h4] at h
    unfold readStringWithLength at h
    rw [if_pos (hal _), Rd.bind_eq] at h
    split at h
    · rename_i b q hb
      have := (Rd.exact_ok hb).1
      have hq : q = pre.length + (encNat e 4 ((utf8Enc t).length % u32Lim) ++ utf8Enc t).length := by
        revert h
        cases utf8Dec b <;> intro h
        · cases h
        · injection h with h
          injection h with _ h
      simp only [length_encNat, List.length_append] at this hq
      omega
    · cases h
  · intro h
    exact value_roundtrip al hal e .string t h pre post

theorem isUInt_encNat (e : Endian) (w n : Nat) : Format.IsUInt e w n (encNat e w n) := by
  have key : ∀ i k m, i < k → (leBytes k m)[i]? = some (UInt8.ofNat (m / 256 ^ i % 256)) := by
    intro i
    induction i with
    | zero =>
      intro k m hk
      obtain ⟨k, rfl⟩ := Nat.exists_eq_succ_of_ne_zero (by omega : k ≠ 0)
      simp only [leBytes, List.getElem?_cons_zero, Nat.pow_zero, Nat.div_one]
      congr 1
      apply UInt8.toNat_inj.mp
      simp
    | succ i ih =>
      intro k m hk
      obtain ⟨k, rfl⟩ := Nat.exists_eq_succ_of_ne_zero (by omega : k ≠ 0)
      simp only [leBytes, List.getElem?_cons_succ]
      rw [ih k (m / 256) (by omega), Nat.div_div_eq_div_mul, Nat.pow_succ, Nat.mul_comm]
  refine ⟨length_encNat e w n, ?_⟩
  intro i hi
  cases e
  · exact key i w n hi
  · dsimp only [encNat]
    rw [List.getElem?_reverse (by rw [length_leBytes]; omega), length_leBytes]
    rw [show w - 1 - (w - 1 - i) = i by omega]
    exact key i w n hi

/-- C06: numbers are stored in the byte order of the file: the bytes are those of the format. -/
theorem number_bytes (al : Alloc) (e : Endian) (t : STy) (w : Nat) (hw : Format.width t = some w)
    (v : t.Val) : Format.IsUInt e w (Format.natOf t v) ((t.storage al).write e v) := by
  cases t <;> simp only [Format.width, Option.some.injEq, reduceCtorEq] at hw <;> subst hw <;>
    exact isUInt_encNat e _ _

/-- C06: the on-disk form of the remaining types: booleans are one byte, complex numbers are real
    part then imaginary part, extended floats are the 10 low bytes, strings are the length in bytes
    (32 bits) and the UTF-8 text. -/
theorem other_bytes (al : Alloc) (e : Endian) :
    (∀ v : Bool, (STy.bool.storage al).write e v = [if v then 1 else 0]) ∧
    (∀ v : Complex (BitVec 32), ∃ re im, (STy.complex32.storage al).write e v = re ++ im ∧
      Format.IsUInt e 4 v.real.toNat re ∧ Format.IsUInt e 4 v.imaginary.toNat im) ∧
    (∀ v : Complex (BitVec 64), ∃ re im, (STy.complex64.storage al).write e v = re ++ im ∧
      Format.IsUInt e 8 v.real.toNat re ∧ Format.IsUInt e 8 v.imaginary.toNat im) ∧
    (∀ v : BitVec 128, Format.IsUInt e 10 v.toNat ((STy.extended.storage al).write e v)) ∧
    (∀ t : Text, (utf8Enc t).length < 2 ^ 32 → ∃ len, (STy.string.storage al).write e t
      = len ++ utf8Enc t ∧ Format.IsUInt e 4 (utf8Enc t).length len) := by
  refine ⟨fun v => rfl, fun v => ⟨_, _, rfl, isUInt_encNat _ _ _, isUInt_encNat _ _ _⟩,
    fun v => ⟨_, _, rfl, isUInt_encNat _ _ _, isUInt_encNat _ _ _⟩, ?_, ?_⟩
  · intro v
    have : (STy.extended.storage al).write e v = encNat e 10 v.toNat := by
      have ht : (leBytes 16 v.toNat).take 10 = leBytes 10 v.toNat := leBytes_take 10 6 _
      cases e
      · exact ht
      · show ((leBytes 16 v.toNat).reverse).drop 6 = (leBytes 10 v.toNat).reverse
        rw [List.drop_reverse, length_leBytes, ← ht]
    rw [this]
    exact isUInt_encNat _ _ _
  · intro t ht
    refine ⟨encNat e 4 (utf8Enc t).length, ?_, isUInt_encNat _ _ _⟩
    show encNat e 4 ((utf8Enc t).length % u32Lim) ++ _ = _
    rw [Nat.mod_eq_of_lt ht]

example : (STy.i16.storage (fun _ => true)).write .big (0x1234 : BitVec 16) = [0x12, 0x34] := by
  decide

/-! ## C07 -/

/-- C07: for storage values, property values, object entries and metadata sections the declared
    size is the number of bytes written. -/
theorem declared_size_is_written_size (e : Endian) :
    (∀ (al : Alloc) (t : STy) (v : t.Val), ((t.storage al).write e v).length = (t.storage al).size v) ∧
    (∀ v : PropertyValue, (v.write e).length = v.size) ∧
    (∀ i : RawDataIndex, (i.write e).length = i.size) ∧
    (∀ o : ObjectMetaData, (o.write e).length = o.size) ∧
    (∀ m : MetaData, (m.write e).length = m.size) :=
  ⟨fun al t v => length_write_storage al al e t v, length_writeProperty e, length_writeRawIndex e,
   length_writeObject e, length_writeMetaData e⟩

/-- C07: a segment occupies 28 bytes plus the offset to the next segment stored in its header, and
    its raw data starts 28 bytes plus the stored raw-data offset after its start. -/
theorem segment_offsets (e : Endian) (toc : ToC) (md : Option MetaData) (data : Option DataToWrite)
    (hd : ∀ d, data = some d → d.size = d.bytes.length) :
    (writeSegment e toc md data).2.length
        = 28 + (writeSegment e toc md data).1.nextSegmentOffset ∧
    (writeSegment e toc md data).2.drop (28 + (writeSegment e toc md data).1.rawDataOffset)
        = (match data with | some d => d.bytes | none => []) := by
  have hml : (MetaData.optWrite e md).length = MetaData.optSize md := by
    cases md <;> simp [MetaData.optWrite, MetaData.optSize, length_writeMetaData]
  have hdl : (DataToWrite.optBytes data).length = DataToWrite.optSize data := by
    cases data with
    | none => rfl
    | some d => exact (hd d rfl).symm
  have hlen : (writeSegment e toc md data).2.length
      = leadInBytes + (MetaData.optWrite e md ++ DataToWrite.optBytes data).length :=
    length_header e _ _ _ _
  constructor
  · rw [hlen, List.length_append, hml, hdl]
    rfl
  · have hsplit : (writeSegment e toc md data).2
        = (tdsmTag ++ ((finalToC e toc md data).asBytes ++ (encNat e 4 4713 ++
            (encNat e 8 (MetaData.optSize md + DataToWrite.optSize data) ++
              (encNat e 8 (MetaData.optSize md) ++ MetaData.optWrite e md)))))
            ++ DataToWrite.optBytes data := by
      simp [writeSegment]
    rw [hsplit, List.drop_left']
    · cases data <;> rfl
    · rw [length_header, hml]; rfl

/-- Non-vacuity: a data block with a correctly declared size. -/
example : ∀ d, (some ⟨3, [1, 2, 3]⟩ : Option DataToWrite) = some d → d.size = d.bytes.length := by
  intro d h; cases h; rfl

/-! ## C08 -/

/-- C08: reading a 32-bit code gives the type the format assigns to it and otherwise fails with
    `UnknownPropertyType` carrying the code. -/
theorem type_code_reading (e : Endian) (n : Nat) (hn : n < 2 ^ 32) (pre post : Bytes) :
    readDataType e (pre ++ (encNat e 4 n ++ post)) pre.length =
      match Format.typeCodes.lookup n with
      | some t => .ok (t, pre.length + 4)
      | none => R.err (.unknownPropertyType n) := by
  have hspec : DataType.ofCode? n = Format.typeCodes.lookup n := by
    unfold DataType.ofCode? DataType.all Format.typeCodes
    simp only [List.find?, List.lookup, DataType.code]
    have hb : ∀ k : Nat, (k == n) = (n == k) := fun k => by
      rw [Bool.eq_iff_iff, beq_iff_eq, beq_iff_eq, eq_comm]
    simp only [hb]
    repeat' split
    all_goals first | rfl | simp_all
  have h := Reads.uint e 4 n hn _ _ (At.mid pre (encNat e 4 n) post)
  unfold readDataType
  rw [Rd.bind_ok h, hspec, length_encNat]
  cases Format.typeCodes.lookup n <;> rfl

/-- C08: every type is written with the code the format assigns to it; codes are 32-bit. -/
theorem type_code_writing (e : Endian) (t : DataType) :
    ∃ n, n < 2 ^ 32 ∧ (n, t) ∈ Format.typeCodes ∧ writeDataType e t = encNat e 4 n := by
  refine ⟨t.code, code_lt t, ?_, rfl⟩
  cases t <;> decide

/-- C08: different types have different codes and each code denotes at most one type. -/
theorem type_codes_bijective :
    (∀ p ∈ Format.typeCodes, ∀ q ∈ Format.typeCodes, p.1 = q.1 ↔ p.2 = q.2) ∧
    (∀ t u : DataType, t.code = u.code → t = u) := by
  refine ⟨by decide, ?_⟩
  intro t u h
  have := ofCode?_code t
  rw [h, ofCode?_code] at this
  exact (Option.some.inj this).symm

example : (0x0008000c : Nat) < 2 ^ 32 ∧ Format.typeCodes.lookup 0x0008000c = some .complexSingleFloat ∧
    Format.typeCodes.lookup 14 = none := by decide

/-! ## C09 -/

theorem maskBitSet_eq_testBit (w k : Nat) : maskBitSet w k = w.testBit k := by
  unfold maskBitSet
  rw [Nat.one_shiftLeft]
  cases h : w.testBit k with
  | true =>
    rw [bne_iff_ne]
    intro h0
    have : (w &&& 2 ^ k).testBit k = true := by simp [h]
    rw [h0] at this
    simp at this
  | false =>
    rw [bne_eq_false_iff_eq]
    apply Nat.eq_of_testBit_eq
    intro i
    by_cases hi : k = i
    · subst hi; simp [h]
    · simp [hi]

/-- C09: decoding looks at exactly the documented bits. -/
theorem toc_bits (w : Nat) :
    ToC.fromU32 w =
      { containsMetaData := w.testBit 1
        containsNewObjectList := w.testBit 2
        containsRawData := w.testBit 3
        dataIsInterleaved := w.testBit 5
        bigEndian := w.testBit 6
        containsDaqmxRawData := w.testBit 7 } := by
  simp [ToC.fromU32, maskBitSet_eq_testBit]

/-- C09: the word that is written decodes to the same flags, has no other bit set, and is written
    least significant byte first whatever the byte order of the segment. -/
theorem toc_roundtrip (t : ToC) :
    ToC.fromU32 t.toU32 = t ∧
    (∀ k, t.toU32.testBit k = true → k ∈ [1, 2, 3, 5, 6, 7]) ∧
    Format.IsUInt .little 4 t.toU32 t.asBytes := by
  refine ⟨fromU32_toU32 t, ?_, ?_⟩
  · intro k hk
    have hlt : t.toU32 < 2 ^ 8 := by
      obtain ⟨a, b, c, d, e, f⟩ := t
      cases a <;> cases b <;> cases c <;> cases d <;> cases e <;> cases f <;> decide
    have hk8 : k < 8 := by
      apply Nat.lt_of_not_le
      intro hge
      have := Nat.testBit_lt_two_pow
        (Nat.lt_of_lt_of_le hlt (Nat.pow_le_pow_right (by decide) hge))
      rw [this] at hk; cases hk
    have hall : ∀ k, k < 8 → t.toU32.testBit k = true → k ∈ [1, 2, 3, 5, 6, 7] := by
      obtain ⟨a, b, c, d, e, f⟩ := t
      cases a <;> cases b <;> cases c <;> cases d <;> cases e <;> cases f <;> decide
    exact hall k hk8 hk
  · exact isUInt_encNat _ _ _

/-- C09: the flag word stands at bytes 4..8 of a segment of either byte order. -/
theorem toc_in_segment (e : Endian) (toc : ToC) (md : Option MetaData) (data : Option DataToWrite) :
    ((writeSegment e toc md data).2.drop 4).take 4 = (writeSegment e toc md data).1.toc.asBytes ∧
    (writeSegment e toc md data).1.toc =
      { toc with bigEndian := decide (e = .big), containsMetaData := md.isSome,
                 containsRawData := data.isSome } := by
  constructor
  · have : ((writeSegment e toc md data).2.drop 4) = (finalToC e toc md data).asBytes ++
        (encNat e 4 4713 ++ (encNat e 8 (MetaData.optSize md + DataToWrite.optSize data) ++
        (encNat e 8 (MetaData.optSize md) ++
          (MetaData.optWrite e md ++ DataToWrite.optBytes data)))) := rfl
    rw [this, List.take_left' (show (finalToC e toc md data).asBytes.length = 4 from length_encNat _ _ _)]
    rfl
  · cases e <;> rfl

/-! ## C10, C11 -/

/-- C10: a property value is read back unchanged. -/
theorem property_roundtrip (al : Alloc) (hal : Generous al) (e : Endian) (v : PropertyValue)
    (h : v.Fits) (pre post : Bytes) :
    PropertyValue.read al e (pre ++ (v.write e ++ post)) pre.length
      = .ok (v, pre.length + (v.write e).length) :=
  (Reads.property al hal e v h).mid pre post

/-- C11: a metadata section is read back unchanged. -/
theorem metadata_roundtrip (al : Alloc) (hal : Generous al) (e : Endian) (m : MetaData)
    (h : m.Fits) (pre post : Bytes) :
    MetaData.read al e (pre ++ (m.write e ++ post)) pre.length
      = .ok (m, pre.length + (m.write e).length) :=
  (Reads.metaData al hal e m h).mid pre post

/-- A section with two objects, a property and a raw-data index. -/
def exampleMetaData : MetaData where
  objects :=
    [{ path := ['/'], properties := [(['n'], .string ['é']), (['x'], .i32 (-1))], rawDataIndex := .none },
     { path := ['/', '\'', 'g', '\''], properties := [],
       rawDataIndex := .rawData { dataType := .doubleFloat, numberOfValues := 3 } }]

/-- Non-vacuity of C10, C11, C12. -/
theorem exampleMetaData_fits : exampleMetaData.Fits := by
  refine ⟨by decide, ?_⟩
  intro o ho
  simp only [exampleMetaData, List.mem_cons, List.not_mem_nil, or_false] at ho
  rcases ho with rfl | rfl
  · refine ⟨by show (utf8Enc _).length < _; decide, trivial, by decide, ?_⟩
    intro p hp
    simp only [List.mem_cons, List.not_mem_nil, or_false] at hp
    rcases hp with rfl | rfl
    · exact ⟨by show (utf8Enc _).length < _; decide, by show (utf8Enc _).length < _; decide⟩
    · exact ⟨by show (utf8Enc _).length < _; decide, trivial⟩
  · refine ⟨by show (utf8Enc _).length < _; decide, by constructor <;> first | decide | rfl,
      by decide, ?_⟩
    intro p hp
    simp at hp

/-! ## C12 -/

/-- C12, for segments with a metadata section: reading the bytes of a written segment returns the
    flags, offsets and metadata that were handed to the index, and leaves the reader behind the
    metadata section. -/
theorem segment_roundtrip_partial (al : Alloc) (hal : Generous al) (e : Endian) (toc : ToC)
    (m : MetaData) (data : Option DataToWrite) (h : m.Fits)
    (hs : (writeSegment e toc (some m) data).1.nextSegmentOffset < 2 ^ 64) (pre post : Bytes) :
    Segment.read al (pre ++ ((writeSegment e toc (some m) data).2 ++ post)) pre.length
      = .ok ((writeSegment e toc (some m) data).1, pre.length + (28 + m.size)) := by
  have hr := (Reads.segment al hal e toc m data h hs).mid pre (DataToWrite.optBytes data ++ post)
  rw [writeSegment_split, List.append_assoc, hr, length_header, length_writeMetaData]
  rfl

example : (writeSegment .big {} (some exampleMetaData) (some ⟨3, [1, 2, 3]⟩)).1.nextSegmentOffset
    < 2 ^ 64 := by decide

/-- C12 fails for every segment written without metadata: whatever the reader returns, it is not
    the segment that was indexed. -/
theorem segment_without_metadata_counterexample (al : Alloc) (e : Endian) (toc : ToC)
    (data : Option DataToWrite) (f : Bytes) (p q : Nat) :
    Segment.read al f p ≠ .ok ((writeSegment e toc none data).1, q) := by
  intro h
  have hnone : (writeSegment e toc none data).1.metaData = none := rfl
  suffices hs : ∀ s, Segment.read al f p = .ok (s, q) → s.metaData ≠ none from hs _ h hnone
  intro s hs
  unfold Segment.read at hs
  split at hs
  · cases hs
  · cases hs
  · split at hs
    · cases hs
    · rw [Rd.bind_eq] at hs
      split at hs
      · unfold Segment.readSegment at hs
        repeat
          rw [Rd.bind_eq] at hs
          split at hs
        · simp only [Rd.pure_apply, Except.ok.injEq, Prod.mk.injEq] at hs
          rw [← hs.1]
          simp
        all_goals cases hs
      · cases hs

/-- C12 counterexample on concrete bytes: one sample `1.0f64` written without metadata. The reader
    takes the raw data for a metadata section that is too short. -/
theorem segment_without_metadata_concrete_counterexample :
    Segment.read (fun _ => true)
      (writeSegment .little {} none (some ⟨8, [0, 0, 0, 0, 0, 0, 0xF0, 0x3F]⟩)).2 0
      = .ok ({ toc := { containsRawData := true }, nextSegmentOffset := 8, rawDataOffset := 0,
               metaData := some { objects := [] } }, 32) ∧
    Segment.read (fun _ => true)
      (writeSegment .little {} none (some ⟨8, [1, 0, 0, 0, 0, 0, 0xF0, 0x3F]⟩)).2 0
      = R.err (.ioError .unexpectedEof) := by
  constructor <;> decide +kernel

/-! ## C13 -/

/-- C13: a raw-data index in the DAQmx ranges (`0x6912xxxx` format changing scaler, `0x6913xxxx`
    digital line scaler) is rejected. -/
theorem daqmx_index_rejected (e : Endian) (n : Nat)
    (hn : n / 2 ^ 16 = 0x6912 ∨ n / 2 ^ 16 = 0x6913) (pre post : Bytes) :
    RawDataIndex.read e (pre ++ (encNat e 4 n ++ post)) pre.length
      = R.err .daqmxChannelsNotSupported := by
  have hlt : n < 2 ^ 32 := by omega
  have h := Reads.uint e 4 n hlt _ _ (At.mid pre (encNat e 4 n) post)
  unfold RawDataIndex.read
  rw [Rd.bind_ok h]
  rw [if_neg (by omega), if_neg (by omega)]
  by_cases h1 : 0x69120000 ≤ n ∧ n ≤ 0x6912FFFF
  · rw [if_pos h1]; rfl
  · rw [if_neg h1, if_pos (by omega)]; rfl

example : (0x69120000 + 77) / 2 ^ 16 = 0x6912 := by decide

/-- C13: a raw-data index with an unassigned type code is rejected. -/
theorem unknown_index_type_rejected (e : Endian) (l n : Nat) (hl : l < 2 ^ 32)
    (hl0 : l ≠ 0) (hl1 : l ≠ 0xFFFFFFFF) (hl2 : l / 2 ^ 16 ≠ 0x6912) (hl3 : l / 2 ^ 16 ≠ 0x6913)
    (hn : n < 2 ^ 32) (hu : Format.typeCodes.lookup n = none) (pre post : Bytes) :
    RawDataIndex.read e (pre ++ (encNat e 4 l ++ (encNat e 4 n ++ post))) pre.length
      = R.err (.unknownPropertyType n) := by
  have h := Reads.uint e 4 l hl _ _ (At.mid pre (encNat e 4 l) (encNat e 4 n ++ post))
  unfold RawDataIndex.read
  rw [Rd.bind_ok h]
  rw [if_neg hl0, if_neg hl1, if_neg (by omega), if_neg (by omega)]
  have h2 := type_code_reading e n hn (pre ++ encNat e 4 l) post
  rw [hu] at h2
  refine Rd.bind_error ?_
  simpa using h2

/-- C13: a property with an unassigned type code is rejected with that code; fixed-point and DAQmx
    properties are rejected as unsupported. -/
theorem unsupported_property_rejected (al : Alloc) (e : Endian) (n : Nat) (hn : n < 2 ^ 32)
    (pre post : Bytes) :
    (Format.typeCodes.lookup n = none →
      PropertyValue.read al e (pre ++ (encNat e 4 n ++ post)) pre.length
        = R.err (.unknownPropertyType n)) ∧
    (∀ t, Format.typeCodes.lookup n = some t → t = .fixedPoint ∨ t = .daqmxRawData →
      PropertyValue.read al e (pre ++ (encNat e 4 n ++ post)) pre.length
        = R.err (.unsupportedType t)) := by
  have h := type_code_reading e n hn pre post
  constructor
  · intro hu
    rw [hu] at h
    exact Rd.bind_error h
  · intro t ht hc
    rw [ht] at h
    unfold PropertyValue.read
    rw [Rd.bind_ok h]
    rcases hc with rfl | rfl <;> rfl

example : Format.typeCodes.lookup 0x4F = some .fixedPoint ∧ Format.typeCodes.lookup 0x50 = none := by
  decide

/-- C13: text that is not the UTF-8 encoding of any string is rejected. -/
theorem non_utf8_text_rejected (al : Alloc) (e : Endian) (b : Bytes)
    (hal : al (.str b.length) = true) (hb : b.length < 2 ^ 32) (hbad : ∀ t, b ≠ utf8Enc t)
    (pre post : Bytes) :
    (STy.string.storage al).read e (pre ++ ((encNat e 4 b.length ++ b) ++ post)) pre.length
      = R.err .stringFormatError := by
  have hat := At.append.mp (At.mid pre (encNat e 4 b.length ++ b) post)
  show (do let length ← Rd.uint e 4; readStringWithLength al length : Rd Text) _ _ = _
  rw [Rd.bind_ok (Reads.uint e 4 _ hb _ _ hat.1)]
  unfold readStringWithLength
  rw [if_pos hal, Rd.bind_ok (Reads.exact b _ _ hat.2), utf8Dec_eq_none.mpr hbad]
  rfl

/-- Non-vacuity: an over-long encoding of `/` is not UTF-8. -/
example : ∀ t, ([0xC0, 0xAF] : Bytes) ≠ utf8Enc t := utf8Dec_eq_none.mp (by decide)

/-- C13: text that is valid is never rejected for its format, whatever follows it. -/
theorem utf8_text_accepted (al : Alloc) (e : Endian) (t : Text)
    (hal : al (.str (utf8Enc t).length) = true) (ht : (utf8Enc t).length < 2 ^ 32)
    (pre post : Bytes) :
    (STy.string.storage al).read e
        (pre ++ ((encNat e 4 (utf8Enc t).length ++ utf8Enc t) ++ post)) pre.length
      = .ok (t, pre.length + (4 + (utf8Enc t).length)) := by
  have := (Reads.string al al e t ht hal).mid pre post
  have hw : (stringStorage al).write e t = encNat e 4 (utf8Enc t).length ++ utf8Enc t := by
    show encNat e 4 ((utf8Enc t).length % u32Lim) ++ utf8Enc t = _
    rw [Nat.mod_eq_of_lt ht]
  rw [hw, List.length_append, length_encNat] at this
  exact this

/-! ## C42 -/

/-- C42: converting a value into a property value and back returns it. -/
theorem property_conversion_roundtrip (t : STy) (v : t.Val) (p : PropertyValue)
    (h : PropertyValue.ofVal? t v = some p) : PropertyValue.toVal t p = .ok v := by
  cases t <;> simp only [PropertyValue.ofVal?, Option.some.injEq, reduceCtorEq] at h <;>
    subst h <;> rfl

/-- C42: a conversion succeeds only with the value that the property value was made of, and
    otherwise fails naming the stored and the requested type. -/
theorem property_conversion_exact (t : STy) (ht : t ≠ .extended) (p : PropertyValue) (al : Alloc) :
    (∃ v, PropertyValue.ofVal? t v = some p ∧ PropertyValue.toVal t p = .ok v) ∨
    ((∀ v, PropertyValue.ofVal? t v ≠ some p) ∧
      PropertyValue.toVal t p = R.err (.dataTypeMismatch p.datatype (t.storage al).natural)) := by
  cases t <;> first | exact absurd rfl ht | skip
  all_goals
    cases p <;>
    first
    | (left; exact ⟨_, rfl, rfl⟩)
    | (right; exact ⟨fun v => by simp [PropertyValue.ofVal?], rfl⟩)

/-- C42: the conversion into a property value is defined for every type but `ExtendedRaw`, and the
    stored type is the natural type of the value. -/
theorem property_conversion_total (t : STy) (ht : t ≠ .extended) (v : t.Val) (al : Alloc) :
    ∃ p, PropertyValue.ofVal? t v = some p ∧ p.datatype = (t.storage al).natural := by
  cases t <;> first | exact absurd rfl ht | exact ⟨_, rfl, rfl⟩

example : PropertyValue.toVal .f64 (.i32 5) = R.err (.dataTypeMismatch .i32 .doubleFloat) := rfl

end Tedium
