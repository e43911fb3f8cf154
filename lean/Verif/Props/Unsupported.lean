import Verif.Spec.Unsupported
import Verif.Props.UnitTypes

/-! # Files with unsupported content are not opened (C105) -/

namespace Tedium.Layout
open SegSpec WriteSpec

theorem refuses_of_mid {α : Type} {x : Rd α} {bs : Bytes} {e : Fail} (hne : bs ≠ [])
    (h : ∀ pre post, x (pre ++ (bs ++ post)) pre.length = .error e) : Refuses x bs e := by
  intro f p hat
  have hle := hat.le hne
  obtain ⟨post, hp⟩ := hat
  have := h (f.take p) post
  rw [hp, List.take_append_drop, List.length_take, Nat.min_eq_left (by omega)] at this
  exact this

theorem encNat_ne_nil (e : Endian) (n : Nat) : encNat e 4 n ≠ [] := fun h => by
  have := congrArg List.length h
  rw [length_encNat] at this
  cases this

theorem refuses_text (al : Alloc) (hal : Generous al) (e : Endian) {bs : Bytes} (h : BadText e bs) :
    Refuses (readText al e) bs (.err .stringFormatError) := by
  obtain ⟨len, raw, rfl, hn, hbad⟩ := h
  obtain ⟨hlt, rfl⟩ := (isNumber_iff ..).mp hn
  refine refuses_of_mid (fun h => encNat_ne_nil e _ (List.append_eq_nil_iff.mp h).1) fun pre post => ?_
  exact non_utf8_text_rejected al e raw (hal _) hlt (fun t => by rw [utf8Enc_eq]; exact hbad t) pre post

theorem refuses_property (al : Alloc) (hal : Generous al) (e : Endian) {err : TdmsError} {bs : Bytes}
    (h : BadProperty e err bs) : Refuses (ObjectMetaData.readProp al e) bs (.err err) := by
  unfold ObjectMetaData.readProp
  cases h with
  | name h => exact Refuses.first (refuses_text al hal e h)
  | @code _ code _ _ hx hy hu =>
    obtain ⟨h1, rfl⟩ := (isString_iff ..).mp hx
    obtain ⟨h2, rfl⟩ := (isNumber_iff ..).mp hy
    refine Refuses.bind (Reads.text al hal e _ h1) (Refuses.first ?_)
    exact refuses_of_mid (encNat_ne_nil _ _) fun pre post => (unsupported_property_rejected al e code h2 pre post).1 hu
  | @type _ t _ _ hx hy ht =>
    obtain ⟨h1, rfl⟩ := (isString_iff ..).mp hx
    have hy := (isType_iff e t (by rcases ht with rfl | rfl <;> exact ⟨nofun, nofun⟩) _).mp hy
    subst hy
    refine Refuses.bind (Reads.text al hal e _ h1) (Refuses.first ?_)
    exact refuses_of_mid (encNat_ne_nil _ _) fun pre post =>
      (unsupported_property_rejected al e t.code (by rcases ht with rfl | rfl <;> decide) pre post).2 t
        (by rcases ht with rfl | rfl <;> decide) ht
  | text hx hy hz =>
    obtain ⟨h1, rfl⟩ := (isString_iff ..).mp hx
    have hy := (isType_iff e .tdmsString ⟨nofun, nofun⟩ _).mp hy
    subst hy
    refine Refuses.bind (Reads.text al hal e _ h1) (Refuses.first ?_)
    unfold PropertyValue.read
    exact Refuses.bind (Reads.dataType e .tdmsString) (Refuses.first (refuses_text al hal e hz))

theorem reads_property (al : Alloc) (hal : Generous al) (e : Endian) (p : Text × PropertyValue)
    (h : Text.Fits p.1 ∧ p.2.Fits) : Reads (ObjectMetaData.readProp al e) (writeText e p.1 ++ p.2.write e) p := by
  unfold ObjectMetaData.readProp
  refine Reads.bind (Reads.text al hal e _ h.1) ?_
  exact Reads.bind_pure (Reads.property al hal e _ h.2) (Reads.pure _)

theorem refuses_badObject (al : Alloc) (hal : Generous al) (e : Endian) {err : TdmsError} {bs : Bytes}
    (h : BadObject e err bs) : Refuses (ObjectMetaData.read al e) bs (.err err) := by
  unfold ObjectMetaData.read
  cases h with
  | path h => exact Refuses.first (refuses_text al hal e h)
  | daqmx hx hy hn =>
    obtain ⟨h1, rfl⟩ := (isString_iff ..).mp hx
    obtain ⟨h2, rfl⟩ := (isNumber_iff ..).mp hy
    refine Refuses.bind (Reads.text al hal e _ h1) (Refuses.first ?_)
    exact refuses_of_mid (encNat_ne_nil _ _) fun pre post => daqmx_index_rejected e _ hn pre post
  | type hx hy h0 hf h12 h13 hz hu =>
    obtain ⟨h1, rfl⟩ := (isString_iff ..).mp hx
    obtain ⟨h2, rfl⟩ := (isNumber_iff ..).mp hy
    obtain ⟨h3, rfl⟩ := (isNumber_iff ..).mp hz
    refine Refuses.bind (Reads.text al hal e _ h1) (Refuses.first ?_)
    refine refuses_of_mid (fun h => encNat_ne_nil e _ (List.append_eq_nil_iff.mp h).1) fun pre post => ?_
    rw [List.append_assoc]
    exact unknown_index_type_rejected e _ _ h2 h0 hf h12 h13 h3 hu pre post
  | @property _ index count properties _ _ _ _ _ _ hx hus hi hn hps hlt hbad =>
    obtain ⟨h1, rfl⟩ := (isString_iff ..).mp hx
    obtain ⟨h2, rfl⟩ := (isIndex_iff e _ hus _).mp hi
    obtain ⟨h3, rfl⟩ := (isNumber_iff ..).mp hn
    obtain ⟨h4, rfl⟩ := (isList_iff (isProperty_iff e) ..).mp hps
    refine Refuses.bind (Reads.text al hal e _ h1) (Refuses.bind (Reads.rawIndex e _ h2)
      (Refuses.bind (Reads.uint e 4 _ h3) ?_))
    rw [if_pos (hal _), show count = properties.length + ((count - properties.length - 1) + 1) by omega]
    exact Refuses.first (Refuses.many (refuses_property al hal e hbad) _ properties
      fun p hp => reads_property al hal e p (h4 p hp))

theorem badObject_error {e : Endian} {err : TdmsError} {bs : Bytes} (h : BadObject e err bs) : err ≠ .endOfFile := by
  cases h with
  | property _ _ _ _ _ _ hb => cases hb <;> exact nofun
  | _ => exact nofun

end Tedium.Layout

namespace Tedium
open Layout SegSpec WriteSpec

/-- **C105.** Take a file that begins with segments that the library reads (`open_layout_partial`), followed by the
    lead-in of another segment whose metadata section announces more objects than the good ones that it begins with,
    and then has an object with unsupported content (`BadObject`): a path, a property name or a string value that is
    not UTF-8, a DAQmx index, an unknown type code, or a property of a type that is not supported. Whatever follows,
    whatever the flags say, and however long the segment claims to be, the library does not open the file: unless the
    segments before are in error themselves, the error is the one for that content. -/
theorem open_unsupported (al : Alloc) (hal : Generous al) (segments : List FileSegment)
    (hu : ∀ s ∈ segments, ∀ o ∈ s.metaData.objects, Usual o.rawDataIndex) (front : Bytes)
    (hfront : IsList IsSegment segments front)
    (e : Endian) (toc : ToC) (hflag : toc.bigEndian = true ↔ e = .big) (version next raw : Nat) (lead : Bytes)
    (hlead : IsLeadIn e toc version next raw lead) (count : Nat) (n : Bytes) (hn : IsNumber e 4 count n)
    (objects : List ObjectMetaData) (hus : ∀ o ∈ objects, Usual o.rawDataIndex) (good : Bytes)
    (hgood : IsList (IsObject e) objects good) (hcount : objects.length < count)
    (err : TdmsError) (bad rest : Bytes) (hbad : BadObject e err bad) :
    TdmsFile.new al (front ++ ((lead ++ (n ++ (good ++ bad))) ++ rest)) =
      match replay Index.new (segments.map FileSegment.segment) with
      | .error e => .error e
      | .ok _ => R.err err := by
  obtain ⟨hf, rfl⟩ := (isList_iff_of (item := IsSegment) (P := FileSegment.Fits) (w := FileSegment.encode) segments
    (fun s hs bs => isSegment_iff s (hu s hs) bs) front).mp hfront
  obtain ⟨⟨h1, h2, h3⟩, rfl⟩ := (isLeadIn_iff ..).mp hlead
  obtain ⟨h4, rfl⟩ := (isNumber_iff ..).mp hn
  obtain ⟨h5, rfl⟩ := (isList_iff_of (item := IsObject e) (P := ObjectMetaData.Fits) (w := ObjectMetaData.write e)
    objects (fun o ho bs => isObject_iff e o (hus o ho) bs) _).mp hgood
  have hbig : toc.bigEndian = e.isBig := by
    cases hs : toc.bigEndian <;> cases e <;> simp [hs, Endian.isBig] at hflag ⊢
  have hmd : Refuses (MetaData.read al e) (encNat e 4 count ++ (objects.flatMap (ObjectMetaData.write e) ++ bad))
      (.err err) := by
    unfold MetaData.read
    refine Refuses.bind (Reads.uint e 4 _ h4) ?_
    rw [if_pos (hal _), show count = objects.length + ((count - objects.length - 1) + 1) by omega]
    exact Refuses.first (Refuses.many (refuses_badObject al hal e hbad) _ objects
      fun o ho => Reads.object al hal e o (h5 o ho))
  have hseg : Refuses (Segment.read al) (tdsmTag ++ (toc.asBytes ++ (encNat e 4 version ++ (encNat e 8 next ++
      encNat e 8 raw))) ++ (encNat e 4 count ++ (objects.flatMap (ObjectMetaData.write e) ++ bad))) (.err err) := by
    intro g p hat
    simp only [List.append_assoc] at hat
    rw [At.append] at hat
    obtain ⟨htag, hat⟩ := hat
    have h4 := Reads.exact' (n := 4) (bs := tdsmTag) rfl g p htag
    unfold Segment.read
    rw [h4]
    dsimp only
    rw [if_neg (by simp)]
    refine (Refuses.bind (cs := encNat e 4 version ++ (encNat e 8 next ++ (encNat e 8 raw ++
      (encNat e 4 count ++ (objects.flatMap (ObjectMetaData.write e) ++ bad)))))
      (Reads.exact' (length_encNat .little 4 toc.toU32)) ?_) g _ hat
    rw [decNat_encNat, Nat.mod_eq_of_lt (toU32_lt _), fromU32_toU32, hbig, isBig_endian]
    unfold Segment.readSegment
    refine Refuses.bind (Reads.uint _ 4 _ h1) (Refuses.bind (Reads.uint _ 8 _ h2) (Refuses.bind (Reads.uint _ 8 _ h3) ?_))
    exact Refuses.first hmd
  have hr := hseg _ _ (At.mid (segments.flatMap FileSegment.encode) _ rest)
  have hp := FileSegment.parses_done al hal segments hf _ hr
  unfold TdmsFile.new
  rw [buildIndex_eq hp]
  unfold openResult
  cases replay Index.new (segments.map FileSegment.segment) with
  | error e => rfl
  | ok ix =>
    dsimp only
    rw [if_neg (fun h => badObject_error hbad (Fail.err.inj h))]
    rfl

/-- An object with the path `/`, no raw data index, and two properties, of which the second one has the type
    fixed point. -/
def fixedPointObject : Bytes :=
  ([1, 0, 0, 0] ++ [0x2F]) ++ ([0xFF, 0xFF, 0xFF, 0xFF] ++ ([2, 0, 0, 0] ++
    (((([1, 0, 0, 0] ++ [0x70]) ++ ([5, 0, 0, 0] ++ [7])) ++ []) ++ (([1, 0, 0, 0] ++ [0x71]) ++ [0x4F, 0, 0, 0]))))

/-- An object with the path `/` and a DAQmx index. -/
def daqmxObject : Bytes := ([1, 0, 0, 0] ++ [0x2F]) ++ [0x69, 0, 0x12, 0x69]

/-- Such objects satisfy the description... -/
theorem unsupported_objects :
    BadObject .little (.unsupportedType .fixedPoint) fixedPointObject ∧
    BadObject .little .daqmxChannelsNotSupported daqmxObject ∧
    BadObject .little .stringFormatError ([2, 0, 0, 0] ++ [0xC0, 0xAF]) := by
  have num : ∀ (w n : Nat) (bs : Bytes), n < 256 ^ w ∧ bs = encNat .little w n → IsNumber .little w n bs :=
    fun w n bs h => (isNumber_iff .little w n bs).mpr h
  have str : ∀ (t : Text) (bs : Bytes), (utf8Enc t).length < 2 ^ 32 ∧ bs = writeText .little t → IsString .little t bs :=
    fun t bs h => (isString_iff .little t bs).mpr h
  refine ⟨?_, ?_, ?_⟩
  · refine .property (path := ['/']) (index := .none) (count := 2) (properties := [(['p'], .u8 7)])
      (str _ _ (by decide +kernel)) trivial (num _ _ _ (by decide)) (num _ _ _ (by decide))
      ⟨_, _, rfl, ⟨_, _, _, rfl, str _ _ (by decide +kernel), ⟨5, by decide, num _ _ _ (by decide)⟩,
        num 1 7 _ (by decide)⟩, rfl⟩ (by decide)
      (.type (name := ['q']) (str _ _ (by decide +kernel)) ⟨0x4F, by decide, num _ _ _ (by decide)⟩ (Or.inl rfl))
  · exact .daqmx (path := ['/']) (n := 0x69120069) (str _ _ (by decide +kernel)) (num _ _ _ (by decide)) (Or.inl (by decide))
  · refine .path ⟨_, _, rfl, num _ _ _ (by decide), fun t => ?_⟩
    rw [← utf8Enc_eq]
    exact utf8Dec_eq_none.mp (by decide) t

/-- ... and a file that could be opened cannot be opened any more with such a segment at its end. -/
theorem open_unsupported_example :
    let lead : Bytes := [0x54, 0x44, 0x53, 0x6D, 2, 0, 0, 0, 0x69, 0x12, 0, 0, 0, 0, 0, 0, 0, 0, 0, 0, 0, 0, 0, 0, 0, 0, 0, 0]
    IsLeadIn .little { containsMetaData := true } 4713 0 0 lead ∧
    (TdmsFile.new anyAlloc layoutExample).isOk = true ∧
    TdmsFile.new anyAlloc (layoutExample ++ (lead ++ ([1, 0, 0, 0] ++ fixedPointObject)))
      = R.err (.unsupportedType .fixedPoint) ∧
    TdmsFile.new anyAlloc (layoutExample ++ (lead ++ ([1, 0, 0, 0] ++ daqmxObject)))
      = R.err .daqmxChannelsNotSupported := by
  refine ⟨(isLeadIn_iff ..).mpr (by decide +kernel), ?_, ?_, ?_⟩ <;> decide +kernel

end Tedium
