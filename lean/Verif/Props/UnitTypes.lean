import Verif.Props.Layout

/-!
# Files with doubles or extended floats that have a unit (C47)

`open_layout_counterexample` has one file that follows the published layout and that the library does not open,
because it has other codes for two of the types. Here: it opens no such file.
-/

namespace Tedium.Layout
open SegSpec WriteSpec

/-- The reading action `x` fails on these bytes, wherever they stand. -/
def Refuses {α : Type} (x : Rd α) (bs : Bytes) (e : Fail) : Prop := ∀ f p, At f p bs → x f p = .error e

theorem Refuses.bind {α β : Type} {x : Rd α} {k : α → Rd β} {bs cs : Bytes} {a : α} {e : Fail}
    (h1 : Reads x bs a) (h2 : Refuses (k a) cs e) : Refuses (x >>= k) (bs ++ cs) e := by
  intro f p h
  obtain ⟨ha, hb⟩ := At.append.mp h
  rw [Rd.bind_ok (h1 f p ha), h2 f _ hb]

theorem Refuses.first {α β : Type} {x : Rd α} {k : α → Rd β} {bs : Bytes} {e : Fail} (h : Refuses x bs e) :
    Refuses (x >>= k) bs e :=
  fun f p hat => Rd.bind_error (h f p hat)

theorem Refuses.more {α : Type} {x : Rd α} {bs cs : Bytes} {e : Fail} (h : Refuses x bs e) : Refuses x (bs ++ cs) e :=
  fun f p hat => h f p (At.append.mp hat).1

theorem Refuses.many {α : Type} {x : Rd α} {enc : α → Bytes} {bs : Bytes} {e : Fail} (hx : Refuses x bs e) (k : Nat) :
    ∀ as : List α, (∀ a ∈ as, Reads x (enc a) a) → Refuses (Rd.many x (as.length + (k + 1))) (as.flatMap enc ++ bs) e
  | [], _ => by
    rw [List.length_nil, Nat.zero_add]
    exact Refuses.first hx
  | a :: as, h => by
    rw [List.length_cons, show as.length + 1 + (k + 1) = (as.length + (k + 1)) + 1 by omega, List.flatMap_cons,
      List.append_assoc]
    exact Refuses.bind (h a List.mem_cons_self)
      (Refuses.first (Refuses.many hx k as fun b hb => h b (List.mem_cons_of_mem _ hb)))

theorem isList_split {α : Type} {item : α → Bytes → Prop} : ∀ (as bs : List α) (x : Bytes),
    IsList item (as ++ bs) x → ∃ y z, x = y ++ z ∧ IsList item as y ∧ IsList item bs z
  | [], _, x, h => ⟨[], x, rfl, rfl, h⟩
  | a :: as, bs, _, ⟨u, v, hx, hu, hv⟩ => by
    obtain ⟨y, z, rfl, hy, hz⟩ := isList_split as bs v hv
    exact ⟨u ++ y, z, by rw [hx, List.append_assoc], ⟨u, y, rfl, hu, hy⟩, hz⟩

/-- The published code of a type with a unit for which this library has another one. -/
def UnitCode (t : DataType) (code : Nat) : Prop :=
  (t = .doubleFloatWithUnit ∧ code = 0x1A) ∨ (t = .extendedFloatWithUnit ∧ code = 0x1B)

theorem refuses_type (e : Endian) {t : DataType} {code : Nat} (h : UnitCode t code) {bs : Bytes} (ht : IsType e t bs) :
    Refuses (readDataType e) bs (.err (.unknownPropertyType code)) := by
  obtain ⟨c, hc, hn⟩ := ht
  obtain ⟨hlt, rfl⟩ := (isNumber_iff ..).mp hn
  have : c = code := by
    rcases h with ⟨rfl, rfl⟩ | ⟨rfl, rfl⟩ <;> simp [Format.publishedCodes] at hc <;> exact hc
  subst this
  intro f p hat
  unfold readDataType
  rw [Rd.bind_ok (Reads.uint e 4 c hlt f p hat)]
  rcases h with ⟨_, rfl⟩ | ⟨_, rfl⟩ <;> rfl

theorem refuses_object (al : Alloc) (hal : Generous al) (e : Endian) {o : ObjectMetaData} {m : RawDataMeta} {code : Nat}
    (ho : o.rawDataIndex = .rawData m) (h : UnitCode m.dataType code) {bs : Bytes} (hb : IsObject e o bs) :
    Refuses (ObjectMetaData.read al e) bs (.err (.unknownPropertyType code)) := by
  obtain ⟨x, y, z, rfl, hx, hy, _⟩ := hb
  obtain ⟨hp, rfl⟩ := (isString_iff ..).mp hx
  rw [ho] at hy
  have hs : m.dataType ≠ .tdmsString := by rcases h with ⟨h, _⟩ | ⟨h, _⟩ <;> rw [h] <;> exact nofun
  obtain ⟨_, len, ty, dim, n, rfl, h1, h2, _⟩ := hy.1 hs
  obtain ⟨_, rfl⟩ := (isNumber_iff ..).mp h1
  unfold ObjectMetaData.read
  refine Refuses.bind (Reads.text al hal e _ hp) (Refuses.more (Refuses.first ?_))
  unfold RawDataIndex.read
  refine Refuses.bind (Reads.uint e 4 20 (by decide)) ?_
  exact Refuses.more (Refuses.first (refuses_type e h h2))

theorem refuses_metaData (al : Alloc) (hal : Generous al) (e : Endian) {m : MetaData} {before after : List ObjectMetaData}
    {o : ObjectMetaData} {f : RawDataMeta} {code : Nat} (hm : m.objects = before ++ o :: after)
    (hu : ∀ b ∈ before, Usual b.rawDataIndex) (ho : o.rawDataIndex = .rawData f) (h : UnitCode f.dataType code)
    {bs : Bytes} (hb : IsMetaData e m bs) :
    Refuses (MetaData.read al e) bs (.err (.unknownPropertyType code)) := by
  obtain ⟨n, x, rfl, hn, hx⟩ := hb
  obtain ⟨hlt, rfl⟩ := (isNumber_iff ..).mp hn
  rw [hm] at hx
  obtain ⟨y, z, rfl, hy, u, v, rfl, hu', _⟩ := isList_split _ _ _ hx
  obtain ⟨hf, rfl⟩ := (isList_iff_of (item := IsObject e) (P := ObjectMetaData.Fits) (w := ObjectMetaData.write e)
    before (fun o ho bs => isObject_iff e o (hu o ho) bs) _).mp hy
  unfold MetaData.read
  refine Refuses.bind (Reads.uint e 4 _ hlt) ?_
  rw [if_pos (hal _), hm, List.length_append, List.length_cons]
  refine Refuses.first ?_
  rw [← List.append_assoc]
  exact Refuses.more (Refuses.many (refuses_object al hal e ho h hu') _ before
    fun b hb => Reads.object al hal e b (hf b hb))

theorem refuses_segment (al : Alloc) (hal : Generous al) {s : FileSegment} {before after : List ObjectMetaData}
    {o : ObjectMetaData} {f : RawDataMeta} {code : Nat} (hm : s.metaData.objects = before ++ o :: after)
    (hu : ∀ b ∈ before, Usual b.rawDataIndex) (ho : o.rawDataIndex = .rawData f) (h : UnitCode f.dataType code)
    {bs : Bytes} (hb : IsSegment s bs) :
    Refuses (Segment.read al) bs (.err (.unknownPropertyType code)) := by
  obtain ⟨hflag, lead, md, rfl, hlead, hmd⟩ := hb
  obtain ⟨⟨h1, h2, h3⟩, rfl⟩ := (isLeadIn_iff ..).mp hlead
  have hmd := refuses_metaData al hal _ hm hu ho h hmd
  have hbig : s.toc.bigEndian = s.endian.isBig := by
    cases hs : s.toc.bigEndian <;> cases he : s.endian <;> simp [hs, he, Endian.isBig] at hflag ⊢
  intro g p hat
  simp only [List.append_assoc] at hat
  rw [At.append] at hat
  obtain ⟨htag, hat⟩ := hat
  have h4 := Reads.exact' (n := 4) (bs := tdsmTag) rfl g p htag
  unfold Segment.read
  rw [h4]
  dsimp only
  rw [if_neg (by simp)]
  refine (Refuses.bind (cs := encNat s.endian 4 s.version ++ (encNat s.endian 8 (md.length + s.rest.length) ++
    (encNat s.endian 8 s.rawOffset ++ (md ++ s.rest))))
    (Reads.exact' (length_encNat .little 4 s.toc.toU32)) ?_) g _ hat
  rw [decNat_encNat, Nat.mod_eq_of_lt (toU32_lt _), fromU32_toU32, hbig, isBig_endian]
  unfold Segment.readSegment
  refine Refuses.bind (Reads.uint _ 4 _ h1) (Refuses.bind (Reads.uint _ 8 _ h2) (Refuses.bind (Reads.uint _ 8 _ h3) ?_))
  exact Refuses.more (Refuses.first hmd)

end Tedium.Layout

namespace Tedium
open Layout SegSpec WriteSpec

/-- **C47, types with a unit.** Take a file of the published layout that begins with segments that the library reads
    (`open_layout_partial`), followed by a segment in which the first index that it does not read as published is
    that of a channel of doubles, or extended floats, with a unit, and by anything else. The library does not open
    it: unless the segments before are in error themselves, the error is `UnknownPropertyType` with the published
    code of the type. -/
theorem open_unit_types (al : Alloc) (hal : Generous al) (segments : List FileSegment)
    (hu : ∀ s ∈ segments, ∀ o ∈ s.metaData.objects, Usual o.rawDataIndex) (front : Bytes)
    (hfront : IsList IsSegment segments front) (s : FileSegment) (before after : List ObjectMetaData)
    (o : ObjectMetaData) (m : RawDataMeta) (hm : s.metaData.objects = before ++ o :: after)
    (hb : ∀ b ∈ before, Usual b.rawDataIndex) (ho : o.rawDataIndex = .rawData m)
    (hty : m.dataType = .doubleFloatWithUnit ∨ m.dataType = .extendedFloatWithUnit) (segment rest : Bytes)
    (hs : IsSegment s segment) :
    TdmsFile.new al (front ++ (segment ++ rest)) =
      match replay Index.new (segments.map FileSegment.segment) with
      | .error e => .error e
      | .ok _ => R.err (.unknownPropertyType (if m.dataType = .doubleFloatWithUnit then 0x1A else 0x1B)) := by
  obtain ⟨hf, rfl⟩ := (isList_iff_of (item := IsSegment) (P := FileSegment.Fits) (w := FileSegment.encode) segments
    (fun s hs bs => isSegment_iff s (hu s hs) bs) front).mp hfront
  have hcode : UnitCode m.dataType (if m.dataType = .doubleFloatWithUnit then 0x1A else 0x1B) := by
    rcases hty with h | h <;> rw [h]
    · exact Or.inl ⟨rfl, rfl⟩
    · exact Or.inr ⟨rfl, rfl⟩
  have hr := refuses_segment al hal hm hb ho hcode hs _ _ (At.mid (segments.flatMap FileSegment.encode) segment rest)
  have hp := FileSegment.parses_done al hal segments hf (segment ++ rest) hr
  unfold TdmsFile.new
  rw [buildIndex_eq hp]
  unfold openResult
  cases replay Index.new (segments.map FileSegment.segment) with
  | error e => rfl
  | ok ix => rfl

/-- The hypotheses hold for `layoutExample` followed by `unitLayoutExample`: the file could be opened before the
    second segment was added, and cannot be opened any more. -/
theorem open_unit_types_example :
    IsList IsSegment [layoutExampleSegment] layoutExample ∧ (∃ s o m, IsSegment s unitLayoutExample ∧
      s.metaData.objects = [o] ∧ o.rawDataIndex = .rawData m ∧ m.dataType = .doubleFloatWithUnit) ∧
    (TdmsFile.new anyAlloc layoutExample).isOk = true ∧
    TdmsFile.new anyAlloc (layoutExample ++ unitLayoutExample) = R.err (.unknownPropertyType 0x1A) := by
  have num : ∀ (w n : Nat) (bs : Bytes), n < 256 ^ w ∧ bs = encNat .little w n → IsNumber .little w n bs :=
    fun w n bs h => (isNumber_iff .little w n bs).mpr h
  refine ⟨open_layout_example.2.1, ⟨
    { endian := .little
      toc := { containsMetaData := true, containsRawData := true, containsNewObjectList := true }
      version := 4713, rawOffset := 40
      metaData := { objects := [
        { path := "/'g'/'a'".toList, properties := []
          rawDataIndex := .rawData { dataType := .doubleFloatWithUnit, numberOfValues := 1 } }] }
      rest := [0, 0, 0, 0, 0, 0, 0, 0] }, _, _, ⟨⟨nofun, nofun⟩, _, _, rfl, ?_, ?_⟩, rfl, rfl, rfl⟩, ?_, ?_⟩
  · exact (isLeadIn_iff ..).mpr (by decide +kernel)
  · refine ⟨_, _, rfl, num _ _ _ (by decide), _, _, rfl, ⟨_, _, _, rfl, ⟨_, rfl, num _ _ _ (by decide +kernel)⟩, ⟨?_, ?_⟩,
      ⟨_, _, rfl, num _ _ _ (by decide), rfl⟩⟩, rfl⟩
    · exact fun _ => ⟨rfl, _, _, _, _, rfl, num _ _ _ (by decide), ⟨0x1A, by decide, num _ _ _ (by decide)⟩,
        num _ _ _ (by decide), num _ _ _ (by decide)⟩
    · exact nofun
  · decide +kernel
  · decide +kernel

end Tedium
