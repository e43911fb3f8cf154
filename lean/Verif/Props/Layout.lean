import Verif.Proofs.Layout

/-!
# Files follow the published layout of the format (C47)

`Spec/Layout.lean` describes the bytes. Here: files with that layout are opened as what they say, and what
the library writes has that layout.
-/

namespace Tedium
open Layout SegSpec WriteSpec

/-! ## Opening -/

/-- **C47, opening** (partial: segments with metadata, no string channels, no doubles or extended floats
    with a unit). Bytes that are segments of the published layout open as those segments: with the indexing
    of their contents, one after the other, and with its error if it fails. Up to three more bytes at the
    end do not matter. -/
theorem open_layout_partial (al : Alloc) (hal : Generous al) (segments : List FileSegment)
    (hu : ∀ s ∈ segments, ∀ o ∈ s.metaData.objects, Usual o.rawDataIndex) (file tail : Bytes)
    (hfile : IsList IsSegment segments file) (ht : tail.length < 4) :
    TdmsFile.new al (file ++ tail) =
      (replay Index.new (segments.map FileSegment.segment)).map fun index => ⟨index, file ++ tail⟩ := by
  have hl := isList_iff_of (item := IsSegment) (P := FileSegment.Fits) (w := FileSegment.encode) segments
    (fun s hs bs => isSegment_iff s (hu s hs) bs) file
  obtain ⟨hf, rfl⟩ := hl.mp hfile
  unfold TdmsFile.new
  rw [(open_segments al hal segments hf tail).1 ht]
  cases replay Index.new (segments.map FileSegment.segment) <;> rfl

/-- What is opened is determined by the layout: the same bytes are not two different lists of segments. -/
theorem layout_unambiguous (s s' : FileSegment) (hu : ∀ o ∈ s.metaData.objects, Usual o.rawDataIndex)
    (hu' : ∀ o ∈ s'.metaData.objects, Usual o.rawDataIndex) (bs : Bytes) (h : IsSegment s bs)
    (h' : IsSegment s' bs) : s.segment = s'.segment := by
  obtain ⟨h1, h2⟩ := (isSegment_iff s hu bs).mp h
  obtain ⟨h1', h2'⟩ := (isSegment_iff s' hu' bs).mp h'
  have r := FileSegment.read_at (fun _ => true) (fun _ => rfl) s h1 [] s.rest
  have r' := FileSegment.read_at (fun _ => true) (fun _ => rfl) s' h1' [] s'.rest
  change Segment.read _ s.encode 0 = _ at r
  change Segment.read _ s'.encode 0 = _ at r'
  rw [← h2, h2', r'] at r
  exact (congrArg Prod.fst (Except.ok.inj r)).symm

/-- A file byte by byte: a little-endian segment with one channel `/'g'/'a'` of three `i16` values and the
    property `p` = `5`. -/
def layoutExample : Bytes :=
  [0x54, 0x44, 0x53, 0x6D, 0x0E, 0, 0, 0, 0x69, 0x12, 0, 0, 59, 0, 0, 0, 0, 0, 0, 0, 53, 0, 0, 0, 0, 0, 0, 0,
   1, 0, 0, 0,
   8, 0, 0, 0, 0x2F, 0x27, 0x67, 0x27, 0x2F, 0x27, 0x61, 0x27,
   20, 0, 0, 0, 2, 0, 0, 0, 1, 0, 0, 0, 3, 0, 0, 0, 0, 0, 0, 0,
   1, 0, 0, 0,
   1, 0, 0, 0, 0x70, 3, 0, 0, 0, 5, 0, 0, 0,
   10, 0, 11, 0, 0xFF, 0xFF]

/-- What these bytes say. -/
def layoutExampleSegment : FileSegment :=
  { endian := .little
    toc := { containsMetaData := true, containsRawData := true, containsNewObjectList := true }
    version := 4713, rawOffset := 53
    metaData := { objects := [
      { path := "/'g'/'a'".toList, properties := [("p".toList, .i32 5)]
        rawDataIndex := .rawData { dataType := .i16, numberOfValues := 3 } }] }
    rest := [10, 0, 11, 0, 0xFF, 0xFF] }

/-- The hypotheses of `open_layout_partial` hold for these bytes, and the library finds in them what they
    say. -/
theorem open_layout_example :
    (∀ s ∈ [layoutExampleSegment], ∀ o ∈ s.metaData.objects, Usual o.rawDataIndex) ∧
    IsList IsSegment [layoutExampleSegment] layoutExample ∧
    (do let t ← TdmsFile.new anyAlloc layoutExample
        let p ← t.readProperty (.channel "g".toList "a".toList) "p".toList
        let v ← t.readChannel (STy.i16.storage anyAlloc) (chan "a") (vals16 [0, 0, 0])
        return (p, v)) = .ok (some (.i32 5), vals16 [10, 11, 65535]) := by
  have hu : ∀ s ∈ [layoutExampleSegment], ∀ o ∈ s.metaData.objects, Usual o.rawDataIndex := by
    intro s hs o ho
    cases List.mem_singleton.mp hs
    cases List.mem_singleton.mp ho
    exact ⟨nofun, nofun, nofun⟩
  refine ⟨hu, ⟨layoutExample, [], (List.append_nil _).symm, ?_, rfl⟩, ?_⟩
  · refine (isSegment_iff _ (hu _ List.mem_cons_self) _).mpr ⟨⟨rfl, by decide, by decide, by decide +kernel,
      ⟨by decide, fun o ho => ?_⟩⟩, by decide +kernel⟩
    cases List.mem_singleton.mp ho
    refine ⟨by unfold Text.Fits; decide +kernel, by constructor <;> decide, by decide, fun x hx => ?_⟩
    cases List.mem_singleton.mp hx
    exact ⟨by unfold Text.Fits; decide +kernel, trivial⟩
  · decide +kernel

/-! ## Writing -/

/-- **C47, property writes.** In any state, the bytes that a property write adds to the file are one segment
    of the published layout: version 4713, metadata with the one object, without raw data index, with the
    properties in the given order, and no raw data. (The hypotheses say that lengths fit into their fields.) -/
theorem property_write_layout (t : TdmsFile) (e : Endian) (path : PropertyPath)
    (properties : List (Text × PropertyValue)) (hp : Text.Fits path.path) (hn : properties.length < 2 ^ 32)
    (hv : ∀ x ∈ properties, Text.Fits x.1 ∧ x.2.Fits)
    (hsize : (t.writeProperties e path properties).2.bytes.length < 2 ^ 64) :
    ∃ segment : Bytes, (t.writeProperties e path properties).2.bytes = t.bytes ++ segment ∧
      IsSegment { endian := e
                  toc := { containsMetaData := true, bigEndian := decide (e = .big) }
                  version := 4713
                  rawOffset := segment.length - 28
                  metaData := { objects := [{ path := path.path, properties, rawDataIndex := .none }] }
                  rest := [] } segment := by
  have hb : (t.writeProperties e path properties).2.bytes = t.bytes ++ (propertySegment e path properties).2 := rfl
  rw [hb] at hsize ⊢
  refine ⟨_, rfl, ?_⟩
  rw [List.length_append] at hsize
  generalize hm : ({ objects := [{ path := path.path, properties, rawDataIndex := .none }] } : MetaData) = m
  have hmf : m.Fits := by
    subst hm
    exact ⟨by show 1 < 2 ^ 32; decide, fun o ho => by
      rw [List.mem_singleton.mp ho]; exact ⟨hp, trivial, hn, hv⟩⟩
  have hseg : (propertySegment e path properties).2 = (writeSegment e {} (some m) none).2 := by rw [← hm]; rfl
  have hlen : (propertySegment e path properties).2.length = 28 + m.size := by
    rw [hseg, writeSegment_split]
    simp only [List.length_append, length_encNat, length_writeMetaData]
    show 4 + (4 + (4 + (8 + (8 + m.size)))) + 0 = _
    omega
  refine (isSegment_iff _ (fun o ho => ?_) _).mpr ⟨⟨?_, (by show 4713 < 2 ^ 32; decide), ?_, ?_, hmf⟩, ?_⟩
  · subst hm
    rw [List.mem_singleton.mp ho]
    trivial
  · cases e <;> rfl
  · show _ - 28 < 2 ^ 64
    omega
  · show m.size + 0 < 2 ^ 64
    omega
  · rw [hlen, hseg, writeSegment_split]
    unfold FileSegment.encode FileSegment.head
    dsimp only
    rw [show 28 + m.size - 28 = m.size by omega]
    cases e <;> rfl

/-- **C47, data writes** (partial: no strings and extended floats). In any state, the bytes that a data
    write with acceptable arguments adds to the file are one segment of the published layout: a lead-in with
    version 4713, the byte order, the layout of the data, and the sizes that the segment has; then, if the
    flags say so, metadata that lists the channels in order, without properties, each with the number of
    values per channel or a reference to the previous index; then all the values in order. -/
theorem data_write_layout_partial (al : Alloc) (t : TdmsFile) (e : Endian) (ty : STy) (hty : SizedTy ty)
    (chs : List ChannelPath) (vals : List ty.Val) (layout : DataLayout) (hne : chs ≠ [])
    (hdiv : chs.length ∣ vals.length) (hfit : ∀ c ∈ chs, Text.Fits c.path) (hcount : chs.length < 2 ^ 32)
    (hsize : (t.writeChannels (ty.storage al) e chs vals layout).2.bytes.length < 2 ^ 64) :
    ∃ (toc : ToC) (lead md raw : Bytes),
      (t.writeChannels (ty.storage al) e chs vals layout).2.bytes = t.bytes ++ (lead ++ (md ++ raw)) ∧
      IsLeadIn e toc 4713 (md.length + raw.length) md.length lead ∧
      (toc.bigEndian = true ↔ e = .big) ∧ toc.containsRawData = true ∧
      (toc.dataIsInterleaved = true ↔ layout = .interleaved) ∧ toc.containsDaqmxRawData = false ∧
      toc.containsNewObjectList = toc.containsMetaData ∧
      (toc.containsMetaData = false → md = []) ∧
      (toc.containsMetaData = true → ∃ m, IsMetaData e m md ∧
        m.objects.map (·.path) = chs.map ChannelPath.path ∧
        ∀ o ∈ m.objects, o.properties = [] ∧ (o.rawDataIndex = .matchPrevious ∨
          o.rawDataIndex = .rawData { dataType := sampleType ty, numberOfValues := vals.length / chs.length
                                      totalSizeBytes := none })) ∧
      IsList (IsSample e ty) vals raw := by
  obtain ⟨s, bs, heq, _, hnew, hent, hpaths, hmd, _, _, hlen, toc, htoc, hint, hdaq⟩ :=
    writeChannels_segment_flags (ty.storage al) e t chs vals layout hne hdiv
  have hnat : (ty.storage al).natural = sampleType ty := by cases ty <;> rfl
  have hdl : (vals.flatMap ((ty.storage al).write e)).length = (ty.storage al).memSize * vals.length :=
    length_flatMap_const _ _ _ (fun v _ => length_write_sized al hty e v)
  rw [heq] at hsize ⊢
  dsimp only at hsize ⊢
  rw [List.length_append, hlen] at hsize
  have hs : s = (writeSegment e toc s.metaData (some (TdmsFile.sliceData (ty.storage al) e vals))).1 :=
    congrArg Prod.fst htoc
  have hb : bs = (writeSegment e toc s.metaData (some (TdmsFile.sliceData (ty.storage al) e vals))).2 :=
    congrArg Prod.snd htoc
  have hstoc : s.toc = finalToC e toc s.metaData (some (TdmsFile.sliceData (ty.storage al) e vals)) :=
    congrArg Segment.toc hs
  have hmdl : (MetaData.optWrite e s.metaData).length = MetaData.optSize s.metaData := by
    cases s.metaData with
    | none => rfl
    | some m => exact length_writeMetaData e m
  have hsome : s.metaData.isSome = decide (Diverges (t.index.activeObjects.map (·.path)) (chs.map ChannelPath.path)) := by
    by_cases hd : Diverges (t.index.activeObjects.map (·.path)) (chs.map ChannelPath.path)
    · rw [decide_eq_true hd]
      cases hm : s.metaData with
      | none => exact absurd hd (hmd.mp hm)
      | some m => rfl
    · rw [decide_eq_false hd, hmd.mpr hd]; rfl
  refine ⟨s.toc, tdsmTag ++ (s.toc.asBytes ++ (encNat e 4 4713 ++ (encNat e 8 (MetaData.optSize s.metaData
      + (ty.storage al).memSize * vals.length) ++ encNat e 8 (MetaData.optSize s.metaData)))),
    MetaData.optWrite e s.metaData, vals.flatMap ((ty.storage al).write e), ?_, ?_, ?_, ?_, ?_, ?_, ?_, ?_, ?_,
    isSamples al e hty vals⟩
  · rw [hb, hstoc]
    simp only [writeSegment, List.append_assoc]
    rfl
  · rw [hmdl, hdl]
    exact (isLeadIn_iff ..).mpr ⟨⟨by decide, by rw [← hdl]; omega, by omega⟩, rfl⟩
  · rw [hstoc]
    cases e <;> simp [finalToC, Endian.isBig]
  · rw [hstoc]; rfl
  · rw [hstoc]
    show toc.dataIsInterleaved = true ↔ _
    rw [hint, decide_eq_true_iff]
  · rw [hstoc]
    exact hdaq
  · rw [hnew, ← hsome, hstoc]
    rfl
  · intro h
    rw [hstoc] at h
    change s.metaData.isSome = false at h
    rw [Option.isSome_eq_false_iff.mp h |> Option.isNone_iff_eq_none.mp]
    rfl
  · intro h
    rw [hstoc] at h
    change s.metaData.isSome = true at h
    have hd : Diverges (t.index.activeObjects.map (·.path)) (chs.map ChannelPath.path) := by
      rw [hsome] at h
      exact of_decide_eq_true h
    rw [if_pos hd] at hpaths
    cases hm : s.metaData with
    | none => rw [hm] at h; cases h
    | some m =>
      have hento : entriesOf s = m.objects := by unfold entriesOf; rw [hm]
      rw [hento] at hpaths hent
      have hent' : ∀ o ∈ m.objects, o.properties = [] ∧ (o.rawDataIndex = .matchPrevious ∨
          o.rawDataIndex = .rawData { dataType := sampleType ty, numberOfValues := vals.length / chs.length
                                      totalSizeBytes := none }) := by
        intro o ho
        have := hent o ho
        unfold writtenFormat at this
        rw [hnat] at this
        exact this
      refine ⟨m, (isMetaData_iff e m (fun o ho => ?_) _).mpr ⟨⟨?_, fun o ho => ?_⟩, rfl⟩, hpaths, hent'⟩
      · rcases (hent' o ho).2 with h | h <;> rw [h]
        · trivial
        · refine ⟨?_, ?_, ?_⟩ <;> cases ty <;> first | (exact absurd rfl hty.2) | exact nofun
      · rw [← List.length_map (f := (·.path)), hpaths, List.length_map]; exact hcount
      · have hop : o.path ∈ chs.map ChannelPath.path := by rw [← hpaths]; exact List.mem_map_of_mem ho
        obtain ⟨c, hc, hcp⟩ := List.mem_map.mp hop
        refine ⟨?_, ?_, ?_, ?_⟩
        · rw [← hcp]; exact hfit c hc
        · rcases (hent' o ho).2 with h | h <;> rw [h]
          · trivial
          · refine ⟨?_, rfl⟩
            show vals.length / chs.length < 2 ^ 64
            have h1 : vals.length ≤ (vals.flatMap ((ty.storage al).write e)).length := by
              rw [hdl]
              have : 0 < (ty.storage al).memSize := by cases ty <;> exact Nat.succ_pos _
              exact Nat.le_mul_of_pos_left _ this
            have h2 := Nat.div_le_self vals.length chs.length
            omega
        · rw [(hent' o ho).1]; exact Nat.pos_of_ne_zero (by decide)
        · rw [(hent' o ho).1]; exact fun _ h => by cases h

/-- Both kinds of data segments, and a property segment, meet the hypotheses. -/
theorem write_layout_example :
    let t := session [writeU16 ["a", "b"] [1, 2, 3, 4]]
    (∀ c ∈ [chan "a", chan "b"], Text.Fits c.path) ∧
    ((writeU16 ["a", "b"] [5, 6] .interleaved).run anyAlloc t).2.bytes = t.bytes ++
      [0x54, 0x44, 0x53, 0x6D, 0x28, 0, 0, 0, 0x69, 0x12, 0, 0, 4, 0, 0, 0, 0, 0, 0, 0, 0, 0, 0, 0, 0, 0, 0, 0,
       5, 0, 6, 0] ∧
    (t.writeProperties .big .file [("p".toList, .u8 7)]).2.bytes = t.bytes ++
      [0x54, 0x44, 0x53, 0x6D, 0x42, 0, 0, 0, 0, 0, 0x12, 0x69, 0, 0, 0, 0, 0, 0, 0, 27, 0, 0, 0, 0, 0, 0, 0, 27,
       0, 0, 0, 1, 0, 0, 0, 1, 0x2F, 0xFF, 0xFF, 0xFF, 0xFF, 0, 0, 0, 1, 0, 0, 0, 1, 0x70, 0, 0, 0, 5, 7] := by
  refine ⟨?_, ?_, ?_⟩
  · intro c hc
    simp only [List.mem_cons, List.not_mem_nil, or_false] at hc
    rcases hc with rfl | rfl <;> (unfold Text.Fits; decide +kernel)
  · decide +kernel
  · decide +kernel

/-! ## Where the library departs from the layout -/

/-- In a segment of the published layout the 8 bytes from position 12 say how long it is. -/
theorem segment_next_field {s : FileSegment} {bs : Bytes} (h : IsSegment s bs) :
    (bs.drop 12).take 8 = encNat s.endian 8 (bs.length - 28) := by
  obtain ⟨_, lead, md, rfl, ⟨f, v, x, y, rfl, h1, h2, h3, h4⟩, _⟩ := h
  obtain ⟨_, rfl⟩ := (isNumber_iff ..).mp h1
  obtain ⟨_, rfl⟩ := (isNumber_iff ..).mp h2
  obtain ⟨_, rfl⟩ := (isNumber_iff ..).mp h3
  obtain ⟨_, rfl⟩ := (isNumber_iff ..).mp h4
  generalize hN : md.length + s.rest.length = N
  have hlen : (['T', 'D', 'S', 'm'].map (fun c => UInt8.ofNat c.toNat) ++ (encNat .little 4 (flags s.toc) ++
      (encNat s.endian 4 s.version ++ (encNat s.endian 8 N ++ encNat s.endian 8 s.rawOffset))) ++
      (md ++ s.rest)).length - 28 = N := by
    simp only [List.length_append, length_encNat, List.length_map, List.length_cons, List.length_nil]
    omega
  rw [hlen]
  have h12 : ∀ (a b c d r : Bytes), a.length = 4 → b.length = 4 → c.length = 4 → d.length = 8 →
      ((a ++ (b ++ (c ++ (d ++ r)))).drop 12).take 8 = d := by
    intro a b c d r ha hb hc hd
    have : (a ++ (b ++ (c ++ (d ++ r)))).drop 12 = d ++ r := by
      rw [← List.append_assoc, ← List.append_assoc]
      exact List.drop_left' (by simp [ha, hb, hc])
    rw [this, ← hd, List.take_left']
    rfl
  simp only [List.append_assoc]
  exact h12 _ _ _ _ _ rfl (length_encNat ..) (length_encNat ..) (length_encNat ..)

/-- C47 is false for strings and extended floats: whatever the lengths in the written segment mean, they are
    not those of the layout. -/
theorem data_write_layout_counterexample :
    (∀ s, ¬ IsSegment s ((TdmsFile.mk Index.new []).writeChannels (STy.string.storage anyAlloc) .little
      [chan "a"] [("xyz".toList : Text)] .contigious).2.bytes) ∧
    (∀ s, ¬ IsSegment s ((TdmsFile.mk Index.new []).writeChannels (STy.extended.storage anyAlloc) .little
      [chan "a"] [BitVec.ofNat 128 1] .contigious).2.bytes) := by
  constructor <;> intro s h <;> have h := segment_next_field h <;> revert h <;> cases s.endian <;> decide +kernel

/-- The bytes of a segment with a string channel: index of 28 bytes, then the end positions of the two
    strings `x` and `yz`, then their characters. -/
def stringLayoutExample : Bytes :=
  [0x54, 0x44, 0x53, 0x6D, 0x0E, 0, 0, 0, 0x69, 0x12, 0, 0, 59, 0, 0, 0, 0, 0, 0, 0, 48, 0, 0, 0, 0, 0, 0, 0] ++
  ([1, 0, 0, 0] ++ ((([8, 0, 0, 0] ++ [0x2F, 0x27, 0x67, 0x27, 0x2F, 0x27, 0x61, 0x27]) ++
   (([28, 0, 0, 0] ++ ([0x20, 0, 0, 0] ++ ([1, 0, 0, 0] ++ ([2, 0, 0, 0, 0, 0, 0, 0] ++ [11, 0, 0, 0, 0, 0, 0, 0])))) ++
   ([0, 0, 0, 0] ++ []))) ++ []) ++ [1, 0, 0, 0, 3, 0, 0, 0, 0x78, 0x79, 0x7A])

/-- The bytes of a segment with a channel of one double with a unit. -/
def unitLayoutExample : Bytes :=
  [0x54, 0x44, 0x53, 0x6D, 0x0E, 0, 0, 0, 0x69, 0x12, 0, 0, 48, 0, 0, 0, 0, 0, 0, 0, 40, 0, 0, 0, 0, 0, 0, 0] ++
  ([1, 0, 0, 0] ++ ((([8, 0, 0, 0] ++ [0x2F, 0x27, 0x67, 0x27, 0x2F, 0x27, 0x61, 0x27]) ++
   (([20, 0, 0, 0] ++ ([0x1A, 0, 0, 0] ++ ([1, 0, 0, 0] ++ [1, 0, 0, 0, 0, 0, 0, 0]))) ++
   ([0, 0, 0, 0] ++ []))) ++ []) ++ [0, 0, 0, 0, 0, 0, 0, 0])

/-- C47 is false for files with string channels, and with doubles that have a unit: these bytes have the
    published layout, but the library does not open them. -/
theorem open_layout_counterexample :
    (∃ s, IsSegment s stringLayoutExample) ∧
    TdmsFile.new anyAlloc stringLayoutExample = R.err (.unknownPropertyType 0x78000000) ∧
    (∃ s, IsSegment s unitLayoutExample) ∧
    TdmsFile.new anyAlloc unitLayoutExample = R.err (.unknownPropertyType 0x1A) := by
  have num : ∀ (w n : Nat) (bs : Bytes), n < 256 ^ w ∧ bs = encNat .little w n → IsNumber .little w n bs :=
    fun w n bs h => (isNumber_iff .little w n bs).mpr h
  refine ⟨⟨{ endian := .little
             toc := { containsMetaData := true, containsRawData := true, containsNewObjectList := true }
             version := 4713, rawOffset := 48
             metaData := { objects := [
               { path := "/'g'/'a'".toList, properties := []
                 rawDataIndex := .rawData { dataType := .tdmsString, numberOfValues := 2, totalSizeBytes := some 11 } }] }
             rest := [1, 0, 0, 0, 3, 0, 0, 0, 0x78, 0x79, 0x7A] }, ⟨nofun, nofun⟩, _, _, rfl, ?_, ?_⟩, ?_,
    ⟨{ endian := .little
       toc := { containsMetaData := true, containsRawData := true, containsNewObjectList := true }
       version := 4713, rawOffset := 40
       metaData := { objects := [
         { path := "/'g'/'a'".toList, properties := []
           rawDataIndex := .rawData { dataType := .doubleFloatWithUnit, numberOfValues := 1 } }] }
       rest := [0, 0, 0, 0, 0, 0, 0, 0] }, ⟨nofun, nofun⟩, _, _, rfl, ?_, ?_⟩, ?_⟩
  · exact (isLeadIn_iff ..).mpr (by decide +kernel)
  · refine ⟨_, _, rfl, num _ _ _ (by decide), _, _, rfl, ⟨_, _, _, rfl, ⟨_, rfl, num _ _ _ (by decide +kernel)⟩, ⟨?_, ?_⟩,
      ⟨_, _, rfl, num _ _ _ (by decide), rfl⟩⟩, rfl⟩
    · exact fun h => absurd rfl h
    · exact fun _ => ⟨11, rfl, _, _, _, _, _, rfl, num _ _ _ (by decide), ⟨0x20, by decide, num _ _ _ (by decide)⟩,
        num _ _ _ (by decide), num _ _ _ (by decide), num _ _ _ (by decide)⟩
  · decide +kernel
  · exact (isLeadIn_iff ..).mpr (by decide +kernel)
  · refine ⟨_, _, rfl, num _ _ _ (by decide), _, _, rfl, ⟨_, _, _, rfl, ⟨_, rfl, num _ _ _ (by decide +kernel)⟩, ⟨?_, ?_⟩,
      ⟨_, _, rfl, num _ _ _ (by decide), rfl⟩⟩, rfl⟩
    · exact fun _ => ⟨rfl, _, _, _, _, rfl, num _ _ _ (by decide), ⟨0x1A, by decide, num _ _ _ (by decide)⟩,
        num _ _ _ (by decide), num _ _ _ (by decide)⟩
    · exact nofun
  · decide +kernel

end Tedium
