import Verif.Props.Layout

/-!
# Which data writes follow the published layout, exactly (C47)

`data_write_layout_partial` is about all types but strings and extended floats. Here: for the first data
write to a file these two never follow the layout, whatever the values are.
-/

namespace Tedium.Layout
open SegSpec WriteSpec

/-- Different numbers have different bytes. -/
theorem encNat_mod {e : Endian} {w n k : Nat} (h : encNat e w n = encNat e w k) : n % 256 ^ w = k % 256 ^ w := by
  rw [← decNat_encNat, h, decNat_encNat]

/-- The parts of a segment that begins with a lead-in of this library. -/
theorem segment_parts {s : FileSegment} {e : Endian} {toc : ToC} {v N K : Nat} {tail : Bytes}
    (ht : toc.bigEndian = e.isBig)
    (h : IsSegment s (tdsmTag ++ (toc.asBytes ++ (encNat e 4 v ++ (encNat e 8 N ++ (encNat e 8 K ++ tail)))))) :
    N % 2 ^ 64 = tail.length % 2 ^ 64 ∧ ∃ md, tail = md ++ s.rest ∧ IsMetaData e s.metaData md := by
  obtain ⟨hf, lead, md, heq, hlead, hmd⟩ := h
  obtain ⟨⟨_, h8, _⟩, rfl⟩ := (isLeadIn_iff ..).mp hlead
  simp only [List.append_assoc] at heq
  obtain ⟨_, heq1⟩ := List.append_inj heq rfl
  obtain ⟨h1, heq2⟩ := List.append_inj heq1 (by simp only [ToC.asBytes, length_encNat])
  obtain ⟨_, heq3⟩ := List.append_inj heq2 (by simp only [length_encNat])
  obtain ⟨h3, heq4⟩ := List.append_inj heq3 (by simp only [length_encNat])
  obtain ⟨_, heq5⟩ := List.append_inj heq4 (by simp only [length_encNat])
  have h2 : toc = s.toc := by
    unfold ToC.asBytes at h1
    have h1 := encNat_mod h1
    rw [Nat.mod_eq_of_lt (toU32_lt _), Nat.mod_eq_of_lt (toU32_lt _)] at h1
    rw [← fromU32_toU32 toc, h1, fromU32_toU32]
  subst h2
  have he : s.endian = e := by
    rw [ht] at hf
    cases e <;> cases hs : s.endian <;> simp [hs, Endian.isBig] at hf ⊢
  rw [he] at h3 hmd
  refine ⟨?_, md, heq5, hmd⟩
  rw [heq5, List.length_append]
  exact encNat_mod h3

/-- Metadata whose first object has an index of 20 bytes for strings is not of the published layout. -/
theorem no_string_index {e : Endian} {m : MetaData} {md rest x : Bytes} {k : Nat} {p : Text}
    (hm : IsMetaData e m md) (h0 : 0 < k) (hk : k < 2 ^ 32) (hp : Text.Fits p)
    (h : md ++ rest = encNat e 4 k ++ (writeText e p ++ (encNat e 4 20 ++ (writeDataType e .tdmsString ++ x)))) :
    False := by
  obtain ⟨n, os, rfl, hn, hos⟩ := hm
  obtain ⟨hlt, rfl⟩ := (isNumber_iff ..).mp hn
  rw [List.append_assoc] at h
  obtain ⟨h1, h⟩ := List.append_inj h (by simp only [length_encNat])
  have h1 := encNat_mod h1
  rw [Nat.mod_eq_of_lt hlt, Nat.mod_eq_of_lt (show k < 256 ^ 4 from hk)] at h1
  cases ho : m.objects with
  | nil => rw [ho] at h1; exact absurd h1.symm (by simp; omega)
  | cons o l =>
    rw [ho] at hos
    obtain ⟨a, b, rfl, ⟨y, z, w, rfl, hy, hz, hw⟩, _⟩ := hos
    obtain ⟨hfy, rfl⟩ := (isString_iff ..).mp hy
    simp only [List.append_assoc] at h
    have hlen : (writeText e o.path).length = (writeText e p).length := by
      have e1 : ∀ t : Text, Text.Fits t → writeText e t = encNat e 4 (utf8Enc t).length ++ utf8Enc t := by
        intro t ht
        show encNat e 4 ((utf8Enc t).length % u32Lim) ++ utf8Enc t = _
        rw [Nat.mod_eq_of_lt ht]
      rw [e1 _ hfy, e1 _ hp] at h ⊢
      simp only [List.append_assoc] at h
      obtain ⟨h2, _⟩ := List.append_inj h (by simp only [length_encNat])
      have h2 := encNat_mod h2
      rw [Nat.mod_eq_of_lt (show (utf8Enc o.path).length < 256 ^ 4 from hfy),
        Nat.mod_eq_of_lt (show (utf8Enc p).length < 256 ^ 4 from hp)] at h2
      rw [List.length_append, List.length_append, length_encNat, length_encNat, h2]
    obtain ⟨_, h⟩ := List.append_inj h hlen
    cases hi : o.rawDataIndex with
    | none =>
      rw [hi] at hz
      obtain ⟨_, rfl⟩ := (isNumber_iff ..).mp hz
      obtain ⟨h2, _⟩ := List.append_inj h (by simp only [length_encNat])
      exact absurd (encNat_mod h2) (by decide)
    | matchPrevious =>
      rw [hi] at hz
      obtain ⟨_, rfl⟩ := (isNumber_iff ..).mp hz
      obtain ⟨h2, _⟩ := List.append_inj h (by simp only [length_encNat])
      exact absurd (encNat_mod h2) (by decide)
    | rawData f =>
      rw [hi] at hz
      obtain ⟨hz1, hz2⟩ := hz
      by_cases hs : f.dataType = .tdmsString
      · obtain ⟨_, _, len, ty, dim, c, total, rfl, h1, _⟩ := hz2 hs
        obtain ⟨_, rfl⟩ := (isNumber_iff ..).mp h1
        rw [List.append_assoc] at h
        obtain ⟨h2, _⟩ := List.append_inj h (by simp only [length_encNat])
        exact absurd (encNat_mod h2) (by decide)
      · obtain ⟨_, len, ty, dim, c, rfl, h1, ⟨code, hcode, h2⟩, _⟩ := hz1 hs
        obtain ⟨_, rfl⟩ := (isNumber_iff ..).mp h1
        obtain ⟨hc, rfl⟩ := (isNumber_iff ..).mp h2
        simp only [List.append_assoc] at h
        obtain ⟨_, h⟩ := List.append_inj h (by simp only [length_encNat])
        obtain ⟨h3, _⟩ := List.append_inj h (by simp only [writeDataType, length_encNat])
        have h3 := encNat_mod h3
        rw [Nat.mod_eq_of_lt hc] at h3
        have h3 : code = 0x20 := h3
        subst h3
        simp [Format.publishedCodes] at hcode
        exact hs hcode

/-- Sixteen and ten bytes per value are not the same. -/
theorem extended_sizes (M k n : Nat) (h : (k + 16 * n) % M = (k + 10 * n) % M) (hs : k + 10 * n < M) : n = 0 := by
  rw [Nat.mod_eq_of_lt hs] at h
  have h2 := Nat.div_add_mod (k + 16 * n) M
  rw [h] at h2
  generalize (k + 16 * n) / M = q at h2
  cases q with
  | zero => rw [Nat.mul_zero] at h2; omega
  | succ q =>
    rw [Nat.mul_succ] at h2
    generalize M * q = x at h2
    omega

/-- The bytes of the first data write to a file. -/
theorem first_write {α : Type} (S : Storage α) (e : Endian) (chs : List ChannelPath) (vals : List α)
    (layout : DataLayout) (hne : chs ≠ []) (hdiv : chs.length ∣ vals.length) :
    ((TdmsFile.mk Index.new []).writeChannels S e chs vals layout).2.bytes =
      (writeSegment e { containsNewObjectList := true, dataIsInterleaved := layout = .interleaved }
        (some ⟨chs.map fun c => ObjectMetaData.mk c.path [] (.rawData (writtenFormat S (vals.length / chs.length)))⟩)
        (some (TdmsFile.sliceData S e vals))).2 := by
  have hz : ∀ (l : List ChannelPath) (f : RawDataMeta), (l.map ChannelPath.path).zip (List.replicate l.length f)
      = l.map fun c => (c.path, f) := by
    intro l f
    induction l with
    | nil => rfl
    | cons c l ih => exact congrArg _ ih
  unfold TdmsFile.writeChannels
  rw [if_neg (fun h => hne (List.length_eq_zero_iff.mp h)), if_neg (by
    intro h; exact h (Nat.mod_eq_zero_of_dvd hdiv))]
  dsimp only
  unfold TdmsFile.dataStructure
  rw [hz]
  show [] ++ _ = _
  rw [List.nil_append]
  simp only [Index.checkWriteValues, List.map_map]
  rfl

/-- The beginning of the metadata of the first data write. -/
theorem write_first (e : Endian) (c : ChannelPath) (l : List ChannelPath) (f : RawDataMeta) (h : (c :: l).length < 2 ^ 32) :
    ∃ x, MetaData.write e ⟨(c :: l).map fun c => ObjectMetaData.mk c.path [] (.rawData f)⟩ =
      encNat e 4 (l.length + 1) ++ (writeText e c.path ++ (encNat e 4 20 ++ (writeDataType e f.dataType ++ x))) := by
  unfold MetaData.write
  dsimp only
  rw [List.length_map, Nat.mod_eq_of_lt (show (c :: l).length < u32Lim from h), List.map_cons]
  unfold MetaData.writeObjects ObjectMetaData.write RawDataIndex.write
  dsimp only
  simp only [List.append_assoc]
  exact ⟨_, rfl⟩

end Tedium.Layout

namespace Tedium
open Layout SegSpec WriteSpec

/-- **C47, data writes, exactly.** The first data write to a new file, with acceptable arguments and at least
    one value, makes a segment of the published layout exactly if the values are neither strings nor extended
    floats. For these two it never does, whatever the channels, the values, the byte order and the layout of
    the data are. (`data_write_layout_partial` says which segment it is.) -/
theorem data_write_layout_iff (al : Alloc) (e : Endian) (ty : STy) (chs : List ChannelPath) (vals : List ty.Val)
    (layout : DataLayout) (hne : chs ≠ []) (hv : vals ≠ []) (hdiv : chs.length ∣ vals.length)
    (hfit : ∀ c ∈ chs, Text.Fits c.path) (hcount : chs.length < 2 ^ 32)
    (hsize : ((TdmsFile.mk Index.new []).writeChannels (ty.storage al) e chs vals layout).2.bytes.length < 2 ^ 64) :
    (∃ s, IsSegment s ((TdmsFile.mk Index.new []).writeChannels (ty.storage al) e chs vals layout).2.bytes) ↔
      ty ≠ .extended ∧ ty ≠ .string := by
  rw [first_write _ _ _ _ _ hne hdiv] at hsize ⊢
  generalize hm : (MetaData.mk (chs.map fun c => ObjectMetaData.mk c.path [] (.rawData (writtenFormat (ty.storage al) (vals.length / chs.length))))) = m at *
  generalize ht : ({ containsNewObjectList := true, dataIsInterleaved := layout = .interleaved } : ToC) = toc at *
  have hpos : 0 < chs.length := List.length_pos_iff.mpr hne
  have hvpos : 0 < vals.length := List.length_pos_iff.mpr hv
  have hmc : m.objects.length = chs.length := by subst hm; exact List.length_map _
  have hmlen := length_writeMetaData e m
  unfold writeSegment at hsize ⊢
  dsimp only [MetaData.optSize, MetaData.optWrite, DataToWrite.optSize, DataToWrite.optBytes,
    TdmsFile.sliceData] at hsize ⊢
  constructor
  · rintro ⟨s, hs⟩
    have hs := segment_parts (by rfl) hs
    obtain ⟨hN, md, htail, hmd⟩ := hs
    constructor
    · rintro rfl
      have hdl : (vals.flatMap ((STy.extended.storage al).write e)).length = 10 * vals.length :=
        length_flatMap_const _ _ _ (fun v _ => by
          have := extended_bytes e v
          rw [show (STy.extended.storage al).write e v = (STy.storage PropertyValue.anyAlloc .extended).write e v from rfl,
            this, length_encNat])
      have hmem : (STy.extended.storage al).memSize = 16 := rfl
      rw [List.length_append, hdl, hmlen, hmem] at hN
      have hsize' : m.size + 10 * vals.length < 2 ^ 64 := by
        refine Nat.lt_of_le_of_lt ?_ hsize
        clear hN
        simp only [List.length_append, hdl, hmlen]
        omega
      exact absurd (extended_sizes _ _ _ hN hsize') (Nat.ne_of_gt hvpos)
    · rintro rfl
      obtain ⟨c, l, rfl⟩ := List.exists_cons_of_ne_nil hne
      obtain ⟨x, hx⟩ := write_first e c l (writtenFormat (STy.string.storage al) (vals.length / (c :: l).length)) hcount
      rw [hm] at hx
      rw [hx] at htail
      simp only [List.append_assoc] at htail
      exact no_string_index hmd (Nat.succ_pos _) hcount (hfit c List.mem_cons_self) htail.symm
  · rintro ⟨h1, h2⟩
    have hdl : (vals.flatMap ((ty.storage al).write e)).length = (ty.storage al).memSize * vals.length :=
      length_flatMap_const _ _ _ (fun v _ => length_write_sized al ⟨h1, h2⟩ e v)
    have hmem : 0 < (ty.storage al).memSize := by cases ty <;> exact Nat.succ_pos _
    have hle : vals.length ≤ (ty.storage al).memSize * vals.length := Nat.le_mul_of_pos_left _ hmem
    have hq := Nat.div_le_self vals.length chs.length
    simp only [List.length_append, hdl, hmlen] at hsize
    refine ⟨{ endian := e, toc := finalToC e toc (some m) (some (TdmsFile.sliceData (ty.storage al) e vals))
              version := 4713, rawOffset := m.size, metaData := m
              rest := vals.flatMap ((ty.storage al).write e) },
      (isSegment_iff _ (fun o ho => ?_) _).mpr ⟨⟨rfl, (by show 4713 < 2 ^ 32; decide), ?_, ?_, ?_, fun o ho => ?_⟩, ?_⟩⟩
    · subst hm
      obtain ⟨c, _, rfl⟩ := List.mem_map.mp ho
      refine ⟨?_, ?_, ?_⟩ <;> cases ty <;> first | (exact absurd rfl h2) | exact nofun
    · show m.size < 2 ^ 64
      omega
    · show m.size + (vals.flatMap _).length < 2 ^ 64
      rw [hdl]
      omega
    · show m.objects.length < 2 ^ 32
      omega
    · subst hm
      obtain ⟨c, hc, rfl⟩ := List.mem_map.mp ho
      refine ⟨hfit c hc, ⟨?_, rfl⟩, Nat.pos_of_ne_zero (by decide), fun _ h => by cases h⟩
      show vals.length / chs.length < 2 ^ 64
      omega
    · unfold FileSegment.encode FileSegment.head
      dsimp only
      rw [hdl]
      simp only [List.append_assoc]
      rfl

/-- Both sides occur: three values of 16 bits for one channel, and a string for which the lengths happen to
    be right (24 bytes for a string that takes 24 bytes in memory). -/
theorem data_write_layout_iff_example :
    (∃ s, IsSegment s ((TdmsFile.mk Index.new []).writeChannels (STy.u16.storage anyAlloc) .big
      [chan "a"] (vals16 [1, 2, 3]) .contigious).2.bytes) ∧
    (∀ s, ¬ IsSegment s ((TdmsFile.mk Index.new []).writeChannels (STy.string.storage anyAlloc) .little
      [chan "a"] [("twenty characters ok".toList : Text)] .contigious).2.bytes) := by
  have hc : ∀ c ∈ [chan "a"], Text.Fits c.path := by
    intro c hc
    cases List.mem_singleton.mp hc
    unfold Text.Fits
    decide +kernel
  refine ⟨(data_write_layout_iff anyAlloc .big .u16 [chan "a"] (vals16 [1, 2, 3]) .contigious (by decide)
    (List.cons_ne_nil _ _) ⟨3, rfl⟩ hc (by decide) (by decide +kernel)).mpr ⟨nofun, nofun⟩, fun s hs => ?_⟩
  exact ((data_write_layout_iff anyAlloc .little .string [chan "a"] [("twenty characters ok".toList : Text)] .contigious
    (by decide) (List.cons_ne_nil _ _) ⟨1, rfl⟩ hc (by decide) (by decide +kernel)).mp ⟨s, hs⟩).2 rfl

end Tedium
