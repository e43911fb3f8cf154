import Verif.Props.Reopen
import Verif.Proofs.Order

/-! # The byte order of a file does not matter (C43) -/

namespace Tedium
open SegSpec WriteSpec

theorem plain_segments_of_shape {fs fs' : List FileSegment} (h : fs.map FileSegment.shape = fs'.map FileSegment.shape) :
    (fs.map FileSegment.segment).map Segment.plain = (fs'.map FileSegment.segment).map Segment.plain := by
  induction fs generalizing fs' with
  | nil =>
    cases fs' with
    | nil => rfl
    | cons s' fs' => cases h
  | cons s fs ih =>
    cases fs' with
    | nil => cases h
    | cons s' fs' =>
      rw [List.map_cons, List.map_cons] at h
      injection h with h1 h2
      rw [List.map_cons, List.map_cons, List.map_cons, List.map_cons, ih h2]
      exact congrArg (· :: _) (plain_of_shape h1)

theorem length_of_shape {fs fs' : List FileSegment} (h : fs.map FileSegment.shape = fs'.map FileSegment.shape) :
    (fileOf fs).length = (fileOf fs').length := by
  have key : ∀ l : List FileSegment,
      (fileOf l).length = (((l.map FileSegment.segment).map Segment.plain).map (fun s => 28 + s.nextSegmentOffset)).sum := by
    intro l
    unfold fileOf
    rw [List.length_flatMap, List.map_map, List.map_map]
    congr 2
    funext s
    exact FileSegment.length_encode s
  rw [key, key, plain_segments_of_shape h]

theorem open_fileOf (al : Alloc) (hal : Generous al) (fs : List FileSegment) (hf : ∀ s ∈ fs, s.Fits) :
    buildIndex al (fileOf fs) = replay Index.new (fs.map FileSegment.segment) := by
  have := (open_segments al hal fs hf []).1 (by decide)
  rwa [List.append_nil] at this

/-- C43, structure: two files with the same segments apart from byte orders (and format versions, and flags
    the reader does not use, and the contents of the raw data) either both fail to open with the same
    error, or both open, and then every channel length, property, and listing is the same. -/
theorem byte_order_structure (al : Alloc) (hal : Generous al) (fs fs' : List FileSegment)
    (hf : ∀ s ∈ fs, s.Fits) (hf' : ∀ s ∈ fs', s.Fits) (h : fs.map FileSegment.shape = fs'.map FileSegment.shape) :
    (∃ e, TdmsFile.new al (fileOf fs) = .error e ∧ TdmsFile.new al (fileOf fs') = .error e) ∨
    ∃ t t', TdmsFile.new al (fileOf fs) = .ok t ∧ TdmsFile.new al (fileOf fs') = .ok t' ∧
      (∀ c, t'.channelLength c = t.channelLength c) ∧
      (∀ p n, t'.readProperty p n = t.readProperty p n) ∧
      (∀ p, t'.readAllProperties p = t.readAllProperties p) ∧
      t'.listGroups = t.listGroups ∧
      ∀ g, t'.listChannelsInGroup g = t.listChannelsInGroup g := by
  have hr := replay_of_shape h
  rw [← open_fileOf al hal fs hf, ← open_fileOf al hal fs' hf'] at hr
  unfold TdmsFile.new
  cases h1 : buildIndex al (fileOf fs) with
  | error e =>
    rw [h1] at hr
    cases h2 : buildIndex al (fileOf fs') with
    | error e' =>
      rw [h2] at hr
      injection hr with hr
      subst hr
      exact .inl ⟨e, rfl, rfl⟩
    | ok ix' => rw [h2] at hr; cases hr
  | ok ix =>
    rw [h1] at hr
    cases h2 : buildIndex al (fileOf fs') with
    | error e' => rw [h2] at hr; cases hr
    | ok ix' =>
      rw [h2] at hr
      injection hr with hr
      have ho : ix'.objects = ix.objects := (show ix'.plain.objects = ix.plain.objects by rw [hr])
      refine .inr ⟨⟨ix, fileOf fs⟩, ⟨ix', fileOf fs'⟩, rfl, rfl, ?_, ?_, ?_, ?_, ?_⟩
      · intro c
        show ix'.channelLength c = ix.channelLength c
        unfold Index.channelLength; rw [ho]
      · intro p n
        show ix'.getObjectProperty p n = ix.getObjectProperty p n
        unfold Index.getObjectProperty; rw [ho]
      · intro p
        show ix'.getObjectProperties p = ix.getObjectProperties p
        unfold Index.getObjectProperties; rw [ho]
      · unfold TdmsFile.listGroups Index.allPaths; rw [ho]
      · intro g
        unfold TdmsFile.listChannelsInGroup Index.pathsStartingWith; rw [ho]

theorem SegSpec.Regular.order {f f' : Bytes} {pre pre' : List Segment} (hr : Regular f pre)
    (h : pre.map Segment.plain = pre'.map Segment.plain) (hl : f.length = f'.length) : Regular f' pre' := by
  have hal : activeLayouts pre' = activeLayouts pre := by rw [← activeLayouts_plain, ← h, activeLayouts_plain]
  have hraw : rawBytes pre' = rawBytes pre := by rw [← rawBytes_plain, ← h, rawBytes_plain]
  have hchunk : chunkBytes pre' = chunkBytes pre := by unfold chunkBytes; rw [hal]
  have hblk : (blockOf pre).map DataBlock.plain = (blockOf pre').map DataBlock.plain := by
    rw [← blockOf_plain, h, blockOf_plain]
  obtain ⟨⟨b, hb, hin⟩, ho, he, hw⟩ := hr
  refine ⟨?_, by rwa [hal], by rwa [hal], ?_⟩
  · rw [Option.mem_def.mp hb] at hblk
    cases hb' : blockOf pre' with
    | none => rw [hb'] at hblk; cases hblk
    | some b' =>
      rw [hb'] at hblk
      have hbb : b.plain = b'.plain := Option.some.inj hblk
      have h1 : b.start = b'.start := (show b.plain.start = b'.plain.start by rw [hbb])
      have h2 : b.length = b'.length := (show b.plain.length = b'.plain.length by rw [hbb])
      exact ⟨b', rfl, by rw [← h1, ← h2, ← hl]; exact hin⟩
  · intro ⟨s', hs', hi⟩
    rw [hchunk, hraw]
    apply hw
    have hlast : pre.getLast?.map Segment.plain = pre'.getLast?.map Segment.plain := by
      rw [← List.getLast?_map, h, List.getLast?_map]
    rw [Option.mem_def.mp hs'] at hlast
    cases hs : pre.getLast? with
    | none => rw [hs] at hlast; cases hlast
    | some s =>
      rw [hs] at hlast
      have hss : s.plain = s'.plain := Option.some.inj hlast
      have : s.toc.dataIsInterleaved = s'.toc.dataIsInterleaved :=
        show s.plain.toc.dataIsInterleaved = s'.plain.toc.dataIsInterleaved by rw [hss]
      exact ⟨s, rfl, this.trans hi⟩

/-- C43, data: if in addition every value of the raw data is stored in the byte order of its segment, then
    every read of a channel from the two files gives the same values.

    Missing for the full property: extended floats, timestamps and strings, and files with channels of
    different lengths in one segment, or with a partial interleaved chunk. For timestamps next to
    other channels the property is false, see `byte_order_counterexample`. -/
theorem byte_order_data_partial (al : Alloc) (hal : Generous al) (ty : STy) (hty : Format.ordinaryTy ty = true)
    (fs fs' : List FileSegment) (hf : ∀ s ∈ fs, s.Fits) (hf' : ∀ s ∈ fs', s.Fits)
    (h : fs.map FileSegment.shape = fs'.map FileSegment.shape)
    (hv : SameValues (fileOf fs) (fs.map FileSegment.segment) (fileOf fs') (fs'.map FileSegment.segment))
    (hlen : (fileOf fs).length < 2 ^ 63) {t : TdmsFile} (ht : TdmsFile.new al (fileOf fs) = .ok t)
    (c : ChannelPath) (hl : Listed (entries (fs.map FileSegment.segment)) c.path)
    (hreg : ∀ pre ∈ dataPrefixes (fs.map FileSegment.segment), c.path ∈ active pre →
      Regular (fileOf fs) pre ∧
      ∀ m, layoutOf (entries pre) c.path = some m → m.dataType ∈ (ty.storage al).supported) :
    ∃ t', TdmsFile.new al (fileOf fs') = .ok t' ∧ ∀ start out,
      t'.readChannelFrom (ty.storage al) c start out = t.readChannelFrom (ty.storage al) c start out := by
  have hplain := plain_segments_of_shape h
  have hlen' := length_of_shape h
  rcases byte_order_structure al hal fs fs' hf hf' h with ⟨e, he, _⟩ | ⟨t0, t', h0, h', _⟩
  · rw [he] at ht; cases ht
  rw [h0] at ht
  cases ht
  refine ⟨t', h', fun start out => ?_⟩
  have idx : ∀ (l : List FileSegment) (u : TdmsFile), (∀ s ∈ l, s.Fits) → TdmsFile.new al (fileOf l) = .ok u →
      u.bytes = fileOf l ∧ replay Index.new (l.map FileSegment.segment) = .ok u.index := by
    intro l u hfl hu
    unfold TdmsFile.new at hu
    rw [open_fileOf al hal l hfl] at hu
    cases hr : replay Index.new (l.map FileSegment.segment) with
    | error e => rw [hr] at hu; cases hu
    | ok ix => rw [hr] at hu; cases hu; exact ⟨rfl, rfl⟩
  obtain ⟨hb, hi⟩ := idx fs t hf h0
  obtain ⟨hb', hi'⟩ := idx fs' t' hf' h'
  have hpre : (dataPrefixes (fs.map FileSegment.segment)).map (List.map Segment.plain)
      = (dataPrefixes (fs'.map FileSegment.segment)).map (List.map Segment.plain) := by
    rw [← dataPrefixes_plain, ← dataPrefixes_plain, hplain]
  rw [read_window_regular_partial al ty hty hi (by rw [hb]; exact hlen) c hl
      (fun pre hp ha => by rw [hb]; exact hreg pre hp ha) start out,
    read_window_regular_partial al ty hty hi' (by rw [hb', ← hlen']; exact hlen) c
      (by rw [← entries_plain, ← hplain, entries_plain]; exact hl) ?_ start out,
    hb, hb', channelSamples_order al ty hplain hv c.path (fun pre hp ha => (hreg pre hp ha).2)]
  intro pre' hp' ha'
  have hm : pre'.map Segment.plain ∈ (dataPrefixes (fs.map FileSegment.segment)).map (List.map Segment.plain) := by
    rw [hpre]; exact List.mem_map_of_mem hp'
  obtain ⟨pre, hp, hpp⟩ := List.mem_map.mp hm
  have ha : c.path ∈ active pre := by
    rw [← active_plain, hpp, active_plain]; exact ha'
  obtain ⟨h1, h2⟩ := hreg pre hp ha
  refine ⟨by rw [hb']; exact h1.order hpp hlen', fun m hm => h2 m ?_⟩
  rw [← entries_plain, hpp, entries_plain]
  exact hm

/-- `windowFile` in the other byte orders. -/
def windowFileSwapped : List FileSegment :=
  [dataSegment .big false [("a", .u8, 2), ("b", .u16, 2)] [1, 2, 0, 10, 0, 11, 3, 4, 0, 12, 0, 13],
   dataSegment .little true [("b", .u16, 1), ("a", .u8, 1)] [14, 0, 5, 15, 0, 6]]

set_option synthInstance.maxSize 1024 in
set_option synthInstance.maxHeartbeats 400000 in
/-- The hypotheses about the two files, for the pair. -/
theorem byte_order_example :
    windowFile.map FileSegment.shape = windowFileSwapped.map FileSegment.shape ∧
    fileOf windowFile ≠ fileOf windowFileSwapped ∧
    SameValues (fileOf windowFile) (windowFile.map FileSegment.segment)
      (fileOf windowFileSwapped) (windowFileSwapped.map FileSegment.segment) ∧
    readFrom .u16 (fileOf windowFile) "b" 1 (vals16 [0, 0, 0, 0, 0]) = .ok (vals16 [11, 12, 13, 14, 15]) ∧
    readFrom .u16 (fileOf windowFileSwapped) "b" 1 (vals16 [0, 0, 0, 0, 0]) = .ok (vals16 [11, 12, 13, 14, 15]) := by
  refine ⟨by decide +kernel, by decide +kernel, ?_, by decide +kernel, by decide +kernel⟩
  have key : ∀ k < 2, ∀ pre ∈ (dataPrefixes (windowFile.map FileSegment.segment))[k]?,
      ∀ pre' ∈ (dataPrefixes (windowFileSwapped.map FileSegment.segment))[k]?,
      ∀ b ∈ blockOf pre, ∀ b' ∈ blockOf pre', ∀ i < 2, ∀ p ∈ (active pre)[i]?,
      ∀ m ∈ layoutOf (entries pre) p, ∀ n < samplesIn pre p,
      b'.sampleBytes (fileOf windowFileSwapped) i m n =
        if b.byteOrder = b'.byteOrder then b.sampleBytes (fileOf windowFile) i m n
        else Format.swapped m.dataType (b.sampleBytes (fileOf windowFile) i m n) := by decide +kernel
  intro k pre pre' b b' hk hk' hb hb' p i m n hi hm hn
  have hk2 : k < 2 := by
    have : k < (dataPrefixes (windowFile.map FileSegment.segment)).length :=
      Decidable.byContradiction (fun h => by
        rw [List.getElem?_eq_none (Nat.le_of_not_lt h)] at hk; cases hk)
    rwa [show (dataPrefixes (windowFile.map FileSegment.segment)).length = 2 by decide +kernel] at this
  have hi2 : i < 2 := by
    have hall : ∀ pre ∈ dataPrefixes (windowFile.map FileSegment.segment), (active pre).length = 2 := by decide +kernel
    have : i < (active pre).length := Decidable.byContradiction (fun h => by
      rw [List.getElem?_eq_none (Nat.le_of_not_lt h)] at hi; cases hi)
    rwa [hall pre (List.mem_of_getElem? hk)] at this
  exact key k hk2 pre hk pre' hk' b hb b' hb' i hi2 p hi m hm n hn

/-- C43 fails for a channel behind a timestamp channel: the reader takes timestamps to be 8 bytes long and
    reads the second channel from the middle of the timestamp. -/
theorem byte_order_counterexample :
    let fs := [dataSegment .little false [("t", .timestamp, 1), ("b", .u16, 1)]
      [1, 2, 3, 4, 5, 6, 7, 8, 9, 10, 11, 12, 13, 14, 15, 16, 17, 0]]
    let fs' := [dataSegment .big false [("t", .timestamp, 1), ("b", .u16, 1)]
      [16, 15, 14, 13, 12, 11, 10, 9, 8, 7, 6, 5, 4, 3, 2, 1, 0, 17]]
    fs.map FileSegment.shape = fs'.map FileSegment.shape ∧
    readFrom .u16 (fileOf fs) "b" 0 (vals16 [0]) = .ok (vals16 [0x0A09]) ∧
    readFrom .u16 (fileOf fs') "b" 0 (vals16 [0]) = .ok (vals16 [0x0807]) := by
  refine ⟨?_, ?_, ?_⟩ <;> decide +kernel

end Tedium
