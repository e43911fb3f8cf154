import Verif.Proofs.Write
import Verif.Props.Read

/-! # Helper lemmas: the effect of one write -/

namespace Tedium
open SegSpec WriteSpec

theorem length_filterMap_some {β γ : Type} (f : β → Option γ) : ∀ (l : List β), (∀ x ∈ l, ∃ y, f x = some y) →
    (l.filterMap f).length = l.length
  | [], _ => rfl
  | x :: l, h => by
    obtain ⟨y, hy⟩ := h x List.mem_cons_self
    rw [List.filterMap_cons, hy, List.length_cons, List.length_cons,
      length_filterMap_some f l (fun z hz => h z (List.mem_cons_of_mem _ hz))]

theorem WriteSpec.Uniform.layouts {supported : List DataType} {segs : List Segment} {ps : List Text} {m : Nat}
    (h : Uniform supported segs ps m) :
    (activeLayouts segs).length = ps.length ∧
    ∀ l ∈ activeLayouts segs, l.dataType ∈ supported ∧ l.numberOfValues = m ∧ l.totalSizeBytes = none := by
  unfold activeLayouts
  rw [h.active]
  constructor
  · exact length_filterMap_some _ _ (fun p hp => by obtain ⟨l, hl, _⟩ := h.layout p hp; exact ⟨l, hl⟩)
  · intro l hl
    obtain ⟨p, hp, hpl⟩ := List.mem_filterMap.mp hl
    obtain ⟨l', hl', h'⟩ := h.layout p hp
    rw [hl'] at hpl
    cases hpl
    exact h'

theorem diverges_self {ps : List Text} (h : Diverges ps ps) : ps = [] := by
  rcases h with h | ⟨x, hx, hne⟩
  · exact h
  · exfalso
    apply hne
    clear hne
    induction ps with
    | nil => simp at hx
    | cons p ps ih =>
      rw [List.zip_cons_cons] at hx
      rcases List.mem_cons.mp hx with rfl | hx
      · rfl
      · exact ih hx

section
variable {α : Type} (S : Storage α) (e : Endian) (segs : List Segment) (ps : List Text) (vals : List α)
  (layout : DataLayout)

theorem writtenSegment_fields :
    (writtenSegment S e segs ps vals layout).1.toc.containsRawData = true ∧
    (writtenSegment S e segs ps vals layout).1.toc.bigEndian = e.isBig ∧
    (writtenSegment S e segs ps vals layout).1.toc.dataIsInterleaved = decide (layout = .interleaved) ∧
    (writtenSegment S e segs ps vals layout).1.toc.containsNewObjectList = decide (Diverges (active segs) ps) ∧
    (writtenSegment S e segs ps vals layout).1.rawDataOffset
      = MetaData.optSize (writtenMeta S segs ps (vals.length / ps.length)) ∧
    (writtenSegment S e segs ps vals layout).1.nextSegmentOffset
      = MetaData.optSize (writtenMeta S segs ps (vals.length / ps.length)) + S.memSize * vals.length ∧
    (writtenSegment S e segs ps vals layout).1.metaData = writtenMeta S segs ps (vals.length / ps.length) :=
  ⟨rfl, rfl, rfl, rfl, rfl, rfl, rfl⟩

theorem length_optWrite (md : Option MetaData) : (MetaData.optWrite e md).length = MetaData.optSize md := by
  cases md <;> simp [MetaData.optWrite, MetaData.optSize, length_writeMetaData]

theorem writeSegment_header (toc : ToC) (md : Option MetaData) (data : Option DataToWrite) :
    ∃ hdr : Bytes, (writeSegment e toc md data).2 = hdr ++ DataToWrite.optBytes data ∧
      hdr.length = 28 + MetaData.optSize md := by
  refine ⟨tdsmTag ++ ((finalToC e toc md data).asBytes ++ (encNat e 4 4713 ++
    (encNat e 8 (MetaData.optSize md + DataToWrite.optSize data) ++
      (encNat e 8 (MetaData.optSize md) ++ MetaData.optWrite e md)))), ?_, ?_⟩
  · unfold writeSegment
    simp only [List.append_assoc]
  · simp only [List.length_append, length_encNat, ToC.asBytes, tdsmTag, length_optWrite,
      List.length_cons, List.length_nil]
    omega

theorem writtenSegment_bytes :
    ∃ hdr : Bytes, (writtenSegment S e segs ps vals layout).2 = hdr ++ vals.flatMap (S.write e) ∧
      hdr.length = 28 + (writtenSegment S e segs ps vals layout).1.rawDataOffset :=
  writeSegment_header e _ _ _

theorem entriesOf_written :
    entriesOf (writtenSegment S e segs ps vals layout).1 =
      if Diverges (active segs) ps then ps.map (entryFor (entries segs) (writtenFormat S (vals.length / ps.length)))
      else [] := by
  unfold entriesOf
  show (match writtenMeta S segs ps (vals.length / ps.length) with | some m => m.objects | none => []) = _
  unfold writtenMeta
  by_cases h : Diverges (active segs) ps
  · rw [if_pos h, if_pos h]
  · rw [if_neg h, if_neg h]

theorem active_written : active (segs ++ [(writtenSegment S e segs ps vals layout).1]) =
    if Diverges (active segs) ps then firstOccurrences ps else active segs := by
  unfold active
  rw [listedSince_snoc, entriesOf_written, (writtenSegment_fields S e segs ps vals layout).2.2.2.1]
  by_cases h : Diverges (active segs) ps
  · rw [if_pos (by simpa using h), if_pos h, if_pos (by exact h), List.nil_append, activeOf_entryFor]
  · rw [if_neg (by simpa using h), if_neg h, if_neg (by exact h), List.append_nil]

theorem layout_written (p : Text) :
    layoutOf (entries (segs ++ [(writtenSegment S e segs ps vals layout).1])) p =
      if Diverges (active segs) ps ∧ p ∈ ps then some (writtenFormat S (vals.length / ps.length))
      else layoutOf (entries segs) p := by
  rw [entries_snoc, entriesOf_written]
  by_cases h : Diverges (active segs) ps
  · rw [if_pos h, layoutOf_entryFor]
    simp [h]
  · rw [if_neg h, if_neg (fun hh => h hh.1), List.append_nil]

theorem written_previous : ∀ pre o post,
    entriesOf (writtenSegment S e segs ps vals layout).1 = pre ++ o :: post →
      ¬ (o.rawDataIndex = .matchPrevious ∧ layoutOf (entries segs ++ pre) o.path = none) := by
  intro pre o post heq hh
  rw [entriesOf_written] at heq
  by_cases h : Diverges (active segs) ps
  · rw [if_pos h] at heq
    obtain ⟨l1, l2, hl, h1, h2⟩ := List.map_eq_append_iff.mp heq
    obtain ⟨p, l3, hl3, hp, _⟩ := List.map_eq_cons_iff.mp h2
    subst hp
    rw [← h1, layoutOf_entryFor] at hh
    obtain ⟨h3, h4⟩ := hh
    unfold entryFor at h3 h4
    dsimp only at h3 h4
    split at h3
    · rename_i hs
      rw [hs] at h4
      split at h4 <;> cases h4
    · cases h3
  · rw [if_neg h] at heq
    simp at heq

variable {S segs ps}

theorem uniform_fresh {sup : List DataType} (hd : Diverges (active segs) ps) (hn : ps.Nodup) (hnat : S.natural ∈ sup) :
    Uniform sup (segs ++ [(writtenSegment S e segs ps vals layout).1]) ps (vals.length / ps.length) where
  active := by rw [active_written, if_pos hd, firstOccurrences_of_nodup _ hn]
  layout := by
    intro p hp
    rw [layout_written, if_pos ⟨hd, hp⟩]
    exact ⟨_, rfl, hnat, rfl, rfl⟩

theorem uniform_live {sup : List DataType} (hd : ¬ Diverges (active segs) ps) {ps' : List Text} {m : Nat}
    (h : Uniform sup segs ps' m) :
    Uniform sup (segs ++ [(writtenSegment S e segs ps vals layout).1]) ps' m where
  active := by rw [active_written, if_neg hd]; exact h.active
  layout := by
    intro p hp
    rw [layout_written, if_neg (fun hh => hd hh.1)]
    exact h.layout p hp

end

theorem isBig_endian' (e : Endian) : (if e.isBig = true then Endian.big else Endian.little) = e := by cases e <;> rfl

theorem layout_of_decide (l : DataLayout) :
    (if decide (l = .interleaved) = true then DataLayout.interleaved else DataLayout.contigious) = l := by
  cases l <;> rfl

/-- The part of `channelSamples` that comes from the last segment. -/
def lastSamples {α : Type} (dec : Endian → Bytes → α) (f : Bytes) (pre : List Segment) (path : Text) : List α :=
  match blockOf pre, (active pre).idxOf? path, layoutOf (entries pre) path with
  | some b, some i, some m => b.samples dec f i m (samplesIn pre path)
  | _, _, _ => []

theorem channelSamples_snoc {α : Type} (dec : Endian → Bytes → α) (f : Bytes) (segs : List Segment) (s : Segment)
    (path : Text) : channelSamples dec f (segs ++ [s]) path = channelSamples dec f segs path ++
      if s.toc.containsRawData then lastSamples dec f (segs ++ [s]) path else [] := by
  unfold channelSamples
  rw [dataPrefixes_snoc, List.flatMap_append]
  congr 1
  split
  · rw [List.flatMap_cons, List.flatMap_nil, List.append_nil]; rfl
  · rfl

theorem sampleCount_snoc (segs : List Segment) (s : Segment) (path : Text) :
    sampleCount (segs ++ [s]) path = sampleCount segs path +
      if s.toc.containsRawData then samplesIn (segs ++ [s]) path else 0 := by
  unfold sampleCount
  rw [dataPrefixes_snoc, List.map_append, List.sum_append]
  congr 1
  split <;> simp

theorem replay_snoc {segs : List Segment} {ix ix' : Index} {s : Segment} {n : Nat}
    (h : replay Index.new segs = .ok ix) (hs : ix.addSegment s = (.ok n, ix')) :
    replay Index.new (segs ++ [s]) = .ok ix' := by
  rw [replay_append, h]
  show replay ix [s] = _
  unfold replay
  rw [hs]
  rfl

/-- **One write** to channels that have, afterwards, `m` values per chunk, where `m` divides the number of
    values written to each of them. -/
theorem write_step_chunks (al : Alloc) (ty : STy) {segs : List Segment} {t : TdmsFile} (h : Exact segs t) (e : Endian)
    (chs : List ChannelPath) (vals : List ty.Val) (layout : DataLayout) (htab : Table ty chs vals) {m : Nat}
    (hu : Uniform (ty.storage al).supported
      (segs ++ [(writtenSegment (ty.storage al) e segs (chs.map ChannelPath.path) vals layout).1])
      (chs.map ChannelPath.path) m)
    (hm : 0 < m) (hmn : m ∣ vals.length / chs.length)
    (hsz : (t.writeChannels (ty.storage al) e chs vals layout).2.bytes.length < 2 ^ 63) :
    ∃ t', t.writeChannels (ty.storage al) e chs vals layout = (.ok (), t') ∧
      t'.bytes = t.bytes ++ (writtenSegment (ty.storage al) e segs (chs.map ChannelPath.path) vals layout).2 ∧
      Exact (segs ++ [(writtenSegment (ty.storage al) e segs (chs.map ChannelPath.path) vals layout).1]) t' ∧
      (∀ g, Regular (t'.bytes ++ g)
        (segs ++ [(writtenSegment (ty.storage al) e segs (chs.map ChannelPath.path) vals layout).1])) ∧
      (∀ p, samplesIn (segs ++ [(writtenSegment (ty.storage al) e segs (chs.map ChannelPath.path) vals layout).1]) p
        = if p ∈ chs.map ChannelPath.path then vals.length / chs.length else 0) ∧
      ∀ p g, lastSamples (Format.decode ty) (t'.bytes ++ g)
        (segs ++ [(writtenSegment (ty.storage al) e segs (chs.map ChannelPath.path) vals layout).1]) p =
          match (chs.map ChannelPath.path).idxOf? p with
          | some i => inChunks layout m chs.length i vals
          | none => [] := by
  have hfix := STy.fixed al ty htab.ordinary
  have hr := replay_refines h.refines
  have hk : 0 < chs.length := List.length_pos_iff.mpr htab.some_channel
  have heq := writeChannels_eq (ty.storage al) e hr chs vals layout htab.some_channel htab.whole
  obtain ⟨n, hn⟩ := htab.whole
  have hn0 : 0 < n := by
    rcases Nat.eq_zero_or_pos n with h0 | h0
    · rw [h0, Nat.mul_zero] at hn
      exact absurd (List.length_eq_zero_iff.mp hn) htab.some_value
    · exact h0
  have hdivn : vals.length / chs.length = n := by rw [hn, Nat.mul_div_cancel_left _ hk]
  rw [hdivn] at hmn ⊢
  rw [heq] at hsz ⊢
  have hps : (chs.map ChannelPath.path).length = chs.length := List.length_map _
  generalize chs.map ChannelPath.path = ps at *
  obtain ⟨f1, f2, f3, f4, f5, f6, f7⟩ := writtenSegment_fields (ty.storage al) e segs ps vals layout
  obtain ⟨hdr, hbytes, hhdr⟩ := writtenSegment_bytes (ty.storage al) e segs ps vals layout
  have hprev := written_previous (ty.storage al) e segs ps vals layout
  generalize writtenSegment (ty.storage al) e segs ps vals layout = sb at *
  obtain ⟨s, bs⟩ := sb
  dsimp only at *
  obtain ⟨hlen, hlay⟩ := hu.layouts
  have hdata : (vals.flatMap ((ty.storage al).write e)).length = (ty.storage al).memSize * vals.length :=
    length_flatMap_const _ _ _ (fun v _ => STy.length_write al ty htab.ordinary e v)
  have hw : 0 < (ty.storage al).memSize := hfix.pos
  have hwl : (ty.storage al).memSize * vals.length = chs.length * n * (ty.storage al).memSize := by
    rw [hn, Nat.mul_comm]
  have hsz' : t.bytes.length + 28 + s.rawDataOffset + (ty.storage al).memSize * vals.length < 2 ^ 63 := by
    rw [List.length_append, hbytes, List.length_append, hhdr, hdata] at hsz
    omega
  have hnw : n ≤ (ty.storage al).memSize * vals.length := by
    rw [hwl, Nat.mul_comm chs.length n, Nat.mul_assoc]
    exact Nat.le_mul_of_pos_right _ (Nat.mul_pos hk hw)
  have hnext : s.nextSegmentOffset = s.rawDataOffset + (ty.storage al).memSize * vals.length := by rw [f5, f6]
  have hends : endOf (segs ++ [s]) = (t.bytes ++ bs).length := by
    rw [endOf_snoc, h.ends, List.length_append, hbytes, List.length_append, hhdr, hdata, hnext]
    omega
  have hord : ∀ l ∈ activeLayouts (segs ++ [s]), Format.ordinary l.dataType = true ∧ l.totalSizeBytes = none :=
    fun l hl => ⟨(hfix.sizes _ (hlay l hl).1).2, (hlay l hl).2.2⟩
  have hlw : ∀ l ∈ activeLayouts (segs ++ [s]), Format.bytesOf l.dataType = (ty.storage al).memSize ∧
      l.numberOfValues = m := by
    intro l hl
    rw [Format.bytesOf_ordinary (hord l hl).1]
    exact ⟨(hfix.sizes _ (hlay l hl).1).1, (hlay l hl).2.1⟩
  have hchunk : chunkBytesOf (activeLayouts (segs ++ [s])) = chs.length * (m * (ty.storage al).memSize) := by
    rw [chunkBytesOf_const _ hlw, hlen, hps]
  have hchunk' := chunkBytes_ordinary hord
  have hraw : rawBytes (segs ++ [s]) = (ty.storage al).memSize * vals.length := by
    unfold rawBytes
    rw [List.getLast?_append, List.getLast?_singleton]
    show s.nextSegmentOffset - s.rawDataOffset = _
    omega
  have hmn' := hmn
  obtain ⟨q, hq⟩ := hmn
  have hchunks : chunks (segs ++ [s]) = q := by
    rw [chunks_ordinary hord, hchunk, hraw, hwl, hq]
    rw [show chs.length * (m * q) * (ty.storage al).memSize
      = chs.length * (m * (ty.storage al).memSize) * q by
        rw [← Nat.mul_assoc chs.length m q, Nat.mul_assoc (chs.length * m) q, Nat.mul_comm q, ← Nat.mul_assoc,
          Nat.mul_assoc chs.length m]]
    exact Nat.mul_div_cancel_left _ (Nat.mul_pos hk (Nat.mul_pos hm hw))
  have hmq : m * (ty.storage al).memSize * chs.length ≤ (ty.storage al).memSize * vals.length := by
    have hq0 : 0 < q := by
      rcases Nat.eq_zero_or_pos q with h0 | h0
      · rw [h0, Nat.mul_zero] at hq; omega
      · exact h0
    have : m ≤ n := by rw [hq]; exact Nat.le_mul_of_pos_right _ hq0
    rw [hwl, Nat.mul_comm _ chs.length, ← Nat.mul_assoc]
    exact Nat.mul_le_mul_right _ (Nat.mul_le_mul_left _ this)
  have hvpc : ∀ p ∈ ps, valuesPerChunk (segs ++ [s]) p = m := by
    intro p hp
    obtain ⟨l, hl, _, hlm, _⟩ := hu.layout p hp
    unfold valuesPerChunk
    rw [hl]
    exact hlm
  have hsin : ∀ p, samplesIn (segs ++ [s]) p = if p ∈ ps then n else 0 := by
    intro p
    unfold samplesIn
    rw [hu.active]
    split
    · rename_i hp
      rw [hvpc p hp, hchunks, hq]
    · rfl
  have hpsne : ps ≠ [] := by
    intro hh
    rw [hh, List.length_nil] at hps
    omega
  obtain ⟨ix', hadd, href⟩ := hr.accepts (s := s) hprev (by
    intro _
    refine ⟨by rw [hu.active]; exact hpsne, ?_, fun l hl => (hord l hl).2, ?_, ?_⟩
    · rw [hnext]
      have : 0 < (ty.storage al).memSize * vals.length := by omega
      omega
    · rw [hchunk', hchunk, Nat.mul_comm]
      omega
    · intro p hp
      rw [hu.active] at hp
      rw [hvpc p hp, hchunks, ← hq]
      omega) (by
    rw [hends, List.length_append, hbytes, List.length_append, hhdr, hdata]
    omega)
  rw [hadd]
  refine ⟨_, rfl, rfl, ⟨replay_snoc h.refines hadd, hends⟩, ?_, hsin, ?_⟩
  · intro g
    refine ⟨⟨_, blockOf_snoc segs s, ?_⟩, hord, ?_, ?_⟩
    · show endOf segs + 28 + s.rawDataOffset + (s.nextSegmentOffset - s.rawDataOffset) ≤ _
      have : endOf (segs ++ [s]) = endOf segs + (28 + s.nextSegmentOffset) := endOf_snoc segs s
      rw [List.length_append]
      dsimp only
      rw [← hends]
      omega
    · intro l hl
      rw [(hlw l hl).2]
      exact ⟨hm, fun l' hl' => ((hlw l' hl').2).symm⟩
    · intro _
      rw [hchunk', hchunk, hraw, hwl, hq]
      exact ⟨q, by
        rw [← Nat.mul_assoc chs.length m q, Nat.mul_assoc (chs.length * m) q, Nat.mul_comm q, ← Nat.mul_assoc,
          Nat.mul_assoc chs.length m]⟩
  · intro p g
    unfold lastSamples
    rw [blockOf_snoc, hu.active]
    cases hidx : ps.idxOf? p with
    | none => rfl
    | some i =>
      have hpi := getElem?_of_idxOf? hidx
      have hp : p ∈ ps := List.mem_of_getElem? hpi
      have hi : i < chs.length := by
        rw [← hps]
        exact (List.getElem?_eq_some_iff.mp hpi).1
      obtain ⟨l, hl, hlsup, hlm, _⟩ := hu.layout p hp
      rw [hl]
      dsimp only
      rw [hsin p, if_pos hp, hbytes, ← List.append_assoc, List.append_assoc _ _ g]
      have key := block_inChunks (dec := Format.decode ty) (wr := (ty.storage al).write)
        (w := (ty.storage al).memSize) (STy.decode_write al ty htab.ordinary)
        (STy.length_write al ty htab.ordinary)
        { start := endOf segs + 28 + s.rawDataOffset
          length := s.nextSegmentOffset - s.rawDataOffset
          layout := if s.toc.dataIsInterleaved then .interleaved else .contigious
          channels := activeLayouts (segs ++ [s])
          byteOrder := if s.toc.bigEndian then .big else .little } (t.bytes ++ hdr) g vals
        (by dsimp only; rw [List.length_append, h.ends, hhdr]; omega)
        (m := m) (k := chs.length) (i := i) (n := n) (l := l) (by dsimp only; rw [hlen, hps])
        hlw ⟨by rw [Format.bytesOf_ordinary (hfix.sizes _ hlsup).2]; exact (hfix.sizes _ hlsup).1, hlm⟩ hm hi
        hn.symm hmn'
      dsimp only at key
      rw [f2, f3, isBig_endian', layout_of_decide] at key ⊢
      exact key

/-- **One write** to new channels, or to the same channels as before with a fitting number of values. -/
theorem write_step (al : Alloc) (ty : STy) {segs : List Segment} {t : TdmsFile} (h : Exact segs t) (e : Endian)
    (chs : List ChannelPath) (vals : List ty.Val) (layout : DataLayout) (htab : Table ty chs vals) {m : Nat}
    (hu : Uniform (ty.storage al).supported
      (segs ++ [(writtenSegment (ty.storage al) e segs (chs.map ChannelPath.path) vals layout).1])
      (chs.map ChannelPath.path) m)
    (hm : 0 < m) (hcase : vals.length / chs.length = m ∨
      m ∣ vals.length / chs.length ∧ (chs.length = 1 ∨ layout = .interleaved))
    (hsz : (t.writeChannels (ty.storage al) e chs vals layout).2.bytes.length < 2 ^ 63) :
    ∃ t', t.writeChannels (ty.storage al) e chs vals layout = (.ok (), t') ∧
      t'.bytes = t.bytes ++ (writtenSegment (ty.storage al) e segs (chs.map ChannelPath.path) vals layout).2 ∧
      Exact (segs ++ [(writtenSegment (ty.storage al) e segs (chs.map ChannelPath.path) vals layout).1]) t' ∧
      (∀ g, Regular (t'.bytes ++ g)
        (segs ++ [(writtenSegment (ty.storage al) e segs (chs.map ChannelPath.path) vals layout).1])) ∧
      (∀ p, samplesIn (segs ++ [(writtenSegment (ty.storage al) e segs (chs.map ChannelPath.path) vals layout).1]) p
        = if p ∈ chs.map ChannelPath.path then vals.length / chs.length else 0) ∧
      ∀ p g, lastSamples (Format.decode ty) (t'.bytes ++ g)
        (segs ++ [(writtenSegment (ty.storage al) e segs (chs.map ChannelPath.path) vals layout).1]) p =
          match (chs.map ChannelPath.path).idxOf? p with
          | some i => column layout chs.length i vals
          | none => [] := by
  obtain ⟨t', h1, h2, h3, h4, h5, h6⟩ := write_step_chunks al ty h e chs vals layout htab hu hm
    (by rcases hcase with h | h
        · rw [h]; exact Nat.dvd_refl _
        · exact h.1) hsz
  refine ⟨t', h1, h2, h3, h4, h5, fun p g => ?_⟩
  rw [h6 p g]
  cases hidx : (chs.map ChannelPath.path).idxOf? p with
  | none => rfl
  | some i =>
    have hi : i < chs.length := by
      have := (List.getElem?_eq_some_iff.mp (getElem?_of_idxOf? hidx)).1
      rw [List.length_map] at this
      exact this
    exact inChunks_column layout vals hi (Nat.mul_div_cancel' htab.whole) hcase

/-! ## Property writes -/

/-- The segment of a property write. -/
def propertySegment (e : Endian) (path : PropertyPath) (properties : List (Text × PropertyValue)) : Segment × Bytes :=
  writeSegment e {} (some { objects := [{ path := path.path, properties, rawDataIndex := .none }] }) none

theorem property_frame (segs : List Segment) (e : Endian) (path : PropertyPath)
    (properties : List (Text × PropertyValue)) :
    active (segs ++ [(propertySegment e path properties).1]) = active segs ∧
    (∀ p, layoutOf (entries (segs ++ [(propertySegment e path properties).1])) p = layoutOf (entries segs) p) ∧
    (propertySegment e path properties).1.toc.containsRawData = false := by
  refine ⟨?_, ?_, rfl⟩
  · unfold active
    rw [listedSince_snoc]
    show activeOf (listedSince segs ++ [_]) = _
    rw [activeOf_snoc, if_pos rfl]
  · intro p
    rw [entries_snoc]
    show layoutOf (entries segs ++ [_]) p = _
    rw [layoutOf_snoc]
    split <;> rfl

/-- **One property write.** -/
theorem property_step {segs : List Segment} {t : TdmsFile} (h : Exact segs t) (e : Endian)
    (path : PropertyPath) (properties : List (Text × PropertyValue))
    (hsz : (t.writeProperties e path properties).2.bytes.length < 2 ^ 64) :
    ∃ t', t.writeProperties e path properties = (.ok (), t') ∧
      t'.bytes = t.bytes ++ (propertySegment e path properties).2 ∧
      Exact (segs ++ [(propertySegment e path properties).1]) t' := by
  have heq : t.writeProperties e path properties =
      ((t.index.addSegment (propertySegment e path properties).1).1.map (fun _ => ()),
        { index := (t.index.addSegment (propertySegment e path properties).1).2
          bytes := t.bytes ++ (propertySegment e path properties).2 }) := rfl
  obtain ⟨hdr, hbytes, hhdr⟩ := writeSegment_header e {}
    (some { objects := [{ path := path.path, properties, rawDataIndex := .none }] }) none
  change (propertySegment e path properties).2 = hdr ++ [] at hbytes
  rw [List.append_nil] at hbytes
  have hends : endOf (segs ++ [(propertySegment e path properties).1])
      = (t.bytes ++ (propertySegment e path properties).2).length := by
    rw [endOf_snoc, h.ends, List.length_append, hbytes, hhdr]
    rfl
  obtain ⟨ix', hadd, href⟩ := (replay_refines h.refines).accepts (s := (propertySegment e path properties).1)
    (by
      intro pre o post hh hc
      change [_] = _ at hh
      have hmem : o ∈ pre ++ o :: post := by simp
      rw [← hh] at hmem
      rw [List.mem_singleton.mp hmem] at hc
      cases hc.1)
    (fun hh => by cases hh)
    (by rw [hends]; rw [heq] at hsz; exact hsz)
  rw [heq, hadd]
  exact ⟨_, rfl, rfl, replay_snoc h.refines hadd, hends⟩

end Tedium
