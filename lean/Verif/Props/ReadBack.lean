import Verif.Props.Buffers

/-! # Properties: exactly which histories are read back (C31) -/

namespace Tedium
open SegSpec WriteSpec

/-! ## Histories of the same shape -/

theorem sameShape_refl : ∀ ops : List Op, SameShape ops ops
  | [] => .nil
  | .props .. :: ops => .props (sameShape_refl ops)
  | .write .. :: ops => .write rfl (sameShape_refl ops)

theorem sameShape_append {a a' b b' : List Op} (h : SameShape a a') (h' : SameShape b b') :
    SameShape (a ++ b) (a' ++ b') := by
  induction h with
  | nil => exact h'
  | props _ ih => exact .props ih
  | write hl _ ih => exact .write hl ih

theorem length_writeSegment (e : Endian) (toc : ToC) (md : Option MetaData) (data : Option DataToWrite) :
    (writeSegment e toc md data).2.length = 28 + MetaData.optSize md + (DataToWrite.optBytes data).length := by
  obtain ⟨hdr, h1, h2⟩ := writeSegment_header e toc md data
  rw [h1, List.length_append, h2]

theorem sized_of_ordinary {ty : STy} (h : Format.ordinaryTy ty = true) : SizedTy ty := by
  constructor <;> (intro hh; subst hh; revert h; decide)

/-- The values that are written have no influence on results, index and file size. -/
theorem writeChannels_shape (al : Alloc) (ty : STy) (hty : SizedTy ty) (e : Endian)
    {t t' : TdmsFile} (hi : t'.index = t.index) (hb : t'.bytes.length = t.bytes.length) (chs : List ChannelPath)
    {vals vals' : List ty.Val} (hv : vals'.length = vals.length) (layout : DataLayout) :
    (t'.writeChannels (ty.storage al) e chs vals' layout).1 = (t.writeChannels (ty.storage al) e chs vals layout).1 ∧
    (t'.writeChannels (ty.storage al) e chs vals' layout).2.index
      = (t.writeChannels (ty.storage al) e chs vals layout).2.index ∧
    (t'.writeChannels (ty.storage al) e chs vals' layout).2.bytes.length
      = (t.writeChannels (ty.storage al) e chs vals layout).2.bytes.length := by
  have hd : ∀ vs : List ty.Val, (vs.flatMap ((ty.storage al).write e)).length = (ty.storage al).memSize * vs.length :=
    fun vs => length_flatMap_const _ _ _ (fun v _ => length_write_sized al hty e v)
  unfold TdmsFile.writeChannels
  rw [hv]
  split
  · exact ⟨rfl, hi, hb⟩
  · split
    · exact ⟨rfl, hi, hb⟩
    · have hs : TdmsFile.dataStructure (ty.storage al) vals' chs.length
          = TdmsFile.dataStructure (ty.storage al) vals chs.length := by
        unfold TdmsFile.dataStructure; rw [hv]
      rw [hs, hi]
      have hseg : ∀ toc md, (writeSegment e toc md (some (TdmsFile.sliceData (ty.storage al) e vals'))).1
          = (writeSegment e toc md (some (TdmsFile.sliceData (ty.storage al) e vals))).1 := by
        intro toc md
        unfold writeSegment DataToWrite.optSize TdmsFile.sliceData finalToC
        dsimp only
        rw [hv]
        rfl
      dsimp only
      rw [hseg]
      refine ⟨rfl, rfl, ?_⟩
      rw [List.length_append, List.length_append, hb, length_writeSegment, length_writeSegment]
      show _ + (_ + (List.flatMap _ vals').length) = _ + (_ + (List.flatMap _ vals).length)
      rw [hd, hd, hv]

theorem runOps_shape (al : Alloc) {ops ops' : List Op} (h : SameShape ops ops')
    (htab : ∀ e ty channels vals layout, Op.write e ty channels vals layout ∈ ops → SizedTy ty) :
    ∀ t t' : TdmsFile, t'.index = t.index → t'.bytes.length = t.bytes.length →
    (runOps al t' ops').index = (runOps al t ops).index ∧
      (runOps al t' ops').bytes.length = (runOps al t ops).bytes.length := by
  induction h with
  | nil => exact fun t t' hi hb => ⟨hi, hb⟩
  | @props e path properties ops ops' _ ih =>
    intro t t' hi hb
    rw [runOps_cons, runOps_cons]
    refine ih (fun e ty channels vals layout h => htab _ _ _ _ _ (List.mem_cons_of_mem _ h)) _ _ ?_ ?_
    · show ((t'.writeProperties e path properties).2).index = ((t.writeProperties e path properties).2).index
      unfold TdmsFile.writeProperties
      dsimp only
      rw [hi]
    · show ((t'.writeProperties e path properties).2).bytes.length = ((t.writeProperties e path properties).2).bytes.length
      unfold TdmsFile.writeProperties
      dsimp only
      rw [List.length_append, List.length_append, hb]
  | @write e ty channels vals vals' layout ops ops' hv _ ih =>
    intro t t' hi hb
    rw [runOps_cons, runOps_cons]
    obtain ⟨_, h1, h2⟩ := writeChannels_shape al ty (htab _ _ _ _ _ List.mem_cons_self) e hi hb channels hv layout
    exact ih (fun e ty channels vals layout h => htab _ _ _ _ _ (List.mem_cons_of_mem _ h)) _ _ h1 h2

theorem WriteSpec.Tables.sized {ops : List Op} (h : Tables ops) :
    ∀ e ty channels vals layout, Op.write e ty channels vals layout ∈ ops → SizedTy ty :=
  fun e ty channels vals layout hm => sized_of_ordinary (h.tables e ty channels vals layout hm).ordinary

theorem sameShape_take {ops ops' : List Op} (h : SameShape ops ops') : ∀ n, SameShape (ops.take n) (ops'.take n) := by
  induction h with
  | nil => intro n; simp; exact .nil
  | props _ ih => intro n; cases n with
    | zero => exact .nil
    | succ n => exact .props (ih n)
  | write hl _ ih => intro n; cases n with
    | zero => exact .nil
    | succ n => exact .write hl (ih n)

/-- Compatibility is a matter of the shape. -/
theorem compatible_shape {ops ops' : List Op} (h : SameShape ops ops') : ∀ last, Compatible last ops → Compatible last ops' := by
  induction h with
  | nil => exact fun _ h => h
  | props _ ih => exact fun last hc => ⟨trivial, ih _ hc.2⟩
  | @write e ty channels vals vals' layout ops ops' hv _ ih =>
    rintro last ⟨⟨htab, hcase⟩, hc⟩
    refine ⟨⟨⟨htab.ordinary, htab.some_channel, htab.distinct, ?_, by rw [hv]; exact htab.whole⟩,
      by rw [hv]; exact hcase⟩, ?_⟩
    · intro hh
      rw [hh] at hv
      exact htab.some_value (List.length_eq_zero_iff.mp hv.symm)
    · have : last.after (.write e ty channels vals' layout) = last.after (.write e ty channels vals layout) := by
        unfold Last.after
        dsimp only
        rw [hv]
      rw [this]
      exact ih _ hc

theorem compatible_take : ∀ (ops : List Op) (last : Last) (n : Nat), Compatible last ops → Compatible last (ops.take n)
  | [], _, n, _ => by rw [List.take_nil]; trivial
  | _ :: _, _, 0, _ => trivial
  | _ :: ops, _, n + 1, h => ⟨h.1, compatible_take ops _ n h.2⟩

theorem runOps_take_bytes (al : Alloc) (t : TdmsFile) (ops : List Op) (n : Nat) :
    (runOps al t (ops.take n)).bytes.length ≤ (runOps al t ops).bytes.length := by
  have := runOps_append al t (ops.take n) (ops.drop n)
  rw [List.take_append_drop] at this
  rw [this]
  exact (runOps_bytes al _ _).length_le

/-! ## The channel list in force -/

/-- The channels in force have been named by a call of the type in force. -/
theorem inForce_named : ∀ (ops : List Op) (last : Last), Compatible last ops →
    ∀ ty m, (ops.foldl Last.after last).format = some (ty, m) →
      ops.foldl Last.after last = last ∨
      ∃ op ∈ ops, typeOf op = some ty ∧ ∀ p ∈ (ops.foldl Last.after last).channels, Names p op
  | [], _, _, _, _, _ => Or.inl rfl
  | op :: ops, last, hc, ty, m, hf => by
    rw [List.foldl_cons] at hf ⊢
    rcases inForce_named ops (last.after op) hc.2 ty m hf with h | ⟨op', h1, h2, h3⟩
    · rw [h] at hf ⊢
      cases op with
      | props => exact Or.inl rfl
      | write e ty' chs vals layout =>
        unfold Last.after at hf ⊢
        dsimp only at hf ⊢
        split
        · rename_i hd
          rw [if_pos hd] at hf
          cases hf
          exact Or.inr ⟨_, List.mem_cons_self, rfl, fun p hp => List.mem_map.mp hp⟩
        · exact Or.inl rfl
    · exact Or.inr ⟨op', List.mem_cons_of_mem _ h1, h2, h3⟩

/-- There is a format in force as soon as there are channels in force. -/
theorem inForce_format : ∀ (ops : List Op) (last : Last),
    (last.channels ≠ [] → ∃ ty m, last.format = some (ty, m)) →
    (ops.foldl Last.after last).channels ≠ [] → ∃ ty m, (ops.foldl Last.after last).format = some (ty, m)
  | [], _, h, hne => h hne
  | op :: ops, last, h, hne => by
    rw [List.foldl_cons] at hne ⊢
    refine inForce_format ops _ ?_ hne
    cases op with
    | props => exact h
    | write e ty' chs vals layout =>
      unfold Last.after
      dsimp only
      split
      · exact fun _ => ⟨_, _, rfl⟩
      · exact h

theorem samplesIn_live (al : Alloc) (ty : STy) (hty : Format.ordinaryTy ty = true) {segs : List Segment} {last : Last}
    {m : Nat} (hl : LastIs al segs last) (hf : last.format = some (ty, m)) (e : Endian) {ps : List Text}
    (hd : ¬ Diverges last.channels ps) (vals : List ty.Val) (layout : DataLayout) (p : Text) :
    samplesIn (segs ++ [(writtenSegment (ty.storage al) e segs ps vals layout).1]) p =
      if p ∈ last.channels then m * (vals.length / (last.channels.length * m)) else 0 := by
  obtain ⟨hm, hu⟩ := hl.format ty m hf
  have hfix := STy.fixed al ty hty
  have hu' := uniform_live (S := ty.storage al) e vals layout (by rw [hl.channels]; exact hd) hu
  obtain ⟨_, _, _, _, f5, f6, _⟩ := writtenSegment_fields (ty.storage al) e segs ps vals layout
  generalize (writtenSegment (ty.storage al) e segs ps vals layout).1 = s at *
  obtain ⟨hlen, hlay⟩ := hu'.layouts
  have hord : ∀ l ∈ activeLayouts (segs ++ [s]), Format.ordinary l.dataType = true ∧ l.totalSizeBytes = none :=
    fun l hl => ⟨(hfix.sizes _ (hlay l hl).1).2, (hlay l hl).2.2⟩
  have hlw : ∀ l ∈ activeLayouts (segs ++ [s]), Format.bytesOf l.dataType = (ty.storage al).memSize ∧
      l.numberOfValues = m := by
    intro l hl
    rw [Format.bytesOf_ordinary (hord l hl).1]
    exact ⟨(hfix.sizes _ (hlay l hl).1).1, (hlay l hl).2.1⟩
  have hraw : rawBytes (segs ++ [s]) = (ty.storage al).memSize * vals.length := by
    unfold rawBytes
    rw [List.getLast?_append, List.getLast?_singleton]
    show s.nextSegmentOffset - s.rawDataOffset = _
    omega
  have hchunks : chunks (segs ++ [s]) = vals.length / (last.channels.length * m) := by
    rw [chunks_ordinary hord, chunkBytesOf_const _ hlw, hlen, hraw,
      show last.channels.length * (m * (ty.storage al).memSize)
        = (ty.storage al).memSize * (last.channels.length * m) by
        rw [← Nat.mul_assoc, Nat.mul_comm],
      Nat.mul_div_mul_left _ _ hfix.pos]
  unfold samplesIn
  rw [hu'.active, hchunks]
  split
  · rename_i hp
    obtain ⟨l, hl', _, hlm, _⟩ := hu'.layout p hp
    unfold valuesPerChunk
    rw [hl']
    dsimp only
    rw [hlm]
  · rfl

/-- Two lists of which none differs from the other at a position that both have are equal, or one of
    them continues the other. -/
theorem not_diverges {a b : List Text} (h : ¬ Diverges a b) : a ≠ [] ∧ (a <+: b ∨ b <+: a) := by
  refine ⟨fun hh => h (Or.inl hh), ?_⟩
  have h2 : ∀ x ∈ a.zip b, x.1 = x.2 := by
    intro x hx
    exact Decidable.byContradiction fun hne => h (Or.inr ⟨x, hx, hne⟩)
  clear h
  induction a generalizing b with
  | nil => exact Or.inl (List.nil_prefix)
  | cons x a ih =>
    cases b with
    | nil => exact Or.inr (List.nil_prefix)
    | cons y b =>
      have hxy : x = y := h2 (x, y) (by rw [List.zip_cons_cons]; exact List.mem_cons_self)
      subst hxy
      rcases ih (b := b) (fun z hz => h2 z (by rw [List.zip_cons_cons]; exact List.mem_cons_of_mem _ hz)) with h | h
      · exact Or.inl (List.cons_prefix_cons.mpr ⟨rfl, h⟩)
      · exact Or.inr (List.cons_prefix_cons.mpr ⟨rfl, h⟩)

/-- The samples that the last call of a history adds, if what the history wrote is read back. -/
theorem reads_back_gain (al : Alloc) {t : TdmsFile} {ops : List Op} {segs : List Segment}
    (hx : Exact segs (runOps al t ops)) (e : Endian) (ty : STy) {chs : List ChannelPath} {vals : List ty.Val}
    (layout : DataLayout) (htab : Table ty chs vals)
    (h : ReadsBack al t (ops ++ [.write e ty chs vals layout])) (ty' : STy) (c : ChannelPath)
    (hsam : channelSamples (Format.decode ty') (runOps al t ops).bytes segs c.path = written ty' c.path ops)
    (htype : ∀ op ∈ ops ++ [.write e ty chs vals layout], Names c.path op → typeOf op = some ty')
    (hnamed : ∃ op ∈ ops ++ [.write e ty chs vals layout], Names c.path op) :
    samplesIn (segs ++ [(writtenSegment (ty.storage al) e segs (chs.map ChannelPath.path) vals layout).1]) c.path
      = (valuesFor ty' c.path (.write e ty chs vals layout)).length := by
  obtain ⟨hall, hread⟩ := h
  have hok := hall ops _ [] rfl
  have heq := writeChannels_eq (ty.storage al) e (replay_refines hx.refines) chs vals layout htab.some_channel htab.whole
  have hrun : runOps al t (ops ++ [.write e ty chs vals layout])
      = ((runOps al t ops).writeChannels (ty.storage al) e chs vals layout).2 := by
    rw [runOps_append]; rfl
  change ((runOps al t ops).writeChannels (ty.storage al) e chs vals layout).1 = .ok () at hok
  rw [heq] at hok
  have hf := (writtenSegment_fields (ty.storage al) e segs (chs.map ChannelPath.path) vals layout).1
  generalize hs : (writtenSegment (ty.storage al) e segs (chs.map ChannelPath.path) vals layout).1 = s at *
  dsimp only at hok
  obtain ⟨n, hn⟩ : ∃ n, ((runOps al t ops).index.addSegment s).1 = .ok n := by
    cases hh : ((runOps al t ops).index.addSegment s).1 with
    | ok n => exact ⟨n, rfl⟩
    | error _ => rw [hh] at hok; cases hok
  have hadd : (runOps al t ops).index.addSegment s = (.ok n, ((runOps al t ops).index.addSegment s).2) := by
    rw [← hn]
  have hre := replay_snoc hx.refines hadd
  have hix : (runOps al t (ops ++ [.write e ty chs vals layout])).index = ((runOps al t ops).index.addSegment s).2 := by
    rw [hrun, heq]
  rw [← hix] at hre
  have hlen := (hread ty' c htype hnamed).1
  have hw : written ty' c.path (ops ++ [.write e ty chs vals layout])
      = written ty' c.path ops ++ valuesFor ty' c.path (.write e ty chs vals layout) := by
    unfold written
    rw [List.flatMap_append, List.flatMap_cons, List.flatMap_nil, List.append_nil]
  by_cases hl : Listed (entries (segs ++ [s])) c.path
  · rw [channel_length_sum hre c hl] at hlen
    split at hlen
    · injection hlen with hlen
      injection hlen with hlen
      have h1 := sampleCount_snoc segs s c.path
      rw [hf, if_pos rfl] at h1
      have h2 := length_channelSamples (dec := Format.decode ty') hx.refines (runOps al t ops).bytes c.path
      rw [hsam] at h2
      unfold sampleCount at h1 h2
      rw [hw, List.length_append] at hlen
      omega
    · cases hlen
  · unfold TdmsFile.channelLength Index.channelLength at hlen
    rw [((replay_refines hre).obj.unlisted _ hl).1] at hlen
    cases hlen

theorem length_valuesFor (ty : STy) (e : Endian) {chs : List ChannelPath} {vals : List ty.Val} (layout : DataLayout)
    (htab : Table ty chs vals) (p : Text) : (valuesFor ty p (.write e ty chs vals layout)).length =
      if p ∈ chs.map ChannelPath.path then vals.length / chs.length else 0 := by
  unfold valuesFor
  dsimp only
  rw [dif_pos rfl]
  cases hidx : (chs.map ChannelPath.path).idxOf? p with
  | none =>
    rw [if_neg (idxOf?_eq_none.mp hidx)]
    rfl
  | some i =>
    have hpi := getElem?_of_idxOf? hidx
    rw [if_pos (List.mem_of_getElem? hpi)]
    have hi : i < chs.length := by
      have := (List.getElem?_eq_some_iff.mp hpi).1
      rw [List.length_map] at this
      exact this
    have hk := Nat.mul_div_cancel' htab.whole
    dsimp only
    unfold column
    cases layout with
    | interleaved =>
      dsimp only
      rw [length_filterMap_some, List.length_range]
      intro row hrow
      have hrow := List.mem_range.mp hrow
      have : row * chs.length + i < vals.length := by
        rw [← hk, Nat.mul_comm row]
        have := Nat.mul_le_mul_left chs.length (Nat.succ_le_of_lt hrow)
        rw [Nat.mul_succ] at this
        omega
      exact ⟨_, List.getElem?_eq_getElem this⟩
    | contigious =>
      dsimp only
      rw [List.length_take, List.length_drop]
      have := Nat.mul_le_mul_right (vals.length / chs.length) (Nat.succ_le_of_lt hi)
      rw [Nat.succ_mul] at this
      omega

theorem exists_beyond {a b : List Text} (h : a <+: b) (hn : b.Nodup) (hne : a ≠ b) : ∃ p ∈ b, p ∉ a := by
  obtain ⟨r, rfl⟩ := h
  cases r with
  | nil => exact absurd (List.append_nil _).symm hne
  | cons p r =>
    refine ⟨p, by simp, fun hp => ?_⟩
    exact (List.nodup_append.mp hn).2.2 p hp p List.mem_cons_self rfl

/-- The channels in force are different. -/
theorem inForce_nodup : ∀ (ops : List Op) (last : Last), Compatible last ops → last.channels.Nodup →
    (ops.foldl Last.after last).channels.Nodup
  | [], _, _, h => h
  | op :: ops, last, hc, h => by
    rw [List.foldl_cons]
    refine inForce_nodup ops _ hc.2 ?_
    cases op with
    | props => exact h
    | write e ty' chs vals layout =>
      unfold Last.after
      dsimp only
      split
      · exact hc.1.1.distinct
      · exact h

/-- **The guard is needed.** A table that does not follow the calls before is not read back, for some
    values in it. -/
theorem not_reads_back (al : Alloc) {t : TdmsFile} (ht : TdmsFile.create al = .ok t) (ops : List Op)
    (hc : Compatible Last.none ops) (e : Endian) (ty : STy) (chs : List ChannelPath) (vals : List ty.Val)
    (layout : DataLayout) (htabs : Tables (ops ++ [.write e ty chs vals layout]))
    (hsz : (runOps al t (ops ++ [.write e ty chs vals layout])).bytes.length < 2 ^ 63)
    (hnf : ¬ Follows (ops.foldl Last.after Last.none) (.write e ty chs vals layout)) :
    ∃ vals' : List ty.Val, vals'.length = vals.length ∧ (chs.length = 1 → vals' = vals) ∧
      ¬ ReadsBack al t (ops ++ [.write e ty chs vals' layout]) := by
  have hmem : Op.write e ty chs vals layout ∈ ops ++ [.write e ty chs vals layout] := by simp
  have htab := htabs.tables _ _ _ _ _ hmem
  have hix : t = ⟨Index.new, []⟩ := by
    have : TdmsFile.create al = .ok ⟨Index.new, []⟩ := rfl
    rw [this] at ht
    exact (Except.ok.inj ht).symm
  have hsz0 : (runOps al t ops).bytes.length < 2 ^ 63 := by
    rw [runOps_append] at hsz
    exact Nat.lt_of_le_of_lt (runOps_bytes al _ _).length_le hsz
  obtain ⟨_, segs, hx, hlast, hpre, hlist, hsam⟩ := history_last al ops [] t Last.none
    ⟨by rw [hix]; rfl, by rw [hix]; rfl⟩ ⟨rfl, fun ty m h => by cases h⟩ hc hsz0
  rw [List.nil_append] at hx hlast hpre hlist hsam
  have hfmt := inForce_format ops Last.none (fun h => absurd rfl h)
  have hnamed := inForce_named ops Last.none hc
  have hnodup := inForce_nodup ops Last.none hc List.nodup_nil
  generalize ops.foldl Last.after Last.none = last at *
  have hsam' : ∀ ty' p, (∀ op ∈ ops, Names p op → typeOf op = some ty') →
      channelSamples (Format.decode ty') (runOps al t ops).bytes segs p = written ty' p ops := by
    intro ty' p h
    have := hsam ty' p h []
    rw [List.append_nil] at this
    exact this
  -- the list in force and the new one
  have hd : ¬ Diverges last.channels (chs.map ChannelPath.path) := fun h => hnf ⟨htab, Or.inl h⟩
  have hcont : ¬ Continues last ty chs (vals.length / chs.length) layout := fun h => hnf ⟨htab, Or.inr h⟩
  obtain ⟨hlne, hpfx⟩ := not_diverges hd
  obtain ⟨ty', m, hf⟩ := hfmt hlne
  obtain ⟨op0, hop0, hty0, hall0⟩ : ∃ op ∈ ops, typeOf op = some ty' ∧ ∀ p ∈ last.channels, Names p op := by
    rcases hnamed ty' m hf with h | h
    · rw [h] at hlne; exact absurd rfl hlne
    · exact h
  have hkpos : 0 < chs.length := List.length_pos_iff.mpr htab.some_channel
  obtain ⟨c0, hc0⟩ : ∃ c0, chs[0]? = some c0 := ⟨_, List.getElem?_eq_getElem hkpos⟩
  have hc0mem : c0 ∈ chs := List.mem_of_getElem? hc0
  have hp0 : (chs.map ChannelPath.path)[0]? = some c0.path := by rw [List.getElem?_map, hc0]; rfl
  have hl0 : c0.path ∈ last.channels := by
    have hl1 : 0 < last.channels.length := List.length_pos_iff.mpr hlne
    rcases hpfx with ⟨r, hr⟩ | ⟨r, hr⟩
    · rw [← hr, List.getElem?_append_left hl1] at hp0
      exact List.mem_of_getElem? hp0
    · rw [← hr]
      exact List.mem_append_left _ (List.mem_of_getElem? hp0)
  have htt : ty' = ty := by
    have := htabs.types op0 (List.mem_append_left _ hop0) _ hmem c0.path (hall0 _ hl0) ⟨c0, hc0mem, rfl⟩
    rw [hty0] at this
    exact Option.some.inj this
  subst htt
  obtain ⟨hm, hu⟩ := hlast.format ty' m hf
  have hn0 : 0 < vals.length / chs.length := by
    obtain ⟨n, hn⟩ := htab.whole
    rw [hn, Nat.mul_div_cancel_left _ hkpos]
    rcases Nat.eq_zero_or_pos n with h0 | h0
    · rw [h0, Nat.mul_zero] at hn
      exact absurd (List.length_eq_zero_iff.mp hn) htab.some_value
    · exact h0
  have hkn := Nat.mul_div_cancel' htab.whole
  have htypes : ∀ c : ChannelPath, c.path ∈ last.channels ∨ c ∈ chs →
      ∀ op ∈ ops ++ [.write e ty' chs vals layout], Names c.path op → typeOf op = some ty' := by
    intro c hcc op hop hn
    rcases hcc with h | h
    · rw [htabs.types op hop op0 (List.mem_append_left _ hop0) _ hn (hall0 _ h), hty0]
    · exact htabs.types op hop _ hmem _ hn ⟨c, h, rfl⟩
  have hgain : ReadsBack al t (ops ++ [.write e ty' chs vals layout]) → ∀ c : ChannelPath,
      c.path ∈ last.channels ∨ c ∈ chs →
      (if c.path ∈ last.channels then m * (vals.length / (last.channels.length * m)) else 0)
        = if c.path ∈ chs.map ChannelPath.path then vals.length / chs.length else 0 := by
    intro h c hcc
    have h1 := reads_back_gain al hx e ty' layout htab h ty' c
      (hsam' ty' c.path (fun op hop => htypes c hcc op (List.mem_append_left _ hop))) (htypes c hcc) (by
        rcases hcc with h | h
        · exact ⟨op0, List.mem_append_left _ hop0, hall0 _ h⟩
        · exact ⟨_, hmem, c, h, rfl⟩)
    rw [samplesIn_live al ty' htab.ordinary hlast hf e hd vals layout, length_valuesFor ty' e layout htab] at h1
    exact h1
  by_cases hsame : last.channels = chs.map ChannelPath.path
  · by_cases hmn : m ∣ vals.length / chs.length
    · have hnm : vals.length / chs.length ≠ m := fun h => hcont ⟨hsame, m, hf, Or.inl h⟩
      have hk1 : chs.length ≠ 1 := fun h => hcont ⟨hsame, m, hf, Or.inr ⟨hmn, Or.inl h⟩⟩
      have hlay : layout = .contigious := by
        cases layout with
        | contigious => rfl
        | interleaved => exact absurd ⟨hsame, m, hf, Or.inr ⟨hmn, Or.inr rfl⟩⟩ hcont
      subst hlay
      have hlt : m < vals.length / chs.length := by
        have := Nat.le_of_dvd hn0 hmn
        omega
      obtain ⟨a, b, hab⟩ := STy.two_values ty'
      generalize hvd : (List.range vals.length).map (fun j => if j = m then a else b) = vals'
      have hv : vals'.length = vals.length := by rw [← hvd, List.length_map, List.length_range]
      have hat : ∀ j, j < vals.length → vals'[j]? = some (if j = m then a else b) := by
        intro j hj
        rw [← hvd, List.getElem?_map, List.getElem?_range hj]
        rfl
      refine ⟨vals', hv, fun h => absurd h hk1, fun h => ?_⟩
      have htab' : Table ty' chs vals' := ⟨htab.ordinary, htab.some_channel, htab.distinct, by
        intro hh
        rw [hh] at hv
        exact htab.some_value (List.length_eq_zero_iff.mp hv.symm), by rw [hv]; exact htab.whole⟩
      have htypes' : ∀ op ∈ ops ++ [.write e ty' chs vals' .contigious], Names c0.path op → typeOf op = some ty' := by
        intro op hop hn
        rcases List.mem_append.mp hop with hop | hop
        · exact htypes c0 (Or.inl hl0) op (List.mem_append_left _ hop) hn
        · rw [List.mem_singleton.mp hop]; rfl
      have hsz' : (runOps al t (ops ++ [.write e ty' chs vals' .contigious])).bytes.length < 2 ^ 63 := by
        rw [(runOps_shape al (sameShape_append (sameShape_refl ops) (.write hv .nil)) htabs.sized t t rfl rfl).2]
        exact hsz
      have hrun : runOps al t (ops ++ [.write e ty' chs vals' .contigious])
          = ((runOps al t ops).writeChannels (ty'.storage al) e chs vals' .contigious).2 := by
        rw [runOps_append]; rfl
      rw [hrun] at hsz'
      have hu' := uniform_live (S := ty'.storage al) e vals' .contigious (by rw [hlast.channels]; exact hd) hu
      obtain ⟨t', h1, h2, h3, h4, _, h6⟩ := write_step_chunks al ty' hx e chs vals' .contigious htab'
        (by rw [hsame] at hu'; exact hu') hm (by rw [hv]; exact hmn) hsz'
      rw [h1] at hrun hsz'
      have hraw := (writtenSegment_fields (ty'.storage al) e segs (chs.map ChannelPath.path) vals' .contigious).1
      generalize (writtenSegment (ty'.storage al) e segs (chs.map ChannelPath.path) vals' .contigious).1 = s at *
      have hgrow : (runOps al t ops).bytes <+: t'.bytes := ⟨_, h2.symm⟩
      have hlisted : Listed (entries (segs ++ [s])) c0.path := by
        rw [entries_snoc]
        exact (listed_append _ _ _).mpr (Or.inl (hlist _ ⟨op0, hop0, hall0 _ hl0⟩))
      have hreg : ∀ pre ∈ dataPrefixes (segs ++ [s]), c0.path ∈ active pre → Regular t'.bytes pre ∧
          ∀ l, layoutOf (entries pre) c0.path = some l → l.dataType ∈ (ty'.storage al).supported := by
        intro pre hp hact
        rw [dataPrefixes_snoc, if_pos hraw] at hp
        rcases List.mem_append.mp hp with hp | hp
        · rcases hpre pre hp with hh | ⟨hr, op, hop, ty1, hty1, _, hchs⟩
          · cases hh
          · obtain ⟨hn, hsup⟩ := hchs c0.path hact
            have := htypes c0 (Or.inl hl0) op (List.mem_append_left _ hop) hn
            rw [this] at hty1
            cases hty1
            exact ⟨hr.grow hgrow, hsup⟩
        · rw [List.mem_singleton.mp hp]
          refine ⟨by have := h4 []; rw [List.append_nil] at this; exact this, ?_⟩
          intro l hl
          obtain ⟨l', hl', hs', _⟩ := hu'.layout c0.path hl0
          rw [hl'] at hl
          cases hl
          exact hs'
      have hsamples : channelSamples (Format.decode ty') t'.bytes (segs ++ [s]) c0.path
          = written ty' c0.path ops ++ inChunks .contigious m chs.length 0 vals' := by
        rw [channelSamples_snoc, if_pos hraw]
        have hold := hsam ty' c0.path (fun op hop => htypes c0 (Or.inl hl0) op (List.mem_append_left _ hop))
        obtain ⟨r, hr⟩ := hgrow
        have hlast6 := h6 c0.path []
        rw [List.append_nil] at hlast6
        rw [hlast6, ← hr, hold r]
        congr 1
        rw [idxOf?_of_nodup htab.distinct hp0]
      have hw : written ty' c0.path (ops ++ [.write e ty' chs vals' .contigious])
          = written ty' c0.path ops ++ column .contigious chs.length 0 vals' := by
        unfold written
        rw [List.flatMap_append, List.flatMap_cons, List.flatMap_nil, List.append_nil]
        congr 1
        unfold valuesFor
        dsimp only
        rw [dif_pos rfl, idxOf?_of_nodup htab.distinct hp0]
      obtain ⟨hlen, hread⟩ := h.2 ty' c0 htypes' ⟨_, List.mem_append_right _ List.mem_cons_self, c0, hc0mem, rfl⟩
      have hr1 := hread _ rfl
      rw [hrun] at hr1
      have hr2 := read_window_regular_partial al ty' htab.ordinary h3.refines hsz' c0 hlisted hreg 0
        (written ty' c0.path (ops ++ [.write e ty' chs vals' .contigious]))
      dsimp only at hr1
      rw [hr1] at hr2
      injection hr2 with hr2
      rw [List.drop_zero, hsamples, hw] at hr2
      have hlc : (column .contigious chs.length 0 vals').length = vals.length / chs.length := by
        unfold column
        dsimp only
        rw [hv, List.length_take, List.length_drop, hv, Nat.zero_mul]
        have := Nat.div_le_self vals.length chs.length
        omega
      have hkm : chs.length * m < vals.length := by
        rw [← hkn]
        exact (Nat.mul_lt_mul_left hkpos).mpr hlt
      have hli : (inChunks .contigious m chs.length 0 vals').length = vals.length / chs.length := by
        unfold inChunks
        dsimp only
        rw [length_filterMap_some, List.length_range, hv]
        intro x hx
        have hx := List.mem_range.mp hx
        rw [hv] at hx
        exact ⟨_, hat _ (by rw [← hkn]; exact chunk_pos hm hkpos hmn hx)⟩
      rw [overlay_self (by rw [List.length_append, List.length_append, hlc, hli])] at hr2
      have hcol := List.append_cancel_left hr2
      have e1 : (column .contigious chs.length 0 vals')[m]? = some a := by
        unfold column
        dsimp only
        rw [hv, Nat.zero_mul, List.drop_zero, List.getElem?_take, if_pos hlt, hat _ (by
          have := Nat.div_le_self vals.length chs.length
          omega), if_pos rfl]
      have e2 : (inChunks .contigious m chs.length 0 vals')[m]? = some b := by
        unfold inChunks
        dsimp only
        rw [getElem?_filterMap_some _ _ _ (by
          intro x hx
          have hx := List.mem_range.mp hx
          rw [hv] at hx
          rw [hat _ (by rw [← hkn]; exact chunk_pos hm hkpos hmn hx)]
          rfl), hv, List.getElem?_range hlt, Option.bind_some, Nat.div_self hm, Nat.mod_self, Nat.one_mul,
          Nat.zero_mul, Nat.add_zero, hat _ hkm, if_neg]
        intro hh
        have h2 : 2 * m ≤ chs.length * m := Nat.mul_le_mul_right m (by omega)
        omega
      rw [hcol, e2] at e1
      injection e1 with e1
      exact hab e1.symm
    · refine ⟨vals, rfl, fun _ => rfl, fun h => hmn ?_⟩
      have h0 := hgain h c0 (Or.inl hl0)
      rw [if_pos hl0, if_pos (by rw [← hsame]; exact hl0)] at h0
      exact ⟨_, h0.symm⟩
  · refine ⟨vals, rfl, fun _ => rfl, fun h => ?_⟩
    have h0 := hgain h c0 (Or.inl hl0)
    rw [if_pos hl0, if_pos (List.mem_map_of_mem hc0mem)] at h0
    rcases hpfx with hpfx | hpfx
    · obtain ⟨p, hp, hpn⟩ := exists_beyond hpfx htab.distinct hsame
      obtain ⟨c, hcm, rfl⟩ := List.mem_map.mp hp
      have h1 := hgain h c (Or.inr hcm)
      rw [if_neg hpn, if_pos hp] at h1
      omega
    · obtain ⟨p, hp, hpn⟩ := exists_beyond hpfx hnodup (fun h => hsame h.symm)
      obtain ⟨c, rfl⟩ : ∃ c : ChannelPath, c.path = p := by
        have := hall0 p hp
        cases op0 with
        | props => cases this
        | write _ _ _ _ _ => obtain ⟨c, _, hc⟩ := this; exact ⟨c, hc⟩
      have h1 := hgain h c (Or.inl hp)
      rw [if_pos hp, if_neg hpn] at h1
      omega

theorem first_misfit : ∀ (ops : List Op) (last : Last), ¬ Compatible last ops →
    ∃ pre op post, ops = pre ++ op :: post ∧ Compatible last pre ∧ ¬ Follows (pre.foldl Last.after last) op
  | [], _, h => absurd trivial h
  | op :: ops, last, h => by
    by_cases hf : Follows last op
    · obtain ⟨pre, o, post, h1, h2, h3⟩ := first_misfit ops (last.after op) (fun hh => h ⟨hf, hh⟩)
      exact ⟨op :: pre, o, post, by rw [h1]; rfl, ⟨hf, h2⟩, h3⟩
    · exact ⟨[], op, ops, rfl, trivial, hf⟩

theorem compatible_table : ∀ (ops : List Op) (last : Last), Compatible last ops →
    ∀ e ty chs vals layout, Op.write e ty chs vals layout ∈ ops → Table ty chs vals
  | [], _, _, _, _, _, _, _, h => by cases h
  | op :: ops, last, hc, e, ty, chs, vals, layout, h => by
    rcases List.mem_cons.mp h with h | h
    · subst h
      exact hc.1.1
    · exact compatible_table ops _ hc.2 e ty chs vals layout h

/-- **C31, exactly.** For a history of tables on a new file: whatever values the tables hold, at every point
    of the history everything written so far is read back, if and only if the history is compatible (each
    channel list differs from the one in force at a position that both have, or it is the same list with
    the same type and as many values per channel, or, for one channel or interleaved data, a multiple). -/
theorem reads_back_iff (al : Alloc) {t : TdmsFile} (ht : TdmsFile.create al = .ok t) (ops : List Op)
    (htabs : Tables ops) (hsz : (runOps al t ops).bytes.length < 2 ^ 63) :
    (∀ ops', SameShape ops ops' → ∀ n, ReadsBack al t (ops'.take n)) ↔ Compatible Last.none ops := by
  constructor
  · intro h
    refine Classical.byContradiction fun hnc => ?_
    obtain ⟨pre, op, post, rfl, hc, hnf⟩ := first_misfit ops Last.none hnc
    cases op with
    | props => exact hnf trivial
    | write e ty chs vals layout =>
      have htabs' : Tables (pre ++ [.write e ty chs vals layout]) := by
        have hsub : ∀ o ∈ pre ++ [.write e ty chs vals layout], o ∈ pre ++ .write e ty chs vals layout :: post := by
          intro o ho
          rcases List.mem_append.mp ho with ho | ho
          · exact List.mem_append_left _ ho
          · rw [List.mem_singleton.mp ho]; simp
        exact ⟨fun e ty chs vals layout ho => htabs.tables _ _ _ _ _ (hsub _ ho),
          fun o ho o' ho' => htabs.types o (hsub _ ho) o' (hsub _ ho')⟩
      have hsz' : (runOps al t (pre ++ [.write e ty chs vals layout])).bytes.length < 2 ^ 63 := by
        rw [List.append_cons, runOps_append] at hsz
        exact Nat.lt_of_le_of_lt (runOps_bytes al _ _).length_le hsz
      obtain ⟨vals', hv, _, hnot⟩ := not_reads_back al ht pre hc e ty chs vals layout htabs' hsz' hnf
      refine hnot ?_
      have := h (pre ++ .write e ty chs vals' layout :: post)
        (sameShape_append (sameShape_refl pre) (.write hv (sameShape_refl post))) (pre.length + 1)
      rw [List.append_cons, List.take_left' (by rw [List.length_append]; rfl)] at this
      exact this
  · intro hc ops' hs n
    have hc' := compatible_take ops' Last.none n (compatible_shape hs _ hc)
    have hb : (runOps al t (ops'.take n)).bytes.length < 2 ^ 63 := by
      have h1 := runOps_take_bytes al t ops' n
      have h2 := (runOps_shape al hs htabs.sized t t rfl rfl).2
      omega
    obtain ⟨h1, h2⟩ := write_then_read_partial al ht (ops'.take n) hc' hb
    refine ⟨h1, fun ty c htype hn => ?_⟩
    have hord : Format.ordinaryTy ty = true := by
      obtain ⟨op, hop, hnm⟩ := hn
      have hty := htype op hop hnm
      cases op with
      | props => cases hnm
      | write e ty' chs vals layout =>
        injection hty with hty
        subst hty
        exact (compatible_table _ _ hc' _ _ _ _ _ hop).ordinary
    obtain ⟨h3, h4⟩ := h2 ty c hord htype hn
    refine ⟨h3, fun out ho => ?_⟩
    rw [h4 0 out, List.drop_zero, overlay_self ho]

theorem tables_of {ops : List Op} (ty : Text → STy)
    (htab : ∀ e ty channels vals layout, Op.write e ty channels vals layout ∈ ops → Table ty channels vals)
    (hty : ∀ op ∈ ops, ∀ p, Names p op → typeOf op = some (ty p)) : Tables ops :=
  ⟨htab, fun op hop op' hop' p h h' => by rw [hty op hop p h, hty op' hop' p h']⟩

/-- The hypotheses hold for the history of `exampleOps`, which is compatible... -/
theorem reads_back_iff_example : Tables exampleOps ∧ (session exampleOps).bytes.length < 2 ^ 63 ∧
    Compatible Last.none exampleOps := by
  refine ⟨tables_of (fun p => if p = (chan "c").path then .u8 else .u16)
    (compatible_table _ _ exampleOps_compatible) ?_, by decide +kernel, exampleOps_compatible⟩
  intro op hop p hn
  simp only [exampleOps, List.mem_cons, List.not_mem_nil, or_false] at hop
  rcases hop with rfl | rfl | rfl | rfl | rfl | rfl
  all_goals first
    | (cases hn; done)
    | (obtain ⟨c, hc, rfl⟩ := hn
       simp only [List.mem_cons, List.not_mem_nil, or_false] at hc
       rcases hc with rfl | rfl <;> decide +kernel)
    | (obtain ⟨c, hc, rfl⟩ := hn
       rw [List.mem_singleton.mp hc]
       decide +kernel)

/-- ... and for a history that is not compatible: the same list with another number of values (see
    `write_then_read_length_counterexample` for what is read back). -/
theorem reads_back_iff_misfit :
    let ops := [writeU16 ["a"] [1, 2, 3], writeU16 ["a"] [4, 5, 6, 7, 8]]
    Tables ops ∧ (session ops).bytes.length < 2 ^ 63 ∧ ¬ Compatible Last.none ops := by
  refine ⟨tables_of (fun _ => .u16) ?_ ?_, by decide +kernel, ?_⟩
  · intro e ty chs vals layout h
    rcases List.mem_cons.mp h with h | h
    · cases h
      exact ⟨rfl, by decide +kernel, by decide +kernel, by decide +kernel, by decide +kernel⟩
    · cases List.mem_singleton.mp h
      exact ⟨rfl, by decide +kernel, by decide +kernel, by decide +kernel, by decide +kernel⟩
  · intro op h p hn
    rcases List.mem_cons.mp h with h | h
    · rw [h]; rfl
    · rw [List.mem_singleton.mp h]; rfl
  · rintro ⟨_, ⟨_, h | ⟨_, m, hf, hm⟩⟩, _⟩
    · revert h; decide +kernel
    · have : m = 3 := by
        have h2 : (Last.none.after (writeU16 ["a"] [1, 2, 3])).format = some (.u16, 3) := by decide +kernel
        rw [h2] at hf
        cases hf
        rfl
      subst this
      revert hm
      decide +kernel

end Tedium
