import Verif.Spec.Delivered
import Verif.Proofs.Cells
import Verif.Props.Read
import Verif.Props.Build

/-!
# C73: what a read delivers, for every layout

`read_window_partial` (C36) says that a read delivers the samples of the channel if the segments are
`Readable`. Here is what a read delivers in every other case (as long as it can be served at all), for
timestamps too, and from this the exact condition under which a read is right.
-/

namespace Tedium
open PlanSpec SegSpec

/-- **C73.** For every storage type of fixed size, every file, channel, start and buffer: if the segments the
    read gets to can be served, the buffer gets the values of the cells `delivered` in order, and keeps its
    other cells. -/
theorem read_layout_exact (al : Alloc) (ty : STy) (hty : Format.fixedTy ty = true) {segs : List Segment}
    {t : TdmsFile} (h : replay Index.new segs = .ok t.index) (hf : t.bytes.length < 2 ^ 63) (c : ChannelPath)
    (hl : Listed (entries segs) c.path) (start : Nat) (out : List ty.Val)
    (hserved : ServedIn (ty.storage al).supported (ty.storage al).memSize t.bytes segs c.path start out.length) :
    t.readChannelFrom (ty.storage al) c start out = .ok (overlay out
      ((delivered (ty.storage al).memSize segs c.path start).map
        (Cell.value (Format.decode ty) (ty.storage al).memSize t.bytes))) :=
  readChannelFrom_delivered (STy.reads_fixed al ty hty).1 (STy.reads_fixed al ty hty).2.1
    (STy.reads_fixed al ty hty).2.2 h hf c hl start out hserved

/-! ## When that is right -/

theorem sum_take_add_le {l : List Nat} {i x : Nat} (h : l[i]? = some x) : (l.take i).sum + x ≤ l.sum := by
  induction l generalizing i with
  | nil => simp at h
  | cons y ys ih =>
    cases i with
    | zero => simp only [List.getElem?_cons_zero, Option.some.injEq] at h; simp; omega
    | succ i =>
      have := ih h
      rw [List.take_succ_cons, List.sum_cons, List.sum_cons]
      omega

/-- Cells that are delivered lie in the raw data. -/
theorem DataBlock.delivered_inside {b : DataBlock} {i : Nat} {m : RawDataMeta} {w skip p : Nat}
    (hm : b.channels[i]? = some m) (hp : p ∈ b.delivered i m w skip) :
    b.start ≤ p ∧ p + w ≤ b.start + b.length := by
  unfold DataBlock.delivered at hp
  cases hlay : b.layout with
  | interleaved =>
    rw [hlay] at hp
    dsimp only at hp
    obtain ⟨r, hr, rfl⟩ := List.mem_map.mp hp
    have hr := List.mem_range.mp (List.mem_of_mem_drop hr)
    have hi : (stepWidths b.channels i w)[i]? = some w := by
      unfold stepWidths
      rw [List.getElem?_mapIdx, hm]
      simp
    have h1 := sum_take_add_le hi
    generalize (stepWidths b.channels i w).sum = row at *
    have h2 : (r + 1) * row ≤ b.length := Nat.le_trans (Nat.mul_le_mul_right _ hr) (Nat.div_mul_le_self _ _)
    rw [Nat.add_mul, Nat.one_mul] at h2
    omega
  | contigious =>
    rw [hlay] at hp
    dsimp only at hp
    obtain ⟨s, hs, rfl⟩ := List.mem_map.mp hp
    have hs := List.mem_range.mp (List.mem_of_mem_drop hs)
    have hi : (stepChunks b.channels i w)[i]? = some (m.numberOfValues * w) := by
      unfold stepChunks
      rw [List.getElem?_mapIdx, hm]
      simp
    have h1 := sum_take_add_le hi
    generalize (stepChunks b.channels i w).sum = chunk at *
    generalize m.numberOfValues = n at *
    have hn : 0 < n := by
      rcases Nat.eq_zero_or_pos n with h0 | h0
      · rw [h0, Nat.zero_mul] at hs; omega
      · exact h0
    have h3 : s / n < b.length / chunk := Nat.div_lt_of_lt_mul hs
    have h2 : (s / n + 1) * chunk ≤ b.length := Nat.le_trans (Nat.mul_le_mul_right _ h3) (Nat.div_mul_le_self _ _)
    rw [Nat.add_mul, Nat.one_mul] at h2
    have h4 : (s % n + 1) * w ≤ n * w := Nat.mul_le_mul_right _ (Nat.mod_lt _ hn)
    rw [Nat.add_mul, Nat.one_mul] at h4
    omega

theorem flatMap_getElem? {β γ : Type} (g : β → List γ) : ∀ (l : List β) (i : Nat) (c : γ),
    (l.flatMap g)[i]? = some c → ∃ B x, l[B]? = some x ∧ c ∈ g x ∧ ((l.take B).flatMap g).length ≤ i
  | [], i, c, h => by simp at h
  | y :: ys, i, c, h => by
    rw [List.flatMap_cons] at h
    by_cases hi : i < (g y).length
    · rw [List.getElem?_append_left hi] at h
      exact ⟨0, y, rfl, List.mem_of_getElem? h, by simp⟩
    · rw [List.getElem?_append_right (by omega)] at h
      obtain ⟨B, x, h1, h2, h3⟩ := flatMap_getElem? g ys _ c h
      refine ⟨B + 1, x, h1, h2, ?_⟩
      rw [List.take_succ_cons, List.flatMap_cons, List.length_append]
      omega

/-- The cells that a read of `n` values gets to lie in raw data inside the file. -/
theorem SegSpec.delivered_inside {supported : List DataType} {w : Nat} {f : Bytes} {segs : List Segment} {ix : Index}
    (h : replay Index.new segs = .ok ix) {path : Text} {start n : Nat} (hserved : ServedIn supported w f segs path start n)
    {i : Nat} (hi : i < n) {c : Cell} (hc : (delivered w segs path start)[i]? = some c) :
    ∃ pre ∈ dataPrefixes segs, ∃ b ∈ blockOf pre, b.start ≤ c.2 ∧ c.2 + w ≤ b.start + b.length ∧
      b.start + b.length ≤ f.length := by
  obtain ⟨B, pre, hpre, hmem, hlen⟩ := flatMap_getElem? _ _ _ _ hc
  have hprem := List.mem_of_getElem? hpre
  obtain ⟨_, _, _, hd2⟩ := dataPrefixes_take segs B pre hpre
  unfold deliveredIn at hmem
  by_cases hcond : 0 < samplesIn pre path ∧ start < sampleCount pre path
  · rw [if_pos hcond] at hmem
    have hact := samplesIn_active hcond.1
    have hsv := hserved pre hprem hact hcond.1 hcond.2 (by
      unfold delivered
      rw [hd2]
      omega)
    obtain ⟨b, hb, hin⟩ := hsv.inside
    obtain ⟨j, hj⟩ := Option.isSome_iff_exists.mp (List.isSome_idxOf?.mpr hact)
    obtain ⟨hm1, m, hm⟩ := layout_at h hpre hj
    obtain ⟨s, hs, hbch, _⟩ := blockOf_fields hb
    rw [hb, hj, hm] at hmem
    dsimp only at hmem
    obtain ⟨p, hp, rfl⟩ := List.mem_map.mp hmem
    have := DataBlock.delivered_inside (by rw [hbch, hm1, hm]) hp
    exact ⟨pre, hprem, b, hb, this.1, this.2, hin⟩
  · rw [if_neg hcond] at hmem
    cases hmem

theorem bytesOf_fixed (al : Alloc) (ty : STy) (h : Format.fixedTy ty = true) (dt : DataType)
    (hdt : dt ∈ (ty.storage al).supported) : Format.bytesOf dt = (ty.storage al).memSize := by
  cases ty <;> first
    | (cases h; done)
    | (simp only [STy.storage, numeric, boolStorage, timestampStorage, complexStorage, List.mem_cons, List.not_mem_nil,
        or_false] at hdt
       first
        | (subst hdt; rfl)
        | (rcases hdt with hdt | hdt <;> subst hdt <;> rfl))

theorem flatMap_congr_mem {β γ : Type} {g g' : β → List γ} : ∀ (l : List β), (∀ x ∈ l, g x = g' x) →
    l.flatMap g = l.flatMap g'
  | [], _ => rfl
  | y :: ys, h => by
    rw [List.flatMap_cons, List.flatMap_cons, h y List.mem_cons_self,
      flatMap_congr_mem ys (fun x hx => h x (List.mem_cons_of_mem _ hx))]

/-- The samples of a channel are the values of its cells. -/
theorem channelSamples_cells (al : Alloc) (ty : STy) (hty : Format.fixedTy ty = true) {segs : List Segment} {path : Text}
    (htypes : ∀ pre ∈ dataPrefixes segs, path ∈ active pre → ∀ m, layoutOf (entries pre) path = some m →
      m.dataType ∈ (ty.storage al).supported) (f : Bytes) :
    channelSamples (Format.decode ty) f segs path =
      (sampleCells segs path).map (Cell.value (Format.decode ty) (ty.storage al).memSize f) := by
  unfold channelSamples sampleCells
  rw [List.map_flatMap]
  refine flatMap_congr_mem _ (fun pre hpre => ?_)
  cases hb : blockOf pre with
  | none => rfl
  | some b =>
    cases hi : (active pre).idxOf? path with
    | none => rfl
    | some i =>
      cases hm : layoutOf (entries pre) path with
      | none => rfl
      | some m =>
        have hact : path ∈ active pre := List.isSome_idxOf?.mp (by rw [hi]; rfl)
        have hw := bytesOf_fixed al ty hty _ (htypes pre hpre hact m hm)
        dsimp only
        unfold DataBlock.samples
        rw [List.map_map]
        apply List.map_congr_left
        intro x _
        unfold DataBlock.sampleBytes
        rw [hw]
        rfl

/-- A read of `n` values from sample `start` is right, whatever the samples are: for every file with the same
    metadata and every buffer of `n` cells, the buffer gets the samples `start`, `start + 1`, ... of the
    channel and keeps its other cells. -/
def ReadsRight (al : Alloc) (ty : STy) (t : TdmsFile) (segs : List Segment) (c : ChannelPath) (start n : Nat) : Prop :=
  ∀ f, SameMetaData segs t.bytes f → ∀ out : List ty.Val, out.length = n →
    ({ t with bytes := f } : TdmsFile).readChannelFrom (ty.storage al) c start out =
      .ok (overlay out ((channelSamples (Format.decode ty) f segs c.path).drop start))

theorem exists_other (ty : STy) (h : Format.fixedTy ty = true) (v : ty.Val) : ∃ v' : ty.Val, v' ≠ v := by
  have hd := decode_first ty h .little anyAlloc
  by_cases hv : Format.decode ty .little (List.replicate (ty.storage anyAlloc).memSize 0) = v
  · exact ⟨_, fun hx => hd (hv.trans hx.symm)⟩
  · exact ⟨_, hv⟩

/-- **C73, exactly when a read is right.** Where a read can be served, it is right for all contents of the
    raw data if and only if, up to the size of the buffer, the cells it visits are those of the samples
    `start`, `start + 1`, ... of the channel, with the same byte order unless a value is one byte. -/
theorem read_right_iff (al : Alloc) (ty : STy) (hty : Format.fixedTy ty = true) {segs : List Segment}
    {t : TdmsFile} (h : replay Index.new segs = .ok t.index) (hf : t.bytes.length < 2 ^ 63) (c : ChannelPath)
    (hl : Listed (entries segs) c.path) (start n : Nat)
    (htypes : ∀ pre ∈ dataPrefixes segs, c.path ∈ active pre → ∀ m, layoutOf (entries pre) c.path = some m →
      m.dataType ∈ (ty.storage al).supported)
    (hserved : ServedIn (ty.storage al).supported (ty.storage al).memSize t.bytes segs c.path start n) :
    ReadsRight al ty t segs c start n ↔
      ∀ i < n, Option.Rel (Cell.Same (ty.storage al).memSize)
        (delivered (ty.storage al).memSize segs c.path start)[i]? (sampleCells segs c.path)[start + i]? := by
  have hread : ∀ f, SameMetaData segs t.bytes f → ∀ out : List ty.Val, out.length = n →
      ({ t with bytes := f } : TdmsFile).readChannelFrom (ty.storage al) c start out = .ok (overlay out
        ((delivered (ty.storage al).memSize segs c.path start).map
          (Cell.value (Format.decode ty) (ty.storage al).memSize f))) := by
    intro f hsame out hout
    refine read_layout_exact al ty hty (t := { t with bytes := f }) h (by rw [← hsame.1]; exact hf) c hl start out ?_
    intro pre hpre hact hpos hst hlen
    rw [hout] at hlen
    have hsv := hserved pre hpre hact hpos hst hlen
    obtain ⟨b, hb, hin⟩ := hsv.inside
    exact ⟨hsv.stored, ⟨b, hb, by rw [← hsame.1]; exact hin⟩, hsv.contiguous, hsv.interleaved⟩
  unfold ReadsRight
  constructor
  · intro hright i hi
    -- the cell `i` of the buffer
    have hcell : ∀ f, SameMetaData segs t.bytes f → ∀ v : ty.Val,
        (((delivered (ty.storage al).memSize segs c.path start)[i]?.map
          (Cell.value (Format.decode ty) (ty.storage al).memSize f)).or (some v)) =
        (((sampleCells segs c.path)[start + i]?.map
          (Cell.value (Format.decode ty) (ty.storage al).memSize f)).or (some v)) := by
      intro f hsame v
      have hlen : (List.replicate n v).length = n := List.length_replicate
      have h1 := hread f hsame _ hlen
      rw [hright f hsame _ hlen, channelSamples_cells al ty hty htypes f] at h1
      have h2 := congrArg (fun l : List ty.Val => l[i]?) (Except.ok.inj h1)
      rw [overlay_getElem? _ _ _ (by rw [hlen]; exact hi), overlay_getElem? _ _ _ (by rw [hlen]; exact hi),
        List.getElem?_drop, List.getElem?_map, List.getElem?_map, List.getElem?_replicate, if_pos hi] at h2
      exact h2.symm
    have hself : SameMetaData segs t.bytes t.bytes := ⟨rfl, fun _ _ => rfl⟩
    cases hd : (delivered (ty.storage al).memSize segs c.path start)[i]? with
    | none =>
      cases he : (sampleCells segs c.path)[start + i]? with
      | none => exact .none
      | some q =>
        exfalso
        obtain ⟨v, hv⟩ := exists_other ty hty (Cell.value (Format.decode ty) (ty.storage al).memSize t.bytes q)
        have := hcell t.bytes hself v
        rw [hd, he] at this
        exact hv (Option.some.inj this)
    | some p =>
      cases he : (sampleCells segs c.path)[start + i]? with
      | none =>
        exfalso
        obtain ⟨v, hv⟩ := exists_other ty hty (Cell.value (Format.decode ty) (ty.storage al).memSize t.bytes p)
        have := hcell t.bytes hself v
        rw [hd, he] at this
        exact hv (Option.some.inj this).symm
      | some q =>
        refine .some (Classical.byContradiction fun hns => ?_)
        obtain ⟨pre, hpre, b, hb, hs1, hs2, hs3⟩ := delivered_inside h hserved hi hd
        obtain ⟨bs, hbs, hne⟩ := Cell.differ hty al hns (f := t.bytes) (by omega)
        have hsame : SameMetaData segs t.bytes (splice t.bytes p.2 bs) := by
          refine ⟨(splice_length (by omega)).symm, fun y hy => ?_⟩
          rw [splice_getElem? (by omega), if_neg]
          intro hy'
          exact hy pre hpre b hb (by omega)
        have := hcell _ hsame (Cell.value (Format.decode ty) (ty.storage al).memSize t.bytes p)
        rw [hd, he] at this
        exact hne (Option.some.inj this)
  · intro hrel f hsame out hout
    rw [hread f hsame out hout, channelSamples_cells al ty hty htypes f]
    congr 1
    apply List.ext_getElem?
    intro i
    by_cases hi : i < n
    · rw [overlay_getElem? _ _ _ (by omega), overlay_getElem? _ _ _ (by omega), List.getElem?_drop,
        List.getElem?_map, List.getElem?_map]
      congr 1
      have := hrel i hi
      cases hd : (delivered (ty.storage al).memSize segs c.path start)[i]? with
      | none =>
        rw [hd] at this
        cases he : (sampleCells segs c.path)[start + i]? with
        | none => rfl
        | some q => rw [he] at this; cases this
      | some p =>
        rw [hd] at this
        cases he : (sampleCells segs c.path)[start + i]? with
        | none => rw [he] at this; cases this
        | some q =>
          rw [he] at this
          cases this with
          | some hs => exact congrArg some (hs.value hty al f)
    · rw [List.getElem?_eq_none (by rw [length_overlay]; omega), List.getElem?_eq_none (by rw [length_overlay]; omega)]

/-! ## One segment -/

theorem stepChunks_plain {chs : List RawDataMeta} {i w : Nat} {m : RawDataMeta}
    (h : ∀ m ∈ chs, Format.bytesOf m.dataType = m.dataType.size) (hi : chs[i]? = some m)
    (hw : Format.bytesOf m.dataType = w) :
    stepChunks chs i w = chs.map (fun m => m.numberOfValues * Format.bytesOf m.dataType) := by
  unfold stepChunks
  apply List.ext_getElem?
  intro j
  rw [List.getElem?_mapIdx, List.getElem?_map]
  cases hj : chs[j]? with
  | none => rfl
  | some x =>
    by_cases hji : j = i
    · subst hji
      rw [hi] at hj
      cases hj
      simp [hw]
    · simp [hji, h x (List.mem_of_getElem? hj)]

theorem stepWidths_plain {chs : List RawDataMeta} {i w : Nat} {m : RawDataMeta}
    (h : ∀ m ∈ chs, Format.bytesOf m.dataType = m.dataType.size) (hi : chs[i]? = some m)
    (hw : Format.bytesOf m.dataType = w) :
    stepWidths chs i w = chs.map (fun m => Format.bytesOf m.dataType) := by
  unfold stepWidths
  apply List.ext_getElem?
  intro j
  rw [List.getElem?_mapIdx, List.getElem?_map]
  cases hj : chs[j]? with
  | none => rfl
  | some x =>
    by_cases hji : j = i
    · subst hji
      rw [hi] at hj
      cases hj
      simp [hw]
    · simp [hji, h x (List.mem_of_getElem? hj)]

/-- In contiguous data of ordinary types, samples are delivered from their places, but maybe not the right ones. -/
theorem DataBlock.delivered_contiguous {b : DataBlock} {i w skip : Nat} {m : RawDataMeta}
    (h : ∀ m ∈ b.channels, Format.bytesOf m.dataType = m.dataType.size) (hi : b.channels[i]? = some m)
    (hw : Format.bytesOf m.dataType = w) (hlay : b.layout = .contigious) :
    b.delivered i m w skip =
      ((List.range (m.numberOfValues * (b.length / chunkBytesOf b.channels))).drop
        (skippedFor ((b.channels.map (·.numberOfValues)).headD 0) m.numberOfValues skip)).map (b.samplePos i m) := by
  unfold DataBlock.delivered
  rw [hlay]
  dsimp only
  rw [stepChunks_plain h hi hw]
  apply List.map_congr_left
  intro s _
  unfold DataBlock.samplePos
  rw [hlay]
  dsimp only
  rw [← List.map_take, hw]
  rfl

/-- In interleaved data of ordinary types, all rows are delivered. -/
theorem DataBlock.delivered_interleaved {b : DataBlock} {i w skip : Nat} {m : RawDataMeta}
    (h : ∀ m ∈ b.channels, Format.bytesOf m.dataType = m.dataType.size) (hi : b.channels[i]? = some m)
    (hw : Format.bytesOf m.dataType = w) (hlay : b.layout = .interleaved) :
    b.delivered i m w skip =
      ((List.range (b.length / rowBytesOf b.channels)).drop skip).map (b.samplePos i m) := by
  unfold DataBlock.delivered
  rw [hlay]
  dsimp only
  rw [stepWidths_plain h hi hw]
  apply List.map_congr_left
  intro s _
  unfold DataBlock.samplePos
  rw [hlay]
  dsimp only
  rw [← List.map_take]
  rfl

/-- Different samples have different places. -/
theorem DataBlock.samplePos_inj {b : DataBlock} {i : Nat} {m : RawDataMeta} (hi : b.channels[i]? = some m)
    (hn : 0 < m.numberOfValues) (hw : 0 < Format.bytesOf m.dataType) {s s' : Nat}
    (h : b.samplePos i m s = b.samplePos i m s') : s = s' := by
  have hinj : ∀ s s', s < s' → b.samplePos i m s < b.samplePos i m s' := by
    intro s s' hlt
    unfold DataBlock.samplePos
    cases hlay : b.layout with
    | interleaved =>
      dsimp only
      have hrow : 0 < rowBytesOf b.channels := by
        unfold rowBytesOf
        exact sum_pos_of_getElem? (i := i) (x := Format.bytesOf m.dataType) (by rw [List.getElem?_map, hi]; rfl) hw
      have := Nat.mul_lt_mul_of_pos_right hlt hrow
      omega
    | contigious =>
      dsimp only
      have hchunk : m.numberOfValues * Format.bytesOf m.dataType ≤ chunkBytesOf b.channels := by
        unfold chunkBytesOf
        have := sum_take_add_le (l := b.channels.map (fun m => m.numberOfValues * Format.bytesOf m.dataType)) (i := i)
          (x := m.numberOfValues * Format.bytesOf m.dataType) (by rw [List.getElem?_map, hi]; rfl)
        omega
      generalize chunkBytesOf b.channels = B at *
      generalize Format.bytesOf m.dataType = w at *
      generalize m.numberOfValues = n at *
      have h1 := Nat.div_add_mod s n
      have h2 := Nat.div_add_mod s' n
      have h3 := Nat.mod_lt s hn
      rcases Nat.lt_or_ge (s / n) (s' / n) with hq | hq
      · have h4 : (s / n + 1) * B ≤ s' / n * B := Nat.mul_le_mul_right _ hq
        have h5 : s % n * w < n * w := Nat.mul_lt_mul_of_pos_right h3 hw
        rw [Nat.add_mul, Nat.one_mul] at h4
        omega
      · have hq' : s / n = s' / n := Nat.le_antisymm (Nat.div_le_div_right (Nat.le_of_lt hlt)) hq
        have h5 : s % n * w < s' % n * w := Nat.mul_lt_mul_of_pos_right (by rw [hq'] at h1; omega) hw
        rw [hq']
        omega
  rcases Nat.lt_trichotomy s s' with hlt | heq | hgt
  · have := hinj _ _ hlt; omega
  · exact heq
  · have := hinj _ _ hgt; omega

/-- The right number of values is skipped in contiguous data if and only if the first channel has as many
    values per chunk as the one that is read, or the samples to skip are inside the first chunk of both. -/
theorem DataBlock.skippedFor_eq_iff {first n skip : Nat} (hfirst : 0 < first) :
    skippedFor first n skip = skip ↔ n = first ∨ (skip < first ∧ skip ≤ n) := by
  unfold DataBlock.skippedFor
  have h1 := Nat.div_add_mod skip first
  have h2 := Nat.mod_lt skip hfirst
  constructor
  · intro h
    rcases Nat.lt_or_ge skip first with hlt | hge
    · refine Or.inr ⟨hlt, ?_⟩
      rw [Nat.div_eq_of_lt hlt, Nat.mod_eq_of_lt hlt] at h
      omega
    · have hq : 0 < skip / first := Nat.div_pos hge hfirst
      rcases Nat.lt_trichotomy n first with hlt | heq | hgt
      · exfalso
        have h3 : skip / first * n < skip / first * first := Nat.mul_lt_mul_of_pos_left hlt hq
        rw [Nat.mul_comm first] at h1
        omega
      · exact Or.inl heq
      · exfalso
        have h3 : skip / first * first < skip / first * n := Nat.mul_lt_mul_of_pos_left hgt hq
        rw [Nat.mul_comm first] at h1
        omega
  · rintro (heq | ⟨hlt, hle⟩)
    · subst heq
      rw [Nat.mul_comm] at h1
      omega
    · rw [Nat.div_eq_of_lt hlt, Nat.mod_eq_of_lt hlt]
      omega

/-- The cells of two lists of samples, one after the other from `a` and `a'` on, agree up to `n` if and only if
    they are the same lists up to `n`. -/
theorem rel_ranges_iff {w : Nat} {e : Endian} {pos : Nat → Nat} (hinj : ∀ s s', pos s = pos s' → s = s')
    {N N' a a' n : Nat} (hn : 0 < n) (ha' : a' < N') :
    (∀ i < n, Option.Rel (Cell.Same w) ((((List.range N).drop a).map pos).map (fun p => (e, p)))[i]?
      (((List.range N').map (fun s => (e, pos s)))[a' + i]?)) ↔
    a = a' ∧ min (a' + n) N = min (a' + n) N' := by
  have hl : ∀ i, ((((List.range N).drop a).map pos).map (fun p => (e, p)))[i]? =
      if a + i < N then some (e, pos (a + i)) else none := by
    intro i
    rw [List.getElem?_map, List.getElem?_map, List.getElem?_drop]
    by_cases hlt : a + i < N
    · rw [if_pos hlt, List.getElem?_range hlt]; rfl
    · rw [if_neg hlt, List.getElem?_eq_none (by rw [List.length_range]; omega)]; rfl
  have hr : ∀ i, (((List.range N').map (fun s => (e, pos s)))[a' + i]?) =
      if a' + i < N' then some (e, pos (a' + i)) else none := by
    intro i
    rw [List.getElem?_map]
    by_cases hlt : a' + i < N'
    · rw [if_pos hlt, List.getElem?_range hlt]; rfl
    · rw [if_neg hlt, List.getElem?_eq_none (by rw [List.length_range]; omega)]; rfl
  constructor
  · intro h
    have haa : a = a' := by
      have h0 := h 0 hn
      rw [hl, hr, if_pos (by omega : a' + 0 < N')] at h0
      by_cases hlt : a + 0 < N
      · rw [if_pos hlt] at h0
        cases h0 with
        | some hs => exact hinj _ _ hs.1
      · rw [if_neg hlt] at h0
        cases h0
    refine ⟨haa, ?_⟩
    subst haa
    refine Classical.byContradiction fun hne => ?_
    have hN := h 0 hn
    rw [hl, hr, if_pos (by omega : a + 0 < N')] at hN
    have hNa : a < N := by
      refine Classical.byContradiction fun hge => ?_
      rw [if_neg (by omega)] at hN
      cases hN
    rcases Nat.lt_or_ge N N' with hlt | hge
    · have hi := h (N - a) (by omega)
      rw [hl, hr, if_neg (by omega), if_pos (by omega)] at hi
      cases hi
    · have hi := h (N' - a) (by omega)
      rw [hl, hr, if_pos (by omega), if_neg (by omega)] at hi
      cases hi
  · rintro ⟨rfl, hmin⟩ i hi
    rw [hl, hr]
    by_cases hlt : a + i < N
    · rw [if_pos hlt, if_pos (by omega)]
      exact .some ⟨rfl, Or.inl rfl⟩
    · rw [if_neg hlt, if_neg (by omega)]
      exact .none

/-- The cells of a channel with data in one segment only, in which all channels have ordinary types. -/
theorem one_segment_cells (al : Alloc) (ty : STy) (hty : Format.fixedTy ty = true) {segs : List Segment}
    {ix : Index} (h : replay Index.new segs = .ok ix) {path : Text} {pre : List Segment}
    (hone : dataPrefixes segs = [pre]) {b : DataBlock} (hb : blockOf pre = some b) {i : Nat}
    (hi : (active pre).idxOf? path = some i) {m : RawDataMeta} (hm : layoutOf (entries pre) path = some m)
    (hsup : m.dataType ∈ (ty.storage al).supported) {start : Nat} (hstart : start < samplesIn pre path) :
    b.channels[i]? = some m ∧ Format.bytesOf m.dataType = (ty.storage al).memSize ∧ 0 < m.numberOfValues ∧
    0 < Format.bytesOf m.dataType ∧ samplesIn pre path = m.numberOfValues * chunks pre ∧
    delivered (ty.storage al).memSize segs path start =
      (b.delivered i m (ty.storage al).memSize start).map (fun p => (b.byteOrder, p)) ∧
    sampleCells segs path = (List.range (samplesIn pre path)).map fun s => (b.byteOrder, b.samplePos i m s) := by
  have hpre : (dataPrefixes segs)[0]? = some pre := by rw [hone]; rfl
  have hact : path ∈ active pre := List.isSome_idxOf?.mp (by rw [hi]; rfl)
  obtain ⟨hm1, _⟩ := layout_at h hpre hi
  obtain ⟨s, hs, hbch, _⟩ := blockOf_fields hb
  obtain ⟨_, _, hd1, hd2⟩ := dataPrefixes_take segs 0 pre hpre
  have hw := bytesOf_fixed al ty hty _ hsup
  have hcount : samplesIn pre path = m.numberOfValues * chunks pre := by
    unfold samplesIn valuesPerChunk
    rw [if_pos hact, hm]
  refine ⟨by rw [hbch, hm1, hm], hw, ?_, ?_, hcount, ?_, ?_⟩
  · rcases Nat.eq_zero_or_pos m.numberOfValues with h0 | h0
    · rw [hcount, h0, Nat.zero_mul] at hstart; omega
    · exact h0
  · rw [hw]; exact (STy.reads_fixed al ty hty).1.pos
  · have h1 : sampleCount pre path = samplesIn pre path := by
      unfold sampleCount
      rw [hd1, hone]
      simp
    have h0 : sampleCount pre.dropLast path = 0 := by
      unfold sampleCount
      rw [hd2]
      rfl
    unfold delivered
    rw [hone, List.flatMap_cons, List.flatMap_nil, List.append_nil]
    unfold deliveredIn
    rw [if_pos ⟨by omega, by omega⟩, hb, hi, hm, h0]
    rfl
  · unfold sampleCells
    rw [hone, List.flatMap_cons, List.flatMap_nil, List.append_nil, hb, hi, hm]

/-- **C73 for one contiguous segment.** If the channels of the segment have ordinary types, a read that starts
    before the end of the channel is right if and only if the channel has as many values per chunk as the
    first channel of the segment, or the start is inside the first chunk of both. -/
theorem read_contiguous_right_iff (al : Alloc) (ty : STy) (hty : Format.fixedTy ty = true) {segs : List Segment}
    {t : TdmsFile} (h : replay Index.new segs = .ok t.index) (hf : t.bytes.length < 2 ^ 63) (c : ChannelPath)
    (hl : Listed (entries segs) c.path) (start n : Nat) {pre : List Segment} (hone : dataPrefixes segs = [pre])
    {s : Segment} (hs : pre.getLast? = some s) (hlay : s.toc.dataIsInterleaved = false)
    (hord : ∀ m ∈ activeLayouts pre, Format.ordinary m.dataType = true ∧ m.totalSizeBytes = none)
    {m m0 : RawDataMeta} (hm : layoutOf (entries pre) c.path = some m)
    (hsup : m.dataType ∈ (ty.storage al).supported) (hm0 : (activeLayouts pre).head? = some m0)
    (hserved : ServedIn (ty.storage al).supported (ty.storage al).memSize t.bytes segs c.path start n)
    (hn : 0 < n) (hstart : start < samplesIn pre c.path) :
    ReadsRight al ty t segs c start n ↔
      m.numberOfValues = m0.numberOfValues ∨ (start < m0.numberOfValues ∧ start ≤ m.numberOfValues) := by
  have hpre : (dataPrefixes segs)[0]? = some pre := by rw [hone]; rfl
  have hprem : pre ∈ dataPrefixes segs := List.mem_of_getElem? hpre
  have hact : c.path ∈ active pre := samplesIn_active (by omega)
  obtain ⟨i, hi⟩ := Option.isSome_iff_exists.mp (List.isSome_idxOf?.mpr hact)
  obtain ⟨b, hb, _⟩ := (replay_refines h).block hpre
  obtain ⟨s', hs', hbch, hblen, hblay⟩ := blockOf_fields hb
  rw [hs] at hs'
  cases hs'
  rw [hlay] at hblay
  obtain ⟨hbi, hw, hnv, hbytes, hcount, hdel, hcells⟩ := one_segment_cells al ty hty h hone hb hi hm hsup hstart
  obtain ⟨_, _, hd1, hd2⟩ := dataPrefixes_take segs 0 pre hpre
  have hsv := hserved pre hprem hact (by omega)
    (by unfold sampleCount; rw [hd1, hone]; simpa using hstart)
    (by unfold delivered; rw [hd2]; show 0 < max n 1; omega)
  obtain ⟨m0', hm0', hpos0⟩ := (hsv.contiguous ⟨s, hs, hlay⟩).1
  rw [hm0] at hm0'
  cases hm0'
  rw [read_right_iff al ty hty h hf c hl start n (by
    intro pre' hpre' _ m' hm'
    rw [hone, List.mem_singleton] at hpre'
    subst hpre'
    rw [hm] at hm'
    cases hm'
    exact hsup) hserved, hdel, hcells,
    DataBlock.delivered_contiguous (fun x hx => Format.bytesOf_ordinary (hord x (by rw [← hbch]; exact hx)).1) hbi hw
      (by rw [hblay]; rfl),
    rel_ranges_iff (fun s s' hss => DataBlock.samplePos_inj hbi hnv hbytes hss) hn hstart]
  have hhead : (b.channels.map (·.numberOfValues)).headD 0 = m0.numberOfValues := by
    rw [hbch]
    cases hx : activeLayouts pre with
    | nil => rw [hx] at hm0; cases hm0
    | cons y ys => rw [hx] at hm0; cases hm0; rfl
  rw [hhead, DataBlock.skippedFor_eq_iff hpos0]
  refine ⟨fun hx => hx.1, fun hx => ⟨hx, ?_⟩⟩
  rw [hcount, chunks_ordinary hord, hblen, hbch]

/-- **C73 for one interleaved segment.** If the channels of the segment have ordinary types, a read that starts
    before the end of the channel is right if and only if the rows of the raw data and the samples of the
    channel are equally many, as far as they fit in the buffer. -/
theorem read_interleaved_right_iff (al : Alloc) (ty : STy) (hty : Format.fixedTy ty = true) {segs : List Segment}
    {t : TdmsFile} (h : replay Index.new segs = .ok t.index) (hf : t.bytes.length < 2 ^ 63) (c : ChannelPath)
    (hl : Listed (entries segs) c.path) (start n : Nat) {pre : List Segment} (hone : dataPrefixes segs = [pre])
    {s : Segment} (hs : pre.getLast? = some s) (hlay : s.toc.dataIsInterleaved = true)
    (hord : ∀ m ∈ activeLayouts pre, Format.ordinary m.dataType = true ∧ m.totalSizeBytes = none)
    {m : RawDataMeta} (hm : layoutOf (entries pre) c.path = some m)
    (hsup : m.dataType ∈ (ty.storage al).supported)
    (hserved : ServedIn (ty.storage al).supported (ty.storage al).memSize t.bytes segs c.path start n)
    (hn : 0 < n) (hstart : start < samplesIn pre c.path) :
    ReadsRight al ty t segs c start n ↔
      min (start + n) (rawBytes pre / rowBytesOf (activeLayouts pre)) = min (start + n) (samplesIn pre c.path) := by
  have hpre : (dataPrefixes segs)[0]? = some pre := by rw [hone]; rfl
  have hact : c.path ∈ active pre := samplesIn_active (by omega)
  obtain ⟨i, hi⟩ := Option.isSome_iff_exists.mp (List.isSome_idxOf?.mpr hact)
  obtain ⟨b, hb, _⟩ := (replay_refines h).block hpre
  obtain ⟨s', hs', hbch, hblen, hblay⟩ := blockOf_fields hb
  rw [hs] at hs'
  cases hs'
  rw [hlay] at hblay
  obtain ⟨hbi, hw, hnv, hbytes, hcount, hdel, hcells⟩ := one_segment_cells al ty hty h hone hb hi hm hsup hstart
  rw [read_right_iff al ty hty h hf c hl start n (by
    intro pre' hpre' _ m' hm'
    rw [hone, List.mem_singleton] at hpre'
    subst hpre'
    rw [hm] at hm'
    cases hm'
    exact hsup) hserved, hdel, hcells,
    DataBlock.delivered_interleaved (fun x hx => Format.bytesOf_ordinary (hord x (by rw [← hbch]; exact hx)).1) hbi hw
      (by rw [hblay]; rfl),
    rel_ranges_iff (fun s s' hss => DataBlock.samplePos_inj hbi hnv hbytes hss) hn hstart, hblen, hbch]
  exact ⟨fun hx => hx.2, fun hx => ⟨rfl, hx⟩⟩

/-! ## Examples -/

/-- A sufficient condition that can be computed. -/
theorem servedIn_of {supported : List DataType} {w : Nat} {f : Bytes} {segs : List Segment} {path : Text} {start : Nat}
    (h : ∀ pre ∈ dataPrefixes segs, (∃ m ∈ layoutOf (entries pre) path, m.dataType ∈ supported) ∧
      (∃ b ∈ blockOf pre, b.start + b.length ≤ f.length) ∧
      (∃ m0 ∈ (activeLayouts pre).head?, 0 < m0.numberOfValues) ∧
      ∀ i ∈ (active pre).idxOf? path, (stepChunks (activeLayouts pre) i w).sum < 2 ^ 64 ∧
        start * (stepWidths (activeLayouts pre) i w).sum < 2 ^ 63) (n : Nat) :
    ServedIn supported w f segs path start n := by
  intro pre hpre _ _ _ _
  obtain ⟨h1, h2, h3, h4⟩ := h pre hpre
  refine ⟨h1, h2, fun _ => ⟨h3, fun i hi => (h4 i hi).1⟩, fun _ i hi => ?_⟩
  exact Nat.lt_of_le_of_lt (Nat.mul_le_mul_right _ (Nat.sub_le _ _)) (h4 i hi).2

/-- One contiguous segment with two chunks of two values of `a` and three of `b`. -/
def unevenFile : List FileSegment :=
  [dataSegment .little false [("a", .u8, 2), ("b", .u16, 3)]
    [1, 2, 10, 0, 11, 0, 12, 0, 3, 4, 13, 0, 14, 0, 15, 0]]

/-- The hypotheses hold for it. Reads of `b` are right from sample 1, and not from sample 2 (which gives sample 3). -/
theorem uneven_example : ∃ t, TdmsFile.new anyAlloc (fileOf unevenFile) = .ok t ∧
    replay Index.new (unevenFile.map FileSegment.segment) = .ok t.index ∧
    (∀ start < 6, ServedIn (STy.u16.storage anyAlloc).supported (STy.u16.storage anyAlloc).memSize t.bytes
      (unevenFile.map FileSegment.segment) (chan "b").path start 4) ∧
    ReadsRight anyAlloc .u16 t (unevenFile.map FileSegment.segment) (chan "b") 1 4 ∧
    ¬ ReadsRight anyAlloc .u16 t (unevenFile.map FileSegment.segment) (chan "b") 2 4 ∧
    t.readChannelFrom (STy.u16.storage anyAlloc) (chan "b") 1 (vals16 [0, 0, 0, 99]) = .ok (vals16 [11, 12, 13, 14]) ∧
    t.readChannelFrom (STy.u16.storage anyAlloc) (chan "b") 2 (vals16 [0, 0, 0, 99]) = .ok (vals16 [13, 14, 15, 99]) := by
  obtain ⟨ix, hix⟩ := exists_ok (x := replay Index.new (unevenFile.map FileSegment.segment)) (by decide +kernel)
  have hopen : buildIndex anyAlloc (fileOf unevenFile) = replay Index.new (unevenFile.map FileSegment.segment) := by
    decide +kernel
  have hnew : TdmsFile.new anyAlloc (fileOf unevenFile) = .ok ⟨ix, fileOf unevenFile⟩ := by
    unfold TdmsFile.new; rw [hopen, hix]; rfl
  have hserved : ∀ start < 6, ServedIn (STy.u16.storage anyAlloc).supported (STy.u16.storage anyAlloc).memSize
      (fileOf unevenFile) (unevenFile.map FileSegment.segment) (chan "b").path start 4 := by
    have h : ∀ start < 6, ∀ pre ∈ dataPrefixes (unevenFile.map FileSegment.segment),
        (∃ m ∈ layoutOf (entries pre) (chan "b").path, m.dataType ∈ (STy.u16.storage anyAlloc).supported) ∧
        (∃ b ∈ blockOf pre, b.start + b.length ≤ (fileOf unevenFile).length) ∧
        (∃ m0 ∈ (activeLayouts pre).head?, 0 < m0.numberOfValues) ∧
        ∀ i ∈ (active pre).idxOf? (chan "b").path,
          (stepChunks (activeLayouts pre) i (STy.u16.storage anyAlloc).memSize).sum < 2 ^ 64 ∧
          start * (stepWidths (activeLayouts pre) i (STy.u16.storage anyAlloc).memSize).sum < 2 ^ 63 := by
      decide +kernel
    exact fun start hs => servedIn_of (h start hs) 4
  have hfacts : ∃ s, (unevenFile.map FileSegment.segment).getLast? = some s ∧ s.toc.dataIsInterleaved = false ∧
      dataPrefixes (unevenFile.map FileSegment.segment) = [unevenFile.map FileSegment.segment] :=
    ⟨_, rfl, by decide +kernel, by decide +kernel⟩
  obtain ⟨s, hs, hlay, hone⟩ := hfacts
  have hiff : ∀ start < 6, _ := fun start hstart =>
    read_contiguous_right_iff anyAlloc .u16 rfl (t := ⟨ix, fileOf unevenFile⟩) hix
      (by show (fileOf unevenFile).length < _; decide +kernel) (chan "b") (by unfold Listed; decide +kernel) start 4 hone hs
      hlay (by decide +kernel) (m := ⟨.u16, 3, none⟩) (m0 := ⟨.u8, 2, none⟩) (by decide +kernel) (by decide +kernel)
      (by decide +kernel) (hserved start hstart) (by omega)
      (by
        have : samplesIn (unevenFile.map FileSegment.segment) (chan "b").path = 6 := by decide +kernel
        omega)
  have hread1 : readFrom .u16 (fileOf unevenFile) "b" 1 (vals16 [0, 0, 0, 99]) = .ok (vals16 [11, 12, 13, 14]) := by
    decide +kernel
  have hread2 : readFrom .u16 (fileOf unevenFile) "b" 2 (vals16 [0, 0, 0, 99]) = .ok (vals16 [13, 14, 15, 99]) := by
    decide +kernel
  unfold readFrom at hread1 hread2
  rw [hnew] at hread1 hread2
  refine ⟨_, hnew, hix, hserved, (hiff 1 (by omega)).mpr (Or.inr ⟨by decide, by decide⟩), fun hr => ?_, hread1, hread2⟩
  rcases (hiff 2 (by omega)).mp hr with hx | hx
  · exact absurd hx (by decide)
  · exact absurd hx.1 (by decide)

/-- Timestamps, for which C36 makes no claim: one chunk of two values. -/
def twoStampFile : List FileSegment :=
  [dataSegment .big false [("t", .timestamp, 2)] (List.replicate 15 0 ++ [7] ++ List.replicate 15 0 ++ [8])]

/-- The hypotheses hold for it. The cells are those of the two values, and a read from the second one delivers it. -/
theorem stamps_example : ∃ t, TdmsFile.new anyAlloc (fileOf twoStampFile) = .ok t ∧
    replay Index.new (twoStampFile.map FileSegment.segment) = .ok t.index ∧
    ServedIn (STy.timestamp.storage anyAlloc).supported 16 t.bytes (twoStampFile.map FileSegment.segment)
      (chan "t").path 1 2 ∧
    (delivered 16 (twoStampFile.map FileSegment.segment) (chan "t").path 1).length = 1 ∧
    t.readChannelFrom (STy.timestamp.storage anyAlloc) (chan "t") 1 (stamps [1, 99]) = .ok (stamps [8, 99]) := by
  obtain ⟨ix, hix⟩ := exists_ok (x := replay Index.new (twoStampFile.map FileSegment.segment)) (by decide +kernel)
  have hopen : buildIndex anyAlloc (fileOf twoStampFile) = replay Index.new (twoStampFile.map FileSegment.segment) := by
    decide +kernel
  have hnew : TdmsFile.new anyAlloc (fileOf twoStampFile) = .ok ⟨ix, fileOf twoStampFile⟩ := by
    unfold TdmsFile.new; rw [hopen, hix]; rfl
  have hread : readFrom .timestamp (fileOf twoStampFile) "t" 1 (stamps [1, 99]) = .ok (stamps [8, 99]) := by
    decide +kernel
  unfold readFrom at hread
  rw [hnew] at hread
  refine ⟨_, hnew, hix, servedIn_of (n := 2) ?_, by decide +kernel, hread⟩
  show ∀ pre ∈ dataPrefixes (twoStampFile.map FileSegment.segment),
        (∃ m ∈ layoutOf (entries pre) (chan "t").path, m.dataType ∈ (STy.timestamp.storage anyAlloc).supported) ∧
        (∃ b ∈ blockOf pre, b.start + b.length ≤ (fileOf twoStampFile).length) ∧
        (∃ m0 ∈ (activeLayouts pre).head?, 0 < m0.numberOfValues) ∧
        ∀ i ∈ (active pre).idxOf? (chan "t").path,
          (stepChunks (activeLayouts pre) i 16).sum < 2 ^ 64 ∧ 1 * (stepWidths (activeLayouts pre) i 16).sum < 2 ^ 63
  decide +kernel

/-- Interleaved data that ends inside a chunk: right as long as the buffer ends before, and not beyond. -/
def halfChunkFile : List FileSegment := [dataSegment .little true [("b", .u16, 2)] [1, 0, 2, 0, 3, 0]]

theorem half_chunk_example : ∃ t, TdmsFile.new anyAlloc (fileOf halfChunkFile) = .ok t ∧
    ReadsRight anyAlloc .u16 t (halfChunkFile.map FileSegment.segment) (chan "b") 0 2 ∧
    ¬ ReadsRight anyAlloc .u16 t (halfChunkFile.map FileSegment.segment) (chan "b") 0 3 := by
  obtain ⟨ix, hix⟩ := exists_ok (x := replay Index.new (halfChunkFile.map FileSegment.segment)) (by decide +kernel)
  have hopen : buildIndex anyAlloc (fileOf halfChunkFile) = replay Index.new (halfChunkFile.map FileSegment.segment) := by
    decide +kernel
  have hnew : TdmsFile.new anyAlloc (fileOf halfChunkFile) = .ok ⟨ix, fileOf halfChunkFile⟩ := by
    unfold TdmsFile.new; rw [hopen, hix]; rfl
  have hserved : ∀ n, ServedIn (STy.u16.storage anyAlloc).supported (STy.u16.storage anyAlloc).memSize
      (fileOf halfChunkFile) (halfChunkFile.map FileSegment.segment) (chan "b").path 0 n := by
    have h : ∀ pre ∈ dataPrefixes (halfChunkFile.map FileSegment.segment),
        (∃ m ∈ layoutOf (entries pre) (chan "b").path, m.dataType ∈ (STy.u16.storage anyAlloc).supported) ∧
        (∃ b ∈ blockOf pre, b.start + b.length ≤ (fileOf halfChunkFile).length) ∧
        (∃ m0 ∈ (activeLayouts pre).head?, 0 < m0.numberOfValues) ∧
        ∀ i ∈ (active pre).idxOf? (chan "b").path,
          (stepChunks (activeLayouts pre) i (STy.u16.storage anyAlloc).memSize).sum < 2 ^ 64 ∧
          0 * (stepWidths (activeLayouts pre) i (STy.u16.storage anyAlloc).memSize).sum < 2 ^ 63 := by
      decide +kernel
    exact fun n => servedIn_of h n
  have hfacts : ∃ s, (halfChunkFile.map FileSegment.segment).getLast? = some s ∧ s.toc.dataIsInterleaved = true ∧
      dataPrefixes (halfChunkFile.map FileSegment.segment) = [halfChunkFile.map FileSegment.segment] :=
    ⟨_, rfl, by decide +kernel, by decide +kernel⟩
  obtain ⟨s, hs, hlay, hone⟩ := hfacts
  have hcount : samplesIn (halfChunkFile.map FileSegment.segment) (chan "b").path = 2 := by decide +kernel
  have hrows : rawBytes (halfChunkFile.map FileSegment.segment) /
      rowBytesOf (activeLayouts (halfChunkFile.map FileSegment.segment)) = 3 := by decide +kernel
  have hiff : ∀ n, 0 < n → _ := fun n hn =>
    read_interleaved_right_iff anyAlloc .u16 rfl (t := ⟨ix, fileOf halfChunkFile⟩) hix
      (by show (fileOf halfChunkFile).length < _; decide +kernel) (chan "b") (by unfold Listed; decide +kernel) 0 n hone hs
      hlay (by decide +kernel) (m := ⟨.u16, 2, none⟩) (by decide +kernel) (by decide +kernel) (hserved n) hn
      (by omega)
  refine ⟨_, hnew, (hiff 2 (by omega)).mpr (by rw [hcount, hrows]; decide), fun hr => ?_⟩
  have := (hiff 3 (by omega)).mp hr
  rw [hcount, hrows] at this
  exact absurd this (by decide)

end Tedium
