import Verif.Spec.Jointly
import Verif.Proofs.JointlyCells

/-!
# C75, C76: what a read of several channels stores, for every layout

`read_channels_from` can go wrong in more ways than a read of one channel. Here is what it stores in every case
(as long as it can be served at all), from this the exact condition under which it is right, and what it never does:
store the value of another channel.
-/

namespace Tedium
open PlanSpec SegSpec

/-- **C75.** For every storage type of fixed size, every file, list of channels, start and list of buffers: if the
    blocks the read gets to can be served, the read succeeds and the buffers get exactly the values of the
    file at the cells `storedFrom`, and keep their other cells. -/
theorem joint_read_exact (al : Alloc) (ty : STy) (hty : Format.fixedTy ty = true) {segs : List Segment}
    {t : TdmsFile} (h : replay Index.new segs = .ok t.index) (hf : t.bytes.length < 2 ^ 63) (cs : List ChannelPath)
    (hl : ∀ c ∈ cs, Listed (entries segs) c.path) (start : Nat) (outs : List (List ty.Val))
    (hlen : outs.length = cs.length)
    (hserved : JointlyServed (ty.storage al).supported (ty.storage al).memSize t.bytes segs
      ((cs.map ChannelPath.path).zip (outs.map List.length)) start) :
    t.readChannelsFrom (ty.storage al) cs start outs = .ok (List.zipWith
      (storeAll (Cell.value (Format.decode ty) (ty.storage al).memSize t.bytes)) outs
      (storedFrom (ty.storage al).memSize segs ((cs.map ChannelPath.path).zip (outs.map List.length)) start)) :=
  readChannelsFrom_stored (STy.reads_fixed al ty hty).1 (STy.reads_fixed al ty hty).2.2 h hf cs hl start outs hlen hserved

/-! ## When that is right -/

/-- A read of several channels from sample `start` into buffers of `ns` cells is right, whatever the samples are: for
    every file with the same metadata and all buffers of these sizes, every buffer gets the samples `start`,
    `start + 1`, ... of its channel and keeps its other cells. -/
def JointlyRight (al : Alloc) (ty : STy) (t : TdmsFile) (segs : List Segment) (cs : List ChannelPath) (start : Nat)
    (ns : List Nat) : Prop :=
  ∀ f, SameMetaData segs t.bytes f → ∀ outs : List (List ty.Val), outs.map List.length = ns →
    ({ t with bytes := f } : TdmsFile).readChannelsFrom (ty.storage al) cs start outs =
      .ok (List.zipWith (fun c out => overlay out ((channelSamples (Format.decode ty) f segs c.path).drop start)) cs outs)

theorem jointlyServed_congr {supported : List DataType} {w : Nat} {f g : Bytes} {segs : List Segment}
    {bufs : List Buffer} {start : Nat} (h : JointlyServed supported w f segs bufs start) (hfg : f.length = g.length) :
    JointlyServed supported w g segs bufs start := by
  intro x hx
  have := h x hx
  exact { this with inside := by rw [← hfg]; exact this.inside }

/-- What a joint read stores are the values of given cells, for all contents of the raw data, if and only if these are
    the cells of `storedFrom`. -/
theorem joint_cells_iff (al : Alloc) (ty : STy) (hty : Format.fixedTy ty = true) {segs : List Segment}
    {t : TdmsFile} (h : replay Index.new segs = .ok t.index) (hf : t.bytes.length < 2 ^ 63) (cs : List ChannelPath)
    (hl : ∀ c ∈ cs, Listed (entries segs) c.path) (start : Nat) (ns : List Nat) (hlen : ns.length = cs.length)
    (hserved : JointlyServed (ty.storage al).supported (ty.storage al).memSize t.bytes segs
      ((cs.map ChannelPath.path).zip ns) start) (cells : ChannelPath → List Cell) :
    (∀ f, SameMetaData segs t.bytes f → ∀ outs : List (List ty.Val), outs.map List.length = ns →
      ({ t with bytes := f } : TdmsFile).readChannelsFrom (ty.storage al) cs start outs =
        .ok (List.zipWith (fun c out => overlay out
          ((cells c).map (Cell.value (Format.decode ty) (ty.storage al).memSize f))) cs outs)) ↔
      ∀ (s : Nat) (c : ChannelPath) (n : Nat) (as : List (Nat × Cell)), cs[s]? = some c → ns[s]? = some n →
        (storedFrom (ty.storage al).memSize segs ((cs.map ChannelPath.path).zip ns) start)[s]? = some as →
        ∀ k < n, Option.Rel (Cell.Same (ty.storage al).memSize) (lastAt as k) (cells c)[k]? := by
  have hread : ∀ f, SameMetaData segs t.bytes f → ∀ outs : List (List ty.Val), outs.map List.length = ns →
      ({ t with bytes := f } : TdmsFile).readChannelsFrom (ty.storage al) cs start outs = .ok (List.zipWith
        (storeAll (Cell.value (Format.decode ty) (ty.storage al).memSize f)) outs
        (storedFrom (ty.storage al).memSize segs ((cs.map ChannelPath.path).zip ns) start)) := by
    intro f hsame outs hout
    have := joint_read_exact al ty hty (t := { t with bytes := f }) h (by rw [← hsame.1]; exact hf) cs hl start outs
      (by rw [← hlen, ← hout, List.length_map]) (by rw [hout]; exact jointlyServed_congr hserved hsame.1)
    rw [hout] at this
    exact this
  have hstlen : (storedFrom (ty.storage al).memSize segs ((cs.map ChannelPath.path).zip ns) start).length = cs.length := by
    unfold storedFrom
    rw [stored_length, List.length_zip, List.length_map]
    omega
  constructor
  · intro hright s c n as hs hn has k hk
    have hcell : ∀ f, SameMetaData segs t.bytes f → ∀ v : ty.Val,
        (((lastAt as k).map (Cell.value (Format.decode ty) (ty.storage al).memSize f)).or (some v)) =
        (((cells c)[k]?.map
          (Cell.value (Format.decode ty) (ty.storage al).memSize f)).or (some v)) := by
      intro f hsame v
      have hns : (ns.map fun n => List.replicate n v).map List.length = ns := by
        rw [List.map_map]
        conv => rhs; rw [← List.map_id ns]
        apply List.map_congr_left
        intro x _
        exact List.length_replicate
      have h1 := hread f hsame _ hns
      rw [hright f hsame _ hns] at h1
      have h2 := congrArg (fun l : List (List ty.Val) => l[s]?) (Except.ok.inj h1)
      simp only [List.getElem?_zipWith, List.getElem?_map, hs, hn, has, Option.map_some, Option.some.injEq] at h2
      have h3 := congrArg (fun l : List ty.Val => l[k]?) h2
      rw [overlay_getElem? _ _ _ (by rw [List.length_replicate]; exact hk), List.getElem?_map,
        storeAll_getElem? _ _ _ _ (by rw [List.length_replicate]; exact hk), List.getElem?_replicate, if_pos hk] at h3
      exact h3.symm
    have hself : SameMetaData segs t.bytes t.bytes := ⟨rfl, fun _ _ => rfl⟩
    cases hd : lastAt as k with
    | none =>
      cases he : (cells c)[k]? with
      | none => exact .none
      | some q =>
        exfalso
        obtain ⟨v, hv⟩ := exists_other ty hty (Cell.value (Format.decode ty) (ty.storage al).memSize t.bytes q)
        have := hcell t.bytes hself v
        rw [hd, he] at this
        exact hv (Option.some.inj this)
    | some p =>
      cases he : (cells c)[k]? with
      | none =>
        exfalso
        obtain ⟨v, hv⟩ := exists_other ty hty (Cell.value (Format.decode ty) (ty.storage al).memSize t.bytes p)
        have := hcell t.bytes hself v
        rw [hd, he] at this
        exact hv (Option.some.inj this).symm
      | some q =>
        refine .some (Classical.byContradiction fun hns => ?_)
        obtain ⟨x, pre, b, ts, u, r, ho⟩ := stored_origin _ _ _ _ _ has (lastAt_mem hd)
        have hsv := hserved _ ho.read
        have hcont : (ts.map (·.chan)).contains u.chan = true :=
          List.contains_iff_mem.mpr (List.mem_map_of_mem ho.taker)
        obtain ⟨hs1, hs2⟩ := DataBlock.offered_inside hcont ho.offered
        have hs3 := hsv.inside
        have hp : p.2 = r := by have := congrArg Prod.snd ho.cell; exact this
        obtain ⟨bs, hbs, hne⟩ := Cell.differ hty al hns (f := t.bytes) (by dsimp only at hs3; omega)
        have hsame : SameMetaData segs t.bytes (splice t.bytes p.2 bs) := by
          refine ⟨(splice_length (by dsimp only at hs3; omega)).symm, fun y hy => ?_⟩
          rw [splice_getElem? (by dsimp only at hs3; omega), if_neg]
          intro hy'
          exact hy pre ho.pre_mem b ho.block (by omega)
        have := hcell _ hsame (Cell.value (Format.decode ty) (ty.storage al).memSize t.bytes p)
        rw [hd, he] at this
        exact hne (Option.some.inj this)
  · intro hrel f hsame outs hout
    rw [hread f hsame outs hout]
    congr 1
    have holen : outs.length = cs.length := by rw [← hlen, ← hout, List.length_map]
    apply List.ext_getElem?
    intro s
    simp only [List.getElem?_zipWith]
    by_cases hs : s < cs.length
    · have ho : outs[s]? = some outs[s] := List.getElem?_eq_getElem _
      have hc : cs[s]? = some cs[s] := List.getElem?_eq_getElem _
      obtain ⟨as, has⟩ : ∃ as, (storedFrom (ty.storage al).memSize segs ((cs.map ChannelPath.path).zip ns) start)[s]? =
          some as := ⟨_, List.getElem?_eq_getElem (by omega)⟩
      generalize outs[s] = o at ho
      generalize cs[s] = c at hc
      rw [ho, hc, has]
      dsimp only
      congr 1
      have hn : ns[s]? = some o.length := by rw [← hout, List.getElem?_map, ho]; rfl
      apply List.ext_getElem?
      intro k
      by_cases hk : k < o.length
      · rw [overlay_getElem? _ _ _ hk, storeAll_getElem? _ _ _ _ hk, List.getElem?_map]
        congr 1
        have := hrel s c o.length as hc hn has k hk
        cases hd : lastAt as k with
        | none =>
          rw [hd] at this
          cases he : (cells c)[k]? with
          | none => rfl
          | some q => rw [he] at this; cases this
        | some p =>
          rw [hd] at this
          cases he : (cells c)[k]? with
          | none => rw [he] at this; cases this
          | some q =>
            rw [he] at this
            cases this with
            | some hs => exact congrArg some (hs.value hty al f)
      · rw [List.getElem?_eq_none (by rw [length_storeAll]; omega), List.getElem?_eq_none (by rw [length_overlay]; omega)]
    · rw [List.getElem?_eq_none (by omega : outs.length ≤ s), List.getElem?_eq_none (by omega : cs.length ≤ s)]

/-- **C75, exactly when a joint read is right.** Where a read of several channels can be served, it is right
    for all contents of the raw data if and only if every cell of every buffer gets the cell of the file of
    the sample that belongs there, with the same byte order unless a value is one byte, or nothing if there is no
    such sample. -/
theorem joint_right_iff (al : Alloc) (ty : STy) (hty : Format.fixedTy ty = true) {segs : List Segment}
    {t : TdmsFile} (h : replay Index.new segs = .ok t.index) (hf : t.bytes.length < 2 ^ 63) (cs : List ChannelPath)
    (hl : ∀ c ∈ cs, Listed (entries segs) c.path) (start : Nat) (ns : List Nat) (hlen : ns.length = cs.length)
    (htypes : ∀ c ∈ cs, ∀ pre ∈ dataPrefixes segs, c.path ∈ active pre → ∀ m, layoutOf (entries pre) c.path = some m →
      m.dataType ∈ (ty.storage al).supported)
    (hserved : JointlyServed (ty.storage al).supported (ty.storage al).memSize t.bytes segs
      ((cs.map ChannelPath.path).zip ns) start) :
    JointlyRight al ty t segs cs start ns ↔
      ∀ (s : Nat) (c : ChannelPath) (n : Nat) (as : List (Nat × Cell)), cs[s]? = some c → ns[s]? = some n →
        (storedFrom (ty.storage al).memSize segs ((cs.map ChannelPath.path).zip ns) start)[s]? = some as →
        ∀ k < n, Option.Rel (Cell.Same (ty.storage al).memSize) (lastAt as k) (sampleCells segs c.path)[start + k]? := by
  have hiff := joint_cells_iff al ty hty h hf cs hl start ns hlen hserved (fun c => (sampleCells segs c.path).drop start)
  simp only [List.getElem?_drop] at hiff
  rw [← hiff]
  have hzip : ∀ (f : Bytes) (outs : List (List ty.Val)),
      List.zipWith (fun c out => overlay out ((channelSamples (Format.decode ty) f segs c.path).drop start)) cs outs =
      List.zipWith (fun c out => overlay out (((sampleCells segs c.path).drop start).map
        (Cell.value (Format.decode ty) (ty.storage al).memSize f))) cs outs := by
    intro f outs
    apply List.ext_getElem?
    intro s
    simp only [List.getElem?_zipWith]
    cases hc : cs[s]? with
    | none => rfl
    | some c =>
      cases outs[s]? with
      | none => rfl
      | some out =>
        dsimp only
        rw [channelSamples_cells al ty hty (htypes c (List.mem_of_getElem? hc)) f, List.map_drop]
  unfold JointlyRight
  simp only [hzip]

/-! ## C76 -/

theorem jointWidths_plain {chs : List RawDataMeta} {is : List Nat} {w : Nat}
    (h : ∀ m ∈ chs, Format.bytesOf m.dataType = m.dataType.size)
    (hw : ∀ i ∈ is, ∀ m, chs[i]? = some m → Format.bytesOf m.dataType = w) :
    jointWidths chs is w = chs.map (fun m => Format.bytesOf m.dataType) := by
  unfold jointWidths
  apply List.ext_getElem?
  intro j
  rw [List.getElem?_mapIdx, List.getElem?_map]
  cases hj : chs[j]? with
  | none => rfl
  | some x =>
    simp only [Option.map_some]
    split
    · rename_i hc
      rw [hw j (List.contains_iff_mem.mp hc) x hj]
    · rw [h x (List.mem_of_getElem? hj)]

theorem jointChunks_plain {chs : List RawDataMeta} {is : List Nat} {w : Nat}
    (h : ∀ m ∈ chs, Format.bytesOf m.dataType = m.dataType.size)
    (hw : ∀ i ∈ is, ∀ m, chs[i]? = some m → Format.bytesOf m.dataType = w) :
    jointChunks chs is w = chs.map (fun m => m.numberOfValues * Format.bytesOf m.dataType) := by
  unfold jointChunks
  apply List.ext_getElem?
  intro j
  rw [List.getElem?_mapIdx, List.getElem?_map]
  cases hj : chs[j]? with
  | none => rfl
  | some x =>
    simp only [Option.map_some]
    split
    · rename_i hc
      rw [hw j (List.contains_iff_mem.mp hc) x hj]
    · rw [h x (List.mem_of_getElem? hj)]

/-- Cells that are offered are samples of the channel. -/
theorem DataBlock.offered_own {b : DataBlock} {i w p : Nat} {ts : List Taker} {m : RawDataMeta}
    (h : ∀ m ∈ b.channels, Format.bytesOf m.dataType = m.dataType.size)
    (hw : ∀ i ∈ ts.map (·.chan), ∀ m, b.channels[i]? = some m → Format.bytesOf m.dataType = w)
    (hi : b.channels[i]? = some m) (hc : i ∈ ts.map (·.chan)) (hp : p ∈ b.offered w ts i) :
    ∃ r, p = b.samplePos i m r ∧
      (b.layout = .contigious → r < m.numberOfValues * (b.length / chunkBytesOf b.channels)) ∧
      (b.layout = .interleaved → r < b.length / rowBytesOf b.channels) := by
  have hwi := hw i hc m hi
  unfold DataBlock.offered at hp
  rw [hi] at hp
  dsimp only at hp
  unfold DataBlock.samplePos
  cases hlay : b.layout with
  | interleaved =>
    rw [hlay] at hp
    dsimp only at hp
    obtain ⟨r, hr, rfl⟩ := List.mem_map.mp hp
    have hdrop : skipFor ts i ≤ r ∧ r < b.firstRow ts + b.rowsRead w ts := by
      obtain ⟨k, hk⟩ := List.mem_iff_getElem?.mp hr
      rw [List.getElem?_drop] at hk
      have h1 := (List.getElem?_eq_some_iff.mp hk).1
      rw [List.length_range] at h1
      rw [List.getElem?_range h1] at hk
      cases hk
      omega
    have hle := firstRow_le b ts i (List.getElem?_eq_some_iff.mp hi).1 (List.contains_iff_mem.mpr hc)
    have hrows := rowsRead_le b w ts
    rw [jointWidths_plain h hw] at hrows ⊢
    refine ⟨r, ?_, (fun hx => nomatch hx), fun _ => ?_⟩
    · dsimp only
      rw [← List.map_take]
      rfl
    · show r < b.length / (b.channels.map fun m => Format.bytesOf m.dataType).sum
      omega
  | contigious =>
    rw [hlay] at hp
    dsimp only at hp
    obtain ⟨c, hcr, hp⟩ := List.mem_flatMap.mp hp
    have hcr := List.mem_range.mp hcr
    split at hp
    · obtain ⟨s, hs, rfl⟩ := List.mem_map.mp hp
      have hs := List.mem_range.mp (List.mem_of_mem_drop hs)
      rw [jointChunks_plain h hw] at hcr ⊢
      have hn : 0 < m.numberOfValues := by omega
      refine ⟨m.numberOfValues * c + s, ?_, fun _ => ?_, (fun hx => nomatch hx)⟩
      · dsimp only
        rw [Nat.mul_add_div hn, Nat.div_eq_of_lt hs, Nat.mul_add_mod, Nat.mod_eq_of_lt hs, ← List.map_take, hwi]
        rfl
      · show _ < m.numberOfValues * (b.length / (b.channels.map fun m => m.numberOfValues * Format.bytesOf m.dataType).sum)
        have := Nat.mul_le_mul_left m.numberOfValues hcr
        rw [Nat.mul_succ] at this
        omega
    · cases hp

/-- **C76.** A read of several channels never stores a value of another channel: if the channels have ordinary types
    and the rows of interleaved segments belong to samples, then every cell of a buffer holds after the read
    what it held before, or a sample of the channel of the buffer. -/
theorem joint_read_own_samples_partial (al : Alloc) (ty : STy) (hty : Format.fixedTy ty = true) {segs : List Segment}
    {t : TdmsFile} (h : replay Index.new segs = .ok t.index) (hf : t.bytes.length < 2 ^ 63) (cs : List ChannelPath)
    (hl : ∀ c ∈ cs, Listed (entries segs) c.path) (start : Nat) (outs : List (List ty.Val))
    (hlen : outs.length = cs.length)
    (htypes : ∀ c ∈ cs, ∀ pre ∈ dataPrefixes segs, c.path ∈ active pre → ∀ m, layoutOf (entries pre) c.path = some m →
      m.dataType ∈ (ty.storage al).supported)
    (hord : ∀ pre ∈ dataPrefixes segs, ∀ m ∈ activeLayouts pre,
      Format.ordinary m.dataType = true ∧ m.totalSizeBytes = none)
    (hrows : ∀ c ∈ cs, ∀ pre ∈ dataPrefixes segs, c.path ∈ active pre →
      (∃ s, pre.getLast? = some s ∧ s.toc.dataIsInterleaved = true) →
      rawBytes pre / rowBytesOf (activeLayouts pre) ≤ samplesIn pre c.path)
    (hserved : JointlyServed (ty.storage al).supported (ty.storage al).memSize t.bytes segs
      ((cs.map ChannelPath.path).zip (outs.map List.length)) start) :
    ∃ res, t.readChannelsFrom (ty.storage al) cs start outs = .ok res ∧ res.length = outs.length ∧
      ∀ (s : Nat) (c : ChannelPath) (out out' : List ty.Val), cs[s]? = some c → outs[s]? = some out →
        res[s]? = some out' → out'.length = out.length ∧
        ∀ (k : Nat) (v : ty.Val), out'[k]? = some v →
          out[k]? = some v ∨ v ∈ channelSamples (Format.decode ty) t.bytes segs c.path := by
  refine ⟨_, joint_read_exact al ty hty h hf cs hl start outs hlen hserved, ?_, ?_⟩
  · unfold storedFrom
    rw [List.length_zipWith, stored_length, List.length_zip, List.length_map, List.length_map]
    omega
  · intro s c out out' hs hout hres
    rw [List.getElem?_zipWith, hout] at hres
    cases has : (storedFrom (ty.storage al).memSize segs ((cs.map ChannelPath.path).zip (outs.map List.length)) start)[s]? with
    | none => rw [has] at hres; cases hres
    | some as =>
      rw [has] at hres
      dsimp only at hres
      cases hres
      refine ⟨length_storeAll _ _ _, ?_⟩
      intro k v hk
      have hkl : k < out.length := by
        have := (List.getElem?_eq_some_iff.mp hk).1
        rw [length_storeAll] at this
        exact this
      rw [storeAll_getElem? _ _ _ _ hkl] at hk
      cases hd : lastAt as k with
      | none => rw [hd] at hk; exact Or.inl hk
      | some p =>
        rw [hd] at hk
        cases hk
        right
        obtain ⟨x, pre, b, ts, u, q, ho⟩ := stored_origin _ _ _ _ _ has (lastAt_mem hd)
        have hx : x.1 = c.path := by
          have := ho.buffer
          rw [List.getElem?_zip_eq_some] at this
          have := this.1
          rw [List.getElem?_map, hs] at this
          exact (Option.some.inj this).symm
        obtain ⟨B, hB⟩ := List.mem_iff_getElem?.mp ho.pre_mem
        have hw := ho.wanted
        rw [hx] at hw
        have hpos : 0 < samplesIn pre c.path := (of_decide_eq_true hw).1
        have hact := samplesIn_active hpos
        obtain ⟨i, hi⟩ := Option.isSome_iff_exists.mp (List.isSome_idxOf?.mpr hact)
        have hchan : u.chan = i := by rw [ho.chan, hx, hi]; rfl
        obtain ⟨hm1, m, hm⟩ := layout_at h hB hi
        obtain ⟨sg, hsg, hbch, hblen, hblay⟩ := blockOf_fields ho.block
        have hbi : b.channels[i]? = some m := by rw [hbch, hm1, hm]
        have hsv := hserved _ ho.read
        obtain ⟨r, hr, hr1, hr2⟩ := DataBlock.offered_own (b := b) (ts := ts) (i := i) (p := q) (m := m)
          (fun m hm => Format.bytesOf_ordinary (hord pre ho.pre_mem m (by rw [← hbch]; exact hm)).1)
          (by
            intro j hj m' hm'
            obtain ⟨u', hu', rfl⟩ := List.mem_map.mp hj
            obtain ⟨m'', hm'', hsup⟩ := hsv.typed u' hu'
            dsimp only at hm''
            rw [hm'] at hm''
            cases hm''
            exact bytesOf_fixed al ty hty _ hsup)
          hbi (by rw [← hchan]; exact List.mem_map_of_mem ho.taker) (by rw [← hchan]; exact ho.offered)
        have hcount : samplesIn pre c.path = m.numberOfValues * chunks pre := by
          unfold samplesIn valuesPerChunk
          rw [if_pos hact, hm]
        have hrlt : r < samplesIn pre c.path := by
          cases hil : sg.toc.dataIsInterleaved with
          | false =>
            rw [hil] at hblay
            have := hr1 (by rw [hblay]; rfl)
            rw [hcount, chunks_ordinary (hord pre ho.pre_mem), ← hbch, ← hblen]
            exact this
          | true =>
            rw [hil] at hblay
            have h1 := hr2 (by rw [hblay]; rfl)
            have h2 := hrows c (List.mem_of_getElem? hs) pre ho.pre_mem hact ⟨sg, hsg, hil⟩
            rw [hblen, hbch] at h1
            omega
        rw [channelSamples_cells al ty hty (htypes c (List.mem_of_getElem? hs)) t.bytes]
        refine List.mem_map_of_mem ?_
        unfold sampleCells
        refine List.mem_flatMap.mpr ⟨pre, ho.pre_mem, ?_⟩
        rw [ho.block, hi, hm]
        dsimp only
        refine List.mem_map.mpr ⟨r, List.mem_range.mpr hrlt, ?_⟩
        have := ho.cell
        dsimp only at this
        rw [this, hr]

/-! ## Examples -/

/-- A sufficient condition for being right that can be computed. -/
theorem joint_right_of (al : Alloc) (ty : STy) (hty : Format.fixedTy ty = true) {segs : List Segment}
    {t : TdmsFile} (h : replay Index.new segs = .ok t.index) (hf : t.bytes.length < 2 ^ 63) (cs : List ChannelPath)
    (hl : ∀ c ∈ cs, Listed (entries segs) c.path) (start : Nat) (ns : List Nat) (hlen : ns.length = cs.length)
    (htypes : ∀ c ∈ cs, ∀ pre ∈ dataPrefixes segs, c.path ∈ active pre → ∀ m, layoutOf (entries pre) c.path = some m →
      m.dataType ∈ (ty.storage al).supported)
    (hserved : JointlyServed (ty.storage al).supported (ty.storage al).memSize t.bytes segs
      ((cs.map ChannelPath.path).zip ns) start)
    (hsame : ∀ s < cs.length, ∀ k < ns.getD s 0,
      lastAt ((storedFrom (ty.storage al).memSize segs ((cs.map ChannelPath.path).zip ns) start).getD s []) k =
        (sampleCells segs ((cs.map ChannelPath.path).getD s []))[start + k]?) :
    JointlyRight al ty t segs cs start ns := by
  refine (joint_right_iff al ty hty h hf cs hl start ns hlen htypes hserved).mpr ?_
  intro s c n as hs hn has k hk
  have := hsame s (List.getElem?_eq_some_iff.mp hs).1 k (by rw [List.getD_eq_getElem?_getD, hn]; exact hk)
  rw [List.getD_eq_getElem?_getD, has, List.getD_eq_getElem?_getD, List.getElem?_map, hs] at this
  replace this : lastAt as k = (sampleCells segs c.path)[start + k]? := this
  rw [this]
  cases (sampleCells segs c.path)[start + k]? with
  | none => exact .none
  | some q => exact .some ⟨rfl, Or.inl rfl⟩

/-- Two samples of `a`; then four of `b` and four of `a`. -/
def orderFile : List FileSegment :=
  [dataSegment .little false [("a", .u8, 2)] [1, 2],
   dataSegment .little false [("b", .u8, 4), ("a", .u8, 4)] [11, 12, 13, 14, 3, 4, 5, 6]]

/-- Four samples of `a`; then six chunks of one sample of `a` and one of `b`. -/
def chunkFile : List FileSegment :=
  [dataSegment .little false [("a", .u8, 4)] [1, 2, 3, 4],
   dataSegment .little false [("a", .u8, 1), ("b", .u8, 1)] [5, 11, 6, 12, 7, 13, 8, 14, 9, 15, 10, 16]]

/-- The same, but the six chunks are six rows of interleaved data. -/
def rowFile : List FileSegment :=
  [dataSegment .little false [("a", .u8, 4)] [1, 2, 3, 4],
   dataSegment .little true [("a", .u8, 6), ("b", .u8, 6)] [5, 11, 6, 12, 7, 13, 8, 14, 9, 15, 10, 16]]

/-- The computable part of `JointlyServed`. -/
def servesTakersB (supported : List DataType) (w n : Nat) (x : DataBlock × List Taker) : Bool :=
  x.2.all (fun t => match x.1.channels[t.chan]? with
    | some m => supported.contains m.dataType
    | none => false) &&
  decide (x.1.start + x.1.length ≤ n) && decide (0 < x.1.firstCount) &&
  decide (0 < (jointChunks x.1.channels (x.2.map (·.chan)) w).sum) &&
  decide ((jointChunks x.1.channels (x.2.map (·.chan)) w).sum < 2 ^ 64) &&
  decide (0 < (jointWidths x.1.channels (x.2.map (·.chan)) w).sum) &&
  decide (x.1.firstRow x.2 * (jointWidths x.1.channels (x.2.map (·.chan)) w).sum < 2 ^ 63)

theorem jointlyServed_of {supported : List DataType} {w : Nat} {f : Bytes} {segs : List Segment} {bufs : List Buffer}
    {start : Nat} (h : (readBlocks w start bufs (dataPrefixes segs) (bufs.map fun _ => 0)).all
      (servesTakersB supported w f.length) = true) : JointlyServed supported w f segs bufs start := by
  intro x hx
  have := List.all_eq_true.mp h x hx
  unfold servesTakersB at this
  simp only [Bool.and_eq_true, decide_eq_true_eq] at this
  obtain ⟨⟨⟨⟨⟨⟨h1, h2⟩, h3⟩, h4⟩, h5⟩, h6⟩, h7⟩ := this
  refine ⟨?_, h2, fun _ => ⟨h3, h4, h5⟩, fun _ => ⟨h6, h7⟩⟩
  intro t ht
  have := List.all_eq_true.mp h1 t ht
  cases hm : x.1.channels[t.chan]? with
  | none => rw [hm] at this; cases this
  | some m => rw [hm] at this; exact ⟨m, rfl, List.contains_iff_mem.mp this⟩

/-- The hypotheses hold for the first file, also with buffers of different sizes and channels that are not in all
    segments. Read from the start, `a` and `b` are right; read from sample 3, they are not. -/
theorem joint_right_example : ∃ t, TdmsFile.new anyAlloc (fileOf orderFile) = .ok t ∧
    replay Index.new (orderFile.map FileSegment.segment) = .ok t.index ∧
    JointlyServed (STy.u8.storage anyAlloc).supported 1 t.bytes (orderFile.map FileSegment.segment)
      [((chan "a").path, 2), ((chan "b").path, 4)] 0 ∧
    JointlyServed (STy.u8.storage anyAlloc).supported 1 t.bytes (orderFile.map FileSegment.segment)
      [((chan "a").path, 3), ((chan "b").path, 3)] 3 ∧
    JointlyRight anyAlloc .u8 t (orderFile.map FileSegment.segment) [chan "a", chan "b"] 0 [2, 4] ∧
    ¬ JointlyRight anyAlloc .u8 t (orderFile.map FileSegment.segment) [chan "a", chan "b"] 3 [3, 3] := by
  obtain ⟨ix, hix⟩ := exists_ok (x := replay Index.new (orderFile.map FileSegment.segment)) (by decide +kernel)
  have hopen : buildIndex anyAlloc (fileOf orderFile) = replay Index.new (orderFile.map FileSegment.segment) := by
    decide +kernel
  have hnew : TdmsFile.new anyAlloc (fileOf orderFile) = .ok ⟨ix, fileOf orderFile⟩ := by
    unfold TdmsFile.new; rw [hopen, hix]; rfl
  have hs1 : JointlyServed (STy.u8.storage anyAlloc).supported 1 (fileOf orderFile) (orderFile.map FileSegment.segment)
      [((chan "a").path, 2), ((chan "b").path, 4)] 0 := jointlyServed_of (by decide +kernel)
  have hs2 : JointlyServed (STy.u8.storage anyAlloc).supported 1 (fileOf orderFile) (orderFile.map FileSegment.segment)
      [((chan "a").path, 3), ((chan "b").path, 3)] 3 := jointlyServed_of (by decide +kernel)
  have hf : (fileOf orderFile).length < 2 ^ 63 := by decide +kernel
  have hl : ∀ c ∈ [chan "a", chan "b"], Listed (entries (orderFile.map FileSegment.segment)) c.path := by
    unfold Listed; decide +kernel
  have htypes : ∀ c ∈ [chan "a", chan "b"], ∀ pre ∈ dataPrefixes (orderFile.map FileSegment.segment),
      c.path ∈ active pre → ∀ m, layoutOf (entries pre) c.path = some m →
      m.dataType ∈ (STy.u8.storage anyAlloc).supported := by
    have : ∀ c ∈ [chan "a", chan "b"], ∀ pre ∈ dataPrefixes (orderFile.map FileSegment.segment),
      c.path ∈ active pre → ∀ m ∈ layoutOf (entries pre) c.path,
      m.dataType ∈ (STy.u8.storage anyAlloc).supported := by decide +kernel
    exact this
  refine ⟨_, hnew, hix, hs1, hs2, ?_, ?_⟩
  · exact joint_right_of anyAlloc .u8 rfl (t := ⟨ix, fileOf orderFile⟩) hix hf [chan "a", chan "b"] hl 0 [2, 4] rfl
      htypes hs1 (by decide +kernel)
  · intro hr
    have hx := (joint_right_iff anyAlloc .u8 rfl (t := ⟨ix, fileOf orderFile⟩) hix hf [chan "a", chan "b"] hl 3 [3, 3] rfl
      htypes hs2).mp hr 0 (chan "a") 3 [(0, .little, 181)] rfl rfl (by decide +kernel) 0 (by omega)
    rw [show lastAt [(0, Endian.little, 181)] 0 = some (.little, 181) from rfl,
      show (sampleCells (orderFile.map FileSegment.segment) (chan "a").path)[3 + 0]? = some (.little, 179) by
        decide +kernel] at hx
    cases hx with
    | some hx => exact absurd hx.1 (by decide)

/-- Channels skip what another buffer should skip: read from sample 3, `a` loses two samples that it has, and `b` gets
    its samples 1, 2 and 3, of which two are before the start. -/
theorem joint_skip_order_counterexample :
    readManyFrom .u8 (fileOf orderFile) ["a", "b"] 3 [vals8 [99, 99, 99], vals8 [99, 99, 99]] =
      .ok [vals8 [6, 99, 99], vals8 [12, 13, 14]] ∧
    readFrom .u8 (fileOf orderFile) "a" 3 (vals8 [99, 99, 99]) = .ok (vals8 [4, 5, 6]) ∧
    readFrom .u8 (fileOf orderFile) "b" 3 (vals8 [99, 99, 99]) = .ok (vals8 [14, 99, 99]) := by
  refine ⟨?_, ?_, ?_⟩ <;> decide +kernel

/-- Chunks that `b` skips are lost for `a`. -/
theorem joint_skip_chunks_counterexample :
    readManyFrom .u8 (fileOf chunkFile) ["a", "b"] 4 [vals8 [99, 99], vals8 [99, 99]] =
      .ok [vals8 [9, 10], vals8 [15, 16]] ∧
    readFrom .u8 (fileOf chunkFile) "a" 4 (vals8 [99, 99]) = .ok (vals8 [5, 6]) ∧
    readFrom .u8 (fileOf chunkFile) "b" 4 (vals8 [99, 99]) = .ok (vals8 [15, 16]) := by
  refine ⟨?_, ?_, ?_⟩ <;> decide +kernel

/-- Reading stops when the buffer of `a` is full, before the first row that `b` needs: `b` gets nothing. -/
theorem joint_rows_stop_counterexample :
    readManyFrom .u8 (fileOf rowFile) ["a", "b"] 4 [vals8 [99, 99], vals8 [99, 99]] =
      .ok [vals8 [5, 6], vals8 [99, 99]] ∧
    readFrom .u8 (fileOf rowFile) "b" 4 (vals8 [99, 99]) = .ok (vals8 [15, 16]) := by
  refine ⟨?_, ?_⟩ <;> decide +kernel

/-- A channel that is named twice is read into the last buffer only. -/
theorem joint_twice_counterexample :
    readManyFrom .u8 (fileOf rowFile) ["a", "a"] 0 [vals8 [99, 99], vals8 [99, 99]] =
      .ok [vals8 [99, 99], vals8 [1, 2]] := by
  decide +kernel

/-- The hypotheses of C76 hold for the files above, where joint reads are wrong: the values are those of the wrong
    samples, but of the right channels. -/
theorem joint_own_samples_example : ∃ t, TdmsFile.new anyAlloc (fileOf rowFile) = .ok t ∧
    ∃ res, t.readChannelsFrom (STy.u8.storage anyAlloc) [chan "a", chan "b"] 2
        [vals8 [99, 99, 99, 99], vals8 [99, 99, 99, 99]] = .ok res ∧ res.length = 2 ∧
      ∀ (s : Nat) (c : ChannelPath) (out out' : List (BitVec 8)), [chan "a", chan "b"][s]? = some c →
        [vals8 [99, 99, 99, 99], vals8 [99, 99, 99, 99]][s]? = some out → res[s]? = some out' →
        out'.length = out.length ∧ ∀ (k : Nat) (v : BitVec 8), out'[k]? = some v → out[k]? = some v ∨
          v ∈ channelSamples (Format.decode .u8) (fileOf rowFile) (rowFile.map FileSegment.segment) c.path := by
  obtain ⟨ix, hix⟩ := exists_ok (x := replay Index.new (rowFile.map FileSegment.segment)) (by decide +kernel)
  have hopen : buildIndex anyAlloc (fileOf rowFile) = replay Index.new (rowFile.map FileSegment.segment) := by
    decide +kernel
  have hnew : TdmsFile.new anyAlloc (fileOf rowFile) = .ok ⟨ix, fileOf rowFile⟩ := by
    unfold TdmsFile.new; rw [hopen, hix]; rfl
  have htypes : ∀ c ∈ [chan "a", chan "b"], ∀ pre ∈ dataPrefixes (rowFile.map FileSegment.segment),
      c.path ∈ active pre → ∀ m ∈ layoutOf (entries pre) c.path,
      m.dataType ∈ (STy.u8.storage anyAlloc).supported := by decide +kernel
  have hrows : ∀ c ∈ [chan "a", chan "b"], ∀ pre ∈ dataPrefixes (rowFile.map FileSegment.segment),
      c.path ∈ active pre → (∃ s ∈ pre.getLast?, s.toc.dataIsInterleaved = true) →
      rawBytes pre / rowBytesOf (activeLayouts pre) ≤ samplesIn pre c.path := by decide +kernel
  have hserved : JointlyServed (STy.u8.storage anyAlloc).supported 1 (fileOf rowFile) (rowFile.map FileSegment.segment)
      [((chan "a").path, 4), ((chan "b").path, 4)] 2 := jointlyServed_of (by decide +kernel)
  exact ⟨_, hnew, joint_read_own_samples_partial anyAlloc .u8 rfl (t := ⟨ix, fileOf rowFile⟩) hix
    (by show (fileOf rowFile).length < _; decide +kernel) [chan "a", chan "b"] (by unfold Listed; decide +kernel) 2
    [vals8 [99, 99, 99, 99], vals8 [99, 99, 99, 99]] rfl htypes (by decide +kernel) hrows
    hserved⟩

/-- What is missing: next to a channel of timestamps that is not read, reads are misplaced. Here `b` gets the second
    half of the timestamp 7 of `a` and the first half of its own. -/
theorem joint_own_stamps_counterexample :
    readManyFrom .timestamp (fileOf [dataSegment .big false [("a", .timestamp, 1), ("b", .timestamp, 1)]
      (List.replicate 15 0 ++ [7] ++ List.replicate 15 0 ++ [8])]) ["b"] 0 [stamps [99]] =
      .ok [stamps [7 * 2 ^ 64]] := by
  decide +kernel

end Tedium
