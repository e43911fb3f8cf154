import Verif.Spec.Delivered
import Verif.Proofs.ReadFile

/-! # What a read delivers, for every layout -/

namespace Tedium
open PlanSpec SegSpec

section
variable {α : Type} {S : Storage α} {dec : Endian → Bytes → α}

/-! ## One block -/

theorem chunkVals_skipped (e : Endian) (f : Bytes) (start bs sub s total o : Nat) (c : Col α) :
    chunkVals S dec e f start bs (s / sub) (s % sub) 0 total o c =
      (flatVals S dec e f start bs c.length total o).drop (DataBlock.skippedFor sub c.length s) := by
  unfold chunkVals
  have hpart : ∀ q, chunkPart (s / sub) (s % sub) q (valsAt S dec e f (start + q * bs + o) c.length) =
      chunkPart (s / sub) (min (s % sub) c.length) q (valsAt S dec e f (start + q * bs + o) c.length) := by
    intro q
    unfold chunkPart
    split
    · rfl
    · split
      · rcases Nat.le_total (s % sub) c.length with h | h
        · rw [Nat.min_eq_left h]
        · rw [Nat.min_eq_right h, List.drop_eq_nil_of_le (by simpa using h), List.drop_eq_nil_of_le (by simp)]
      · rfl
  simp only [hpart]
  rw [chunkPart_flatMap _ c.length _ _ (Nat.min_le_right _ _) (fun q => by simp), ← flatMap_chunks]
  congr 1
  unfold DataBlock.skippedFor
  omega

theorem chunkCount_skipped (sub s n total : Nat) :
    chunkCount (s / sub) (s % sub) n 0 total = n * total - DataBlock.skippedFor sub n s := by
  have h := chunkVals_skipped (S := numeric 1 .u8 [.u8]) (dec := fun _ _ => (0 : BitVec (8 * 1))) .little [] 0 0
    sub s total 0 ⟨n, 0, none⟩
  have h := congrArg List.length h
  rw [List.length_drop] at h
  simp only [flatVals, List.length_map, List.length_range] at h
  rw [← h]
  unfold chunkVals chunkCount
  rw [List.length_flatMap]
  congr 1
  apply List.map_congr_left
  intro q _
  rw [length_chunkPart, length_valsAt]

/-- rows that do not exist -/
theorem interRead_beyond (e : Endian) (f : Bytes) (hf : f.length < 2 ^ 63)
    (start size k p : Nat) (cols : List (Col α)) (hsz : Sized S cols)
    (hrow : 0 < (cols.map Col.size).sum) (hlen : start + size ≤ f.length)
    (hk : size / (cols.map Col.size).sum < k) (hmul : k * (cols.map Col.size).sum < 2 ^ 63)
    (ha : anyOut cols = true) :
    ∃ q, interRead S e start size (cols.map (Col.entry k)) f p = .ok ((0, cols.map (Col.entry 0)), q) := by
  generalize hR : (cols.map Col.size).sum = rs at *
  unfold interRead
  rw [Rd.bind_ok (show Rd.seek start f p = .ok ((), start) from rfl), rowSize_entry k cols hsz, hR,
    lift_bind (show divR size rs = .ok (size / rs) by unfold divR; rw [if_neg (by omega)])]
  have hmin : minOrZero (blockSkips (cols.map (Col.entry k))) = k := by
    rw [blockSkips_entry, minOrZero_replicate]
    have hiff := countP_anyOut cols
    rw [if_neg (by intro h; rw [hiff.mp h] at ha; cases ha)]
  simp only [hmin]
  have hmap : mapSkips (fun s => s - k) (cols.map (Col.entry k)) = cols.map (Col.entry 0) := by
    rw [mapSkips_entry, Nat.sub_self]
  have h1 : k ≤ k * rs := Nat.le_mul_of_pos_right _ hrow
  have hk0 : 0 < k := Nat.lt_of_le_of_lt (Nat.zero_le _) hk
  have h2 : rs ≤ k * rs := Nat.le_mul_of_pos_left _ hk0
  rw [hmap, if_pos hk0, lift_bind (mulI64_small hmul (by omega) (by omega)),
    Rd.bind_ok (move_nat _ _ _ (by omega)), show size / rs - k = 0 from Nat.sub_eq_zero_of_le (Nat.le_of_lt hk)]
  exact ⟨_, rfl⟩

/-- the columns of a block when channel number `i` is read -/
def colsFor (w : Nat) (channels : List RawDataMeta) (i : Nat) (slot : Nat) (out : List α) : List (Col α) :=
  channels.mapIdx fun j m => ⟨m.numberOfValues, if j = i then w else m.dataType.size,
    if j = i then some (slot, ⟨[], out⟩) else none⟩

theorem colsFor_entry (w : Nat) (channels : List RawDataMeta) (r : ChannelRequest α) :
    (colsOf channels [r]).map (Col.entry 0) =
      (colsFor w channels r.channelIndex r.slot r.output).map (Col.entry 0) := by
  unfold colsOf colsFor
  apply List.ext_getElem?
  intro j
  simp only [List.getElem?_map, List.getElem?_mapIdx]
  cases channels[j]? with
  | none => rfl
  | some m =>
    simp only [Option.map_some, Option.some.injEq]
    unfold Col.entry colAt
    by_cases h : r.channelIndex = j
    · simp [h]
    · have h' : ¬ j = r.channelIndex := fun hh => h hh.symm
      simp [h, h']

theorem colsFor_getElem? (w : Nat) (channels : List RawDataMeta) (i slot : Nat) (out : List α) (j : Nat) :
    (colsFor w channels i slot out)[j]? = channels[j]?.map fun m => ⟨m.numberOfValues,
      if j = i then w else m.dataType.size, if j = i then some (slot, ⟨[], out⟩) else none⟩ := by
  unfold colsFor
  rw [List.getElem?_mapIdx]

theorem mem_colsFor {w : Nat} {channels : List RawDataMeta} {i slot : Nat} {out : List α} {c : Col α}
    (h : c ∈ colsFor w channels i slot out) : ∃ j m, channels[j]? = some m ∧ c = ⟨m.numberOfValues,
      if j = i then w else m.dataType.size, if j = i then some (slot, ⟨[], out⟩) else none⟩ := by
  obtain ⟨j, hj⟩ := List.mem_iff_getElem?.mp h
  rw [colsFor_getElem?] at hj
  obtain ⟨m, hm, hc⟩ := Option.map_eq_some_iff.mp hj
  exact ⟨j, m, hm, hc.symm⟩

theorem colsFor_sized (channels : List RawDataMeta) (i slot : Nat) (out : List α) :
    Sized S (colsFor S.memSize channels i slot out) := by
  intro c hc hs
  obtain ⟨j, m, _, rfl⟩ := mem_colsFor hc
  by_cases h : j = i
  · simp [h]
  · simp [h] at hs

theorem colsFor_any {w : Nat} {channels : List RawDataMeta} {i slot : Nat} {out : List α}
    (h : i < channels.length) : anyOut (colsFor w channels i slot out) = true := by
  unfold anyOut
  rw [List.any_eq_true]
  refine ⟨_, List.mem_of_getElem? (i := i) ((colsFor_getElem? w channels i slot out i).trans
    (by rw [List.getElem?_eq_getElem h]; rfl)), ?_⟩
  simp

theorem colsFor_count {w : Nat} {channels : List RawDataMeta} {i slot : Nat} {out : List α}
    (h : i < channels.length) :
    (colsFor w channels i slot out).countP (fun c => c.out.isSome) = 1 := by
  have := countP_colsOf (channels := channels) (reqs := [(⟨i, slot, out, 0⟩ : ChannelRequest α)])
    (by intro r hr; rw [List.mem_singleton.mp hr]; exact ⟨_, List.getElem?_eq_getElem h⟩) (List.pairwise_singleton _ _)
  rw [List.length_singleton] at this
  rw [← this]
  have heq := congrArg (List.map (fun en : RecordEntry α => match en.plan with
    | .read _ _ _ => true
    | .skip _ => false)) (colsFor_entry w channels (⟨i, slot, out, 0⟩ : ChannelRequest α))
  rw [List.map_map, List.map_map] at heq
  have hfun : (fun en : RecordEntry α => match en.plan with
    | .read _ _ _ => true
    | .skip _ => false) ∘ Col.entry 0 = fun c : Col α => c.out.isSome := by
    funext c
    simp only [Function.comp, Col.entry]
    cases c.out <;> rfl
  rw [hfun] at heq
  have h1 : ∀ l : List (Col α), l.countP (fun c => c.out.isSome) = (l.map (fun c => c.out.isSome)).count true := by
    intro l
    rw [List.count, List.countP_map]
    congr 1
    funext c
    simp
  rw [h1, h1, heq]

theorem colsFor_bytes (w : Nat) (channels : List RawDataMeta) (i slot : Nat) (out : List α) :
    (colsFor w channels i slot out).map Col.bytes = stepChunks channels i w ∧
    (colsFor w channels i slot out).map Col.size = stepWidths channels i w := by
  unfold colsFor stepChunks stepWidths
  constructor <;>
  · apply List.ext_getElem?
    intro j
    simp only [List.getElem?_map, List.getElem?_mapIdx]
    cases channels[j]? <;> simp [Col.bytes]

theorem colsFor_outputs (w : Nat) (channels : List RawDataMeta) {i : Nat} (slot : Nat) (out : List α)
    {m : RawDataMeta} (hm : channels[i]? = some m) (ext : Col α → Nat) (g : Nat → Col α → List α) (k : Nat) :
    (planOutputs ((feedCols ext g 0 (colsFor w channels i slot out)).map (Col.entry k))).lookup slot =
      some (overlay out (g (((colsFor w channels i slot out).take i).map ext).sum
        ⟨m.numberOfValues, w, some (slot, ⟨[], out⟩)⟩)) := by
  rw [planOutputs_entry]
  have hat : ∀ j, (feedCols ext g 0 (colsFor w channels i slot out))[j]? = channels[j]?.map fun m =>
      (⟨m.numberOfValues, if j = i then w else m.dataType.size,
        if j = i then some (slot, (⟨[], out⟩ : OutIter α).feed
          (g (((colsFor w channels i slot out).take i).map ext).sum ⟨m.numberOfValues, w, some (slot, ⟨[], out⟩)⟩))
        else none⟩ : Col α) := by
    intro j
    rw [feedCols_getElem?, colsFor_getElem?]
    cases channels[j]? with
    | none => rfl
    | some m' =>
      simp only [Option.map_some, Option.some.injEq]
      by_cases hj : j = i
      · subst hj; simp
      · simp [hj]
  apply lookup_of_mem
  · rw [List.mem_filterMap]
    refine ⟨_, List.mem_of_getElem? ((hat i).trans (by rw [hm]; rfl)), ?_⟩
    simp only [if_true, Option.map_some, Option.some.injEq, Prod.mk.injEq, true_and]
    exact OutIter.feed_overlay _ _
  · intro v hv
    obtain ⟨c, hc, hcv⟩ := List.mem_filterMap.mp hv
    obtain ⟨j, hj⟩ := List.mem_iff_getElem?.mp hc
    rw [hat] at hj
    obtain ⟨m', hm', rfl⟩ := Option.map_eq_some_iff.mp hj
    by_cases hji : j = i
    · subst hji
      rw [hm] at hm'
      cases hm'
      simp only [if_true, Option.map_some, Option.some.injEq, Prod.mk.injEq, true_and] at hcv
      rw [← hcv]
      exact OutIter.feed_overlay _ _
    · simp [hji] at hcv

/-- The conditions of a block for reading channel number `i` after skipping `k` samples. -/
structure DataBlock.Serves (S : Storage α) (f : Bytes) (b : DataBlock) (i : Nat) (m : RawDataMeta) (k : Nat) : Prop where
  inside : b.start + b.length ≤ f.length
  fileSize : f.length < 2 ^ 63
  channel : b.channels[i]? = some m
  typed : m.dataType ∈ S.supported
  values : 0 < m.numberOfValues
  contig : b.layout = .contigious → (∃ m0, b.channels.head? = some m0 ∧ 0 < m0.numberOfValues) ∧
    (stepChunks b.channels i S.memSize).sum < 2 ^ 64
  inter : b.layout = .interleaved → k * (stepWidths b.channels i S.memSize).sum < 2 ^ 63

theorem sum_pos_of_getElem? {l : List Nat} {i x : Nat} (h : l[i]? = some x) (hx : 0 < x) : 0 < l.sum := by
  induction l generalizing i with
  | nil => simp at h
  | cons y ys ih =>
    rw [List.sum_cons]
    cases i with
    | zero => simp only [List.getElem?_cons_zero, Option.some.injEq] at h; omega
    | succ i => have := ih h; omega

theorem stepChunks_pos {w : Nat} {chs : List RawDataMeta} {i : Nat} {m : RawDataMeta} (h : chs[i]? = some m)
    (hn : 0 < m.numberOfValues) (hw : 0 < w) : 0 < (stepChunks chs i w).sum := by
  refine sum_pos_of_getElem? (i := i) (x := m.numberOfValues * w) ?_ (Nat.mul_pos hn hw)
  unfold stepChunks
  rw [List.getElem?_mapIdx, h]
  simp

theorem stepWidths_pos {w : Nat} {chs : List RawDataMeta} {i : Nat} {m : RawDataMeta} (h : chs[i]? = some m)
    (hw : 0 < w) : 0 < (stepWidths chs i w).sum := by
  refine sum_pos_of_getElem? (i := i) (x := w) ?_ hw
  unfold stepWidths
  rw [List.getElem?_mapIdx, h]
  simp

theorem DataBlock.Serves.read (hS : S.Reads dec) (hmem : S.memSize < 2 ^ 63) {f : Bytes} {b : DataBlock} {i : Nat}
    {m : RawDataMeta} {k : Nat} (h : b.Serves S f i m k) (slot : Nat) (out : List α) :
    (∃ res, b.readWithSkip S f [⟨i, slot, out, k⟩] = .ok res ∧
      res.1 = min (b.delivered i m S.memSize k).length out.length ∧
      (planOutputs res.2).lookup slot = some (overlay out ((b.delivered i m S.memSize k).map
        fun p => dec b.byteOrder ((f.drop p).take S.memSize)))) ∧
    (k = 0 → ∃ res, b.read S f [⟨i, slot, out, k⟩] = .ok res ∧
      res.1 = min (b.delivered i m S.memSize k).length out.length ∧
      (planOutputs res.2).lookup slot = some (overlay out ((b.delivered i m S.memSize k).map
        fun p => dec b.byteOrder ((f.drop p).take S.memSize)))) := by
  obtain ⟨hin, hf, hch, hty, hn, hcon, hint⟩ := h
  have hi := (List.getElem?_eq_some_iff.mp hch).1
  have hplan := buildRecordPlan_eq (S := S) b.channels [⟨i, slot, out, k⟩] (List.pairwise_singleton _ _)
    (by intro r hr; rw [List.mem_singleton.mp hr]; exact ⟨m, hch, hty⟩)
  rw [colsFor_entry S.memSize] at hplan
  dsimp only at hplan
  obtain ⟨hbytes, hsizes⟩ := colsFor_bytes S.memSize b.channels i slot out
  have hany := colsFor_any (w := S.memSize) (slot := slot) (out := out) hi
  have hcnt := colsFor_count (w := S.memSize) (slot := slot) (out := out) hi
  have hsz := colsFor_sized (S := S) b.channels i slot out
  have hpos : ∀ c ∈ colsFor S.memSize b.channels i slot out, c.size < 2 ^ 63 := by
    intro c hc
    obtain ⟨j, m', _, rfl⟩ := mem_colsFor hc
    dsimp only
    split
    · exact hmem
    · exact size_small _
  have huni : Uni m.numberOfValues out.length (colsFor S.memSize b.channels i slot out) := by
    intro c hc x hx
    obtain ⟨j, m', hm', rfl⟩ := mem_colsFor hc
    by_cases hj : j = i
    · subst hj
      rw [hch] at hm'
      cases hm'
      simp only [if_true, Option.some.injEq] at hx
      subst hx
      exact ⟨rfl, rfl⟩
    · simp [hj] at hx
  unfold DataBlock.readWithSkip DataBlock.read
  dsimp only [List.map_cons, List.map_nil]
  rw [hplan]
  cases hlay : b.layout with
  | contigious =>
    obtain ⟨⟨m0, hm0, hm0pos⟩, hsmall⟩ := hcon hlay
    have hfirst : (colsFor S.memSize b.channels i slot out).head?.map (·.length) = some m0.numberOfValues := by
      cases hcs : b.channels with
      | nil => rw [hcs] at hm0; cases hm0
      | cons a as => rw [hcs] at hm0; cases hm0; simp [colsFor, List.mapIdx_cons]
    have hhead : (b.channels.map (·.numberOfValues)).headD 0 = m0.numberOfValues := by
      cases hcs : b.channels with
      | nil => rw [hcs] at hm0; cases hm0
      | cons a as => rw [hcs] at hm0; cases hm0; rfl
    obtain ⟨k', q, hres⟩ := contigReadFrom_chunks hS b.byteOrder f hf b.start b.length 0 k m.numberOfValues
      out.length 0 m0.numberOfValues (colsFor S.memSize b.channels i slot out) hsz hpos hfirst hm0pos hin
      (by rw [hbytes]; exact hsmall) (by rw [hbytes]; exact stepChunks_pos hch hn hS.pos) huni
    have hD : b.delivered i m S.memSize k = ((List.range (m.numberOfValues *
        (b.length / (stepChunks b.channels i S.memSize).sum))).drop
          (DataBlock.skippedFor m0.numberOfValues m.numberOfValues k)).map fun s =>
        b.start + s / m.numberOfValues * (stepChunks b.channels i S.memSize).sum +
          ((stepChunks b.channels i S.memSize).take i).sum + s % m.numberOfValues * S.memSize := by
      unfold DataBlock.delivered
      rw [hlay]
      dsimp only
      rw [hhead]
    have hgood : ∀ res : Nat × List (RecordEntry α), res = ((if anyOut (colsFor S.memSize b.channels i slot out) then
          min (chunkCount (k / m0.numberOfValues) (k % m0.numberOfValues) m.numberOfValues 0 (b.length /
            ((colsFor S.memSize b.channels i slot out).map Col.bytes).sum)) out.length else 0),
        (feedCols Col.bytes (chunkVals S dec b.byteOrder f b.start
          ((colsFor S.memSize b.channels i slot out).map Col.bytes).sum (k / m0.numberOfValues)
          (k % m0.numberOfValues) 0 (b.length / ((colsFor S.memSize b.channels i slot out).map Col.bytes).sum)) 0
          (colsFor S.memSize b.channels i slot out)).map (Col.entry k')) →
        res.1 = min (b.delivered i m S.memSize k).length out.length ∧
        (planOutputs res.2).lookup slot = some (overlay out ((b.delivered i m S.memSize k).map
          fun p => dec b.byteOrder ((f.drop p).take S.memSize))) := by
      rintro res rfl
      constructor
      · dsimp only
        rw [if_pos hany, hbytes, chunkCount_skipped, hD]
        simp
      · dsimp only
        rw [colsFor_outputs S.memSize b.channels slot out hch, chunkVals_skipped, List.map_take, hbytes, hD]
        unfold flatVals
        rw [List.map_map, List.map_drop]
        rfl
    constructor
    · have hskip := contigReadSkip_uniform (S := S) b.byteOrder f b.start b.length 0 k 0 m0.numberOfValues
        (colsFor S.memSize b.channels i slot out) hfirst hm0pos
      rw [hcnt, if_pos hany, hres] at hskip
      refine ⟨_, ?_, hgood _ rfl⟩
      show (do let r ← contigReadSkip S b.byteOrder b.start b.length _ _ f 0; pure r.1) = _
      rw [List.map_cons, List.map_nil, show ([k] : List Nat) = List.replicate 1 k from rfl, hskip]
      rfl
    · rintro rfl
      refine ⟨_, ?_, hgood _ rfl⟩
      show (do let r ← contigReadFrom S b.byteOrder b.start b.length _ _ f 0; pure r.1) = _
      rw [hres]
      rfl
  | interleaved =>
    have hrow := stepWidths_pos (w := S.memSize) hch hS.pos
    have hset : ∀ k, setSkips [k] ((colsFor S.memSize b.channels i slot out).map (Col.entry 0)) =
        (colsFor S.memSize b.channels i slot out).map (Col.entry k) := by
      intro k
      have := setSkips_replicate k ((colsFor S.memSize b.channels i slot out).map (Col.entry 0))
      rw [blockSkips_entry, hcnt, List.length_replicate, mapSkips_entry] at this
      exact this
    have hD : b.delivered i m S.memSize k = ((List.range (b.length / (stepWidths b.channels i S.memSize).sum)).drop
        k).map fun r => b.start + r * (stepWidths b.channels i S.memSize).sum +
          ((stepWidths b.channels i S.memSize).take i).sum := by
      unfold DataBlock.delivered
      rw [hlay]
    have main : ∃ res q, interRead S b.byteOrder b.start b.length
        ((colsFor S.memSize b.channels i slot out).map (Col.entry k)) f 0 = .ok (res, q) ∧
        res.1 = min (b.delivered i m S.memSize k).length out.length ∧
        (planOutputs res.2).lookup slot = some (overlay out ((b.delivered i m S.memSize k).map
          fun p => dec b.byteOrder ((f.drop p).take S.memSize))) := by
      by_cases hk : k ≤ b.length / (stepWidths b.channels i S.memSize).sum
      · obtain ⟨q, hq⟩ := interRead_eq hS b.byteOrder f hf b.start b.length k m.numberOfValues out.length 0
          (colsFor S.memSize b.channels i slot out) hsz (by rw [hsizes]; exact hrow) hin (by rw [hsizes]; exact hk) huni
        refine ⟨_, q, hq, ?_, ?_⟩
        · dsimp only
          rw [if_pos hany, hsizes, hD]
          simp
        · dsimp only
          rw [colsFor_outputs S.memSize b.channels slot out hch, List.map_take, hsizes, hD]
          unfold rowVals
          rw [List.map_map, ← List.map_drop, List.range_eq_range']
          rfl
      · obtain ⟨q, hq⟩ := interRead_beyond (S := S) b.byteOrder f hf b.start b.length k 0
          (colsFor S.memSize b.channels i slot out) hsz (by rw [hsizes]; exact hrow) hin
          (by rw [hsizes]; omega) (by rw [hsizes]; exact hint hlay) hany
        have hnil : b.delivered i m S.memSize k = [] := by
          rw [hD, List.drop_eq_nil_of_le (by rw [List.length_range]; omega)]
          rfl
        refine ⟨_, q, hq, by rw [hnil]; simp, ?_⟩
        rw [hnil]
        dsimp only
        have := colsFor_outputs S.memSize b.channels slot out hch Col.bytes (fun _ _ => []) 0
        rw [feedCols_nil] at this
        exact this
    obtain ⟨res, q, h1, h2, h3⟩ := main
    constructor
    · refine ⟨res, ?_, h2, h3⟩
      show (do let r ← interRead S b.byteOrder b.start b.length _ f 0; pure r.1) = _
      rw [List.map_cons, List.map_nil, hset, h1]
      rfl
    · rintro rfl
      refine ⟨res, ?_, h2, h3⟩
      show (do let r ← interRead S b.byteOrder b.start b.length _ f 0; pure r.1) = _
      rw [h1]
      rfl

theorem sum_mapIdx_le {β : Type} (l : List β) : ∀ (f g : Nat → β → Nat), (∀ j x, l[j]? = some x → f j x ≤ g j x) →
    (l.mapIdx f).sum ≤ (l.mapIdx g).sum := by
  induction l with
  | nil => intro f g _; simp
  | cons x xs ih =>
    intro f g h
    rw [List.mapIdx_cons, List.mapIdx_cons, List.sum_cons, List.sum_cons]
    have h0 := h 0 x rfl
    have := ih (fun i => f (i + 1)) (fun i => g (i + 1)) (fun j y hy => h (j + 1) y hy)
    omega

/-- the declared types of a storage type have a size, at most the size in memory -/
def Storage.Narrow (S : Storage α) : Prop := ∀ dt ∈ S.supported, 0 < dt.size ∧ dt.size ≤ S.memSize

/-- a block read for a buffer without cells -/
theorem DataBlock.Serves.readNone (hS : S.Reads dec) (hnar : S.Narrow) {f : Bytes} {b : DataBlock}
    {i : Nat} {m : RawDataMeta} {k : Nat} (h : b.Serves S f i m k) :
    (∃ res, b.readWithSkip S f ([] : List (ChannelRequest α)) = .ok res ∧ planOutputs res.2 = []) ∧
    (∃ res, b.read S f ([] : List (ChannelRequest α)) = .ok res ∧ planOutputs res.2 = []) := by
  obtain ⟨hin, hf, hch, hty, hn, hcon, hint⟩ := h
  have hplan := buildRecordPlan_eq (S := S) b.channels ([] : List (ChannelRequest α)) List.Pairwise.nil
    (by intro r hr; cases hr)
  have hout : ∀ c ∈ colsOf b.channels ([] : List (ChannelRequest α)), c.out = none := by
    intro c hc
    obtain ⟨j, m', _, rfl⟩ := colsOf_mem hc
    rfl
  have hany : anyOut (colsOf b.channels ([] : List (ChannelRequest α))) = false := by
    unfold anyOut
    rw [List.any_eq_false]
    intro c hc
    rw [hout c hc]
    simp
  have hcnt := (countP_anyOut (colsOf b.channels ([] : List (ChannelRequest α)))).mpr hany
  have hsz : Sized S (colsOf b.channels ([] : List (ChannelRequest α))) := by
    intro c hc hs
    rw [hout c hc] at hs
    cases hs
  have hpos : ∀ c ∈ colsOf b.channels ([] : List (ChannelRequest α)), c.size < 2 ^ 63 := by
    intro c hc
    obtain ⟨j, m', _, rfl⟩ := colsOf_mem hc
    exact size_small _
  have hdone : ∀ (k : Nat) (ext : Col α → Nat) (g : Nat → Col α → List α),
      planOutputs ((feedCols ext g 0 (colsOf b.channels ([] : List (ChannelRequest α)))).map (Col.entry k)) = [] := by
    intro k ext g
    rw [feedCols_full g (uni_noOut (n := 0) hany), planOutputs_entry, List.filterMap_eq_nil_iff]
    intro c hc
    rw [hout c hc]
    rfl
  have hfin : ∀ (x : R ((Nat × List (RecordEntry α)) × Nat)) (k n q : Nat) (ext : Col α → Nat)
      (g : Nat → Col α → List α), x = .ok ((n, (feedCols ext g 0
        (colsOf b.channels ([] : List (ChannelRequest α)))).map (Col.entry k)), q) →
      ∃ res, (x >>= fun r => pure r.1) = (.ok res : R (Nat × List (RecordEntry α))) ∧ planOutputs res.2 = [] := by
    rintro x k n q ext g rfl
    exact ⟨_, rfl, hdone k ext g⟩
  obtain ⟨hd0, hd1⟩ := hnar _ hty
  have hcols : (colsOf b.channels ([] : List (ChannelRequest α)))[i]? = some ⟨m.numberOfValues, m.dataType.size, none⟩ := by
    unfold colsOf
    rw [List.getElem?_mapIdx, hch]
    rfl
  unfold DataBlock.readWithSkip DataBlock.read
  dsimp only [List.map_nil]
  rw [hplan]
  cases hlay : b.layout with
  | contigious =>
    obtain ⟨⟨m0, hm0, hm0pos⟩, hsmall⟩ := hcon hlay
    have hfirst : (colsOf b.channels ([] : List (ChannelRequest α))).head?.map (·.length) = some m0.numberOfValues := by
      cases hcs : b.channels with
      | nil => rw [hcs] at hm0; cases hm0
      | cons a as => rw [hcs] at hm0; cases hm0; simp [colsOf, List.mapIdx_cons, colAt]
    have hle : ((colsOf b.channels ([] : List (ChannelRequest α))).map Col.bytes).sum ≤
        (stepChunks b.channels i S.memSize).sum := by
      have : (colsOf b.channels ([] : List (ChannelRequest α))).map Col.bytes =
          b.channels.mapIdx fun _ m => m.numberOfValues * m.dataType.size := by
        apply List.ext_getElem?
        intro j
        simp only [colsOf, List.getElem?_map, List.getElem?_mapIdx]
        cases b.channels[j]? <;> rfl
      rw [this]
      refine sum_mapIdx_le _ _ _ ?_
      intro j x hx
      refine Nat.mul_le_mul_left _ ?_
      split
      · rename_i hj
        rw [hj, hch] at hx
        cases hx
        exact hd1
      · exact Nat.le_refl _
    obtain ⟨k', q, hres⟩ := contigReadFrom_chunks hS b.byteOrder f hf b.start b.length 0 0 0
      0 0 m0.numberOfValues (colsOf b.channels ([] : List (ChannelRequest α))) hsz hpos hfirst hm0pos hin
      (by omega) (sum_pos_of_getElem? (i := i) (x := m.numberOfValues * m.dataType.size)
        (by rw [List.getElem?_map, hcols]; rfl) (Nat.mul_pos hn hd0)) (uni_noOut hany)
    constructor
    · have hskip := contigReadSkip_uniform (S := S) b.byteOrder f b.start b.length 0 0 0 m0.numberOfValues
        (colsOf b.channels ([] : List (ChannelRequest α))) hfirst hm0pos
      rw [hcnt, hany] at hskip
      simp only [Bool.false_eq_true, if_false] at hskip
      rw [hres] at hskip
      exact hfin _ _ _ _ _ _ hskip
    · exact hfin _ _ _ _ _ _ hres
  | interleaved =>
    obtain ⟨q, hq⟩ := interRead_eq hS b.byteOrder f hf b.start b.length 0 0 0 0
      (colsOf b.channels ([] : List (ChannelRequest α))) hsz
      (sum_pos_of_getElem? (i := i) (x := m.dataType.size) (by rw [List.getElem?_map, hcols]; rfl) hd0)
      hin (Nat.zero_le _) (uni_noOut hany)
    constructor
    · have hq' := hq
      rw [← setSkips_nil ((colsOf b.channels ([] : List (ChannelRequest α))).map (Col.entry 0))] at hq'
      exact hfin _ _ _ _ _ _ hq'
    · exact hfin _ _ _ _ _ _ hq

/-! ## The plan for one channel -/

/-- the values delivered by the blocks below `B` -/
def given (W : Nat → List α) (B : Nat) : List α := (List.range B).flatMap W

theorem given_succ (W : Nat → List α) (B : Nat) : given W (B + 1) = given W B ++ W B := by
  unfold given
  rw [List.range_succ, List.flatMap_append]
  simp

/-- Executing the plan for one channel: `W B` are the values that block number `B` delivers. -/
theorem executeSingle (hS : S.Reads dec) (hnar : S.Narrow) (hmem : S.memSize < 2 ^ 63) {t : TdmsFile} {start : Nat}
    {ls : List DataLocation} {out : List α} (W : Nat → List α)
    (hnone : ∀ B, visit start B ls = none → W B = [])
    (hsome : ∀ B pl, visit start B ls = some pl → (given W B).length < max out.length 1 →
      ∃ b m, t.index.getDataBlock B = some b ∧ b.Serves S t.bytes pl.index m pl.samplesToSkip ∧
        W B = (b.delivered pl.index m S.memSize pl.samplesToSkip).map
          fun p => dec b.byteOrder ((t.bytes.drop p).take S.memSize)) :
    ∀ (d B : Nat), (given W B).length < max out.length 1 →
      ∃ ps, executePlan S t ((List.range' B d).filterMap (fun block => visitAll start block [ls]))
        [⟨overlay out (given W B), (given W B).length⟩] = .ok ps ∧
      (ps.map (·.output)).headD [] = overlay out (given W (B + d)) := by
  intro d
  induction d with
  | zero => intro B _; exact ⟨_, rfl, rfl⟩
  | succ d ih =>
    intro B hB
    rw [List.range'_succ, List.filterMap_cons]
    have hmono : ∀ d B, ∃ ys, given W (B + d) = given W B ++ ys := by
      intro d
      induction d with
      | zero => intro B; exact ⟨[], by simp⟩
      | succ d ihd =>
        intro B
        obtain ⟨ys, hys⟩ := ihd B
        exact ⟨ys ++ W (B + d), by rw [← Nat.add_assoc, given_succ, hys, List.append_assoc]⟩
    cases hv : visit start B ls with
    | none =>
      have hva : visitAll start B [ls] = none := by unfold visitAll; simp [hv]
      have hW := hnone B hv
      have hg : given W (B + 1) = given W B := by rw [given_succ, hW, List.append_nil]
      rw [hva]
      have := ih (B + 1) (by rw [hg]; exact hB)
      rw [hg, show B + 1 + d = B + (d + 1) by omega] at this
      exact this
    | some pl =>
      have hva : visitAll start B [ls] = some ⟨B, [some pl]⟩ := by unfold visitAll; simp [hv]
      rw [hva]
      dsimp only
      obtain ⟨b, m, hgb, hserve, hW⟩ := hsome B pl hv hB
      -- one block
      have hblock : ∃ n, executeBlock S t ⟨B, [some pl]⟩ [⟨overlay out (given W B), (given W B).length⟩] =
          .ok [⟨overlay out (given W (B + 1)), (given W B).length + n⟩] ∧
          (0 < out.length → n = min (W B).length (out.length - (given W B).length)) := by
        unfold executeBlock
        dsimp only
        rw [hgb]
        simp only [List.any_cons, List.any_nil, Bool.or_false]
        by_cases hlen : 0 < out.length
        · have hroom : (given W B).length < out.length := by
            rcases Nat.le_total 1 out.length with h | h
            · rw [Nat.max_eq_left h] at hB; exact hB
            · omega
          have hreqs : blockRequests 0 [some pl] [(⟨overlay out (given W B), (given W B).length⟩ : Progress α)] =
              [⟨pl.index, 0, (overlay out (given W B)).drop (given W B).length, pl.samplesToSkip⟩] := by
            unfold blockRequests
            rw [if_neg]
            · rfl
            · unfold Progress.isComplete
              simp only [length_overlay, decide_eq_true_eq]
              omega
          rw [hreqs]
          obtain ⟨h1, h2⟩ := hserve.read hS hmem 0 ((overlay out (given W B)).drop (given W B).length)
          have hread : ∃ res, (if decide (pl.samplesToSkip > 0) = true then
                b.readWithSkip S t.bytes [⟨pl.index, 0, (overlay out (given W B)).drop (given W B).length,
                  pl.samplesToSkip⟩]
              else b.read S t.bytes [⟨pl.index, 0, (overlay out (given W B)).drop (given W B).length,
                  pl.samplesToSkip⟩]) = .ok res ∧
              res.1 = min (W B).length ((overlay out (given W B)).drop (given W B).length).length ∧
              (planOutputs res.2).lookup 0 =
                some (overlay ((overlay out (given W B)).drop (given W B).length) (W B)) := by
            rw [hW, List.length_map]
            by_cases hsk : pl.samplesToSkip > 0
            · rw [if_pos (by simpa using hsk)]; exact h1
            · rw [if_neg (by simpa using hsk)]; exact h2 (by omega)
          obtain ⟨⟨n, plan⟩, hr1, hr2, hr3⟩ := hread
          refine ⟨n, ?_, ?_⟩
          · rw [hr1]
            dsimp only
            unfold storeOutputs storeOutputs addSamples addSamples
            dsimp only at hr3 ⊢
            rw [hr3]
            simp only [Option.isSome_some, if_true]
            have happ := overlay_append out (given W B) (W B)
            rw [Nat.min_eq_left (by omega)] at happ
            rw [given_succ, ← happ]
          · intro _
            dsimp only at hr2
            rw [hr2, List.length_drop, length_overlay]
        · have hnil : out = [] := List.eq_nil_of_length_eq_zero (by omega)
          have hreqs : blockRequests 0 [some pl] [(⟨overlay out (given W B), (given W B).length⟩ : Progress α)] = [] := by
            unfold blockRequests
            rw [if_pos]
            · rfl
            · unfold Progress.isComplete
              simp only [length_overlay, decide_eq_true_eq]
              omega
          rw [hreqs]
          obtain ⟨h1, h2⟩ := hserve.readNone hS hnar
          have hread : ∃ res, (if decide (pl.samplesToSkip > 0) = true then
                b.readWithSkip S t.bytes ([] : List (ChannelRequest α))
              else b.read S t.bytes ([] : List (ChannelRequest α))) = .ok res ∧ planOutputs res.2 = [] := by
            split
            · exact h1
            · exact h2
          obtain ⟨⟨n, plan⟩, hr1, hr2⟩ := hread
          refine ⟨n, ?_, fun h => absurd h hlen⟩
          rw [hr1]
          dsimp only at hr2 ⊢
          rw [hr2, hnil]
          have h0 : ∀ xs : List α, overlay ([] : List α) xs = [] := fun xs => by simp [overlay]
          unfold storeOutputs storeOutputs addSamples addSamples
          simp [h0]
      obtain ⟨n, hblk, hn⟩ := hblock
      unfold executePlan
      rw [hblk]
      dsimp only
      have hfinal : ∀ (h : out.length ≤ (given W (B + 1)).length),
          overlay out (given W (B + 1)) = overlay out (given W (B + (d + 1))) := by
        intro h
        obtain ⟨ys, hys⟩ := hmono d (B + 1)
        rw [show B + (d + 1) = B + 1 + d by omega, hys, overlay_full _ _ _ h]
      by_cases hcomp : [(⟨overlay out (given W (B + 1)), (given W B).length + n⟩ : Progress α)].all Progress.isComplete = true
      · rw [if_pos hcomp]
        refine ⟨_, rfl, ?_⟩
        apply hfinal
        simp only [List.all_cons, List.all_nil, Bool.and_true, Progress.isComplete, length_overlay,
          decide_eq_true_eq] at hcomp
        rw [given_succ, List.length_append]
        by_cases hlen : 0 < out.length
        · have := hn hlen
          omega
        · omega
      · rw [if_neg hcomp]
        simp only [List.all_cons, List.all_nil, Bool.and_true, Progress.isComplete, length_overlay,
          decide_eq_true_eq] at hcomp
        have hlen : 0 < out.length := by omega
        have hn' := hn hlen
        have hlen1 : (given W (B + 1)).length = (given W B).length + n := by
          rw [given_succ, List.length_append]
          omega
        rw [← hlen1]
        have := ih (B + 1) (by rw [hlen1]; omega)
        rw [show B + 1 + d = B + (d + 1) by omega] at this
        exact this

end
end Tedium
