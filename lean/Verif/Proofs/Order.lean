import Verif.Spec.Order
import Verif.Proofs.WriteStep

/-! # Helper lemmas: byte orders -/

namespace Tedium
open SegSpec

/-- Forget the byte order. -/
def DataBlock.plain (b : DataBlock) : DataBlock := { b with byteOrder := .little }

/-- Forget the byte orders. -/
def Index.plain (ix : Index) : Index := { ix with dataBlocks := ix.dataBlocks.map DataBlock.plain }

/-- Forget the byte order and the flags that are not used. -/
def Segment.plain (s : Segment) : Segment :=
  { s with toc := { s.toc with bigEndian := false, containsMetaData := false, containsDaqmxRawData := false } }

theorem updateMetaObject_plain (ix : Index) (o : ObjectMetaData) :
    ix.plain.updateMetaObject o = ((ix.updateMetaObject o).1, (ix.updateMetaObject o).2.plain) := by
  unfold Index.updateMetaObject
  show (match ix.objects.get? o.path with | some found => _ | none => _) = _
  cases ix.objects.get? o.path with
  | some found => rfl
  | none =>
    dsimp only
    cases ObjectData.fromMetadata o <;> rfl

theorem updateOrActivate_plain (ix : Index) (o : ObjectMetaData) :
    ix.plain.updateOrActivateDataObject o
      = ((ix.updateOrActivateDataObject o).1, (ix.updateOrActivateDataObject o).2.plain) := by
  unfold Index.updateOrActivateDataObject
  rw [updateMetaObject_plain]
  show (match ix.activeObjects.find? (fun a => a.path = o.path) with | some active => _ | none => _) = _
  cases ix.activeObjects.find? (fun a => a.path = o.path) with
  | some active =>
    dsimp only
    rw [show ix.plain.objects = ix.objects from rfl]
    cases ix.objects.get? active.path <;> rfl
  | none =>
    dsimp only
    cases ix.updateMetaObject o with
    | mk r ix1 =>
      cases r with
      | error e => rfl
      | ok u =>
        dsimp only
        rw [show ix1.plain.channelFormat o.path = ix1.channelFormat o.path from rfl]
        cases ix1.channelFormat o.path <;> rfl

theorem addObjects_plain (os : List ObjectMetaData) : ∀ ix : Index,
    ix.plain.addObjects os = ((ix.addObjects os).1, (ix.addObjects os).2.plain) := by
  induction os with
  | nil => intro ix; rfl
  | cons o os ih =>
    intro ix
    rw [addObjects_cons, addObjects_cons]
    have hstep : entryStep ix.plain o = ((entryStep ix o).1, (entryStep ix o).2.plain) := by
      unfold entryStep
      cases o.rawDataIndex with
      | none => exact updateMetaObject_plain ix o
      | matchPrevious => exact updateOrActivate_plain ix o
      | rawData m => exact updateOrActivate_plain ix o
    rw [hstep]
    cases entryStep ix o with
    | mk r ix1 =>
      cases r with
      | error e => rfl
      | ok u => exact ih ix1

theorem fromSegment_plain (s : Segment) (start : Nat) (ms : List RawDataMeta) :
    DataBlock.fromSegment s.plain start ms = (DataBlock.fromSegment s start ms).map DataBlock.plain := by
  unfold DataBlock.fromSegment
  show (if s.rawDataOffset > s.nextSegmentOffset then _ else _) = _
  split
  · rfl
  · dsimp only
    show (if s.nextSegmentOffset - s.rawDataOffset = 0 then _ else _) = _
    split
    · rfl
    · split
      · rfl
      · show (if s.rawDataOffset + leadInBytes + start < u64Lim then _ else _) = _
        split <;> rfl

theorem insertDataBlock_plain (ix : Index) (b : DataBlock) :
    ix.plain.insertDataBlock b.plain = ((ix.insertDataBlock b).1, (ix.insertDataBlock b).2.plain) := by
  unfold Index.insertDataBlock
  have hn : b.plain.numberOfChunks = b.numberOfChunks := rfl
  rw [hn]
  cases b.numberOfChunks with
  | error e => rfl
  | ok n =>
    dsimp only
    rw [show ix.plain.dataBlocks.length = ix.dataBlocks.length from List.length_map _,
      show ix.plain.objects = ix.objects from rfl, show ix.plain.activeObjects = ix.activeObjects from rfl]
    cases Index.addLocations ix.dataBlocks.length n 0 ix.objects ix.activeObjects with
    | mk r objs =>
      dsimp only
      unfold Index.plain
      dsimp only
      rw [List.map_append]
      rfl

theorem addRawData_plain (ix : Index) (s : Segment) :
    ix.plain.addRawData s.plain = ((ix.addRawData s).1, (ix.addRawData s).2.plain) := by
  unfold Index.addRawData
  show (if s.toc.containsRawData = true then _ else _) = _
  split
  · show (match Index.activeRawDataMeta ix.objects ix.activeObjects with | .error e => _ | .ok channels => _) = _
    cases Index.activeRawDataMeta ix.objects ix.activeObjects with
    | error e => rfl
    | ok ms =>
      dsimp only
      split
      · rfl
      · rw [fromSegment_plain]
        show (match (DataBlock.fromSegment s ix.nextSegmentStart ms).map DataBlock.plain with
          | .error e => _ | .ok b => _) = _
        cases DataBlock.fromSegment s ix.nextSegmentStart ms with
        | error e => rfl
        | ok b => exact insertDataBlock_plain ix b
  · rfl

theorem advance_plain (ix : Index) (s : Segment) :
    ix.plain.advance s.plain = ((ix.advance s).1, (ix.advance s).2.plain) := by
  unfold Index.advance
  show (match s.totalSizeBytes with | .error e => _ | .ok size => _) = _
  cases s.totalSizeBytes with
  | error e => rfl
  | ok n =>
    dsimp only
    show (if ix.nextSegmentStart + n < u64Lim then _ else _) = _
    split <;> rfl

theorem addSegment_plain (ix : Index) (s : Segment) :
    ix.plain.addSegment s.plain = ((ix.addSegment s).1, (ix.addSegment s).2.plain) := by
  rw [addSegment_eq, addSegment_eq]
  have ha : afterObjects ix.plain s.plain = ((afterObjects ix s).1, (afterObjects ix s).2.plain) := by
    unfold afterObjects
    show Index.addObjects (if s.toc.containsNewObjectList = true then _ else _) (entriesOf s) = _
    split
    · exact addObjects_plain _ ix.deactivateAllObjects
    · exact addObjects_plain _ ix
  rw [ha]
  cases afterObjects ix s with
  | mk r ix1 =>
    cases r with
    | error e => rfl
    | ok u =>
      dsimp only
      rw [addRawData_plain]
      cases ix1.addRawData s with
      | mk r2 ix2 =>
        cases r2 with
        | error e => rfl
        | ok u => exact advance_plain ix2 s

theorem replay_plain (segs : List Segment) : ∀ ix : Index,
    replay ix.plain (segs.map Segment.plain) = (replay ix segs).map Index.plain := by
  induction segs with
  | nil => intro ix; rfl
  | cons s segs ih =>
    intro ix
    rw [List.map_cons]
    unfold replay
    rw [addSegment_plain]
    cases ix.addSegment s with
    | mk r ix1 =>
      cases r with
      | error e => rfl
      | ok n => exact ih ix1

theorem plain_of_shape {s s' : FileSegment} (h : s.shape = s'.shape) : s.segment.plain = s'.segment.plain := by
  obtain ⟨e, ⟨a, b, c, d, g, i⟩, v, r, m, rest⟩ := s
  obtain ⟨e', ⟨a', b', c', d', g', i'⟩, v', r', m', rest'⟩ := s'
  unfold FileSegment.shape at h
  simp only [Prod.mk.injEq] at h
  obtain ⟨rfl, rfl, rfl, rfl, rfl, h⟩ := h
  unfold FileSegment.segment Segment.plain
  dsimp only
  rw [h]

theorem replay_of_shape {fs fs' : List FileSegment} (h : fs.map FileSegment.shape = fs'.map FileSegment.shape) :
    (replay Index.new (fs.map FileSegment.segment)).map Index.plain
      = (replay Index.new (fs'.map FileSegment.segment)).map Index.plain := by
  rw [← replay_plain, ← replay_plain]
  congr 1
  rw [List.map_map, List.map_map]
  induction fs generalizing fs' with
  | nil =>
    cases fs' with
    | nil => rfl
    | cons => cases h
  | cons s fs ih =>
    cases fs' with
    | nil => cases h
    | cons s' fs' =>
      rw [List.map_cons, List.map_cons] at h
      injection h with h1 h2
      rw [List.map_cons, List.map_cons, ih h2]
      congr 1
      exact plain_of_shape h1

/-! ## The specification does not look at the byte order, except in blocks -/

theorem entries_plain (segs : List Segment) : entries (segs.map Segment.plain) = entries segs := by
  unfold entries
  rw [List.flatMap_map]
  rfl

theorem active_plain (segs : List Segment) : active (segs.map Segment.plain) = active segs := by
  unfold active listedSince
  rw [List.foldl_map]
  rfl

theorem activeLayouts_plain (segs : List Segment) : activeLayouts (segs.map Segment.plain) = activeLayouts segs := by
  unfold activeLayouts
  rw [active_plain, entries_plain]

theorem rawBytes_plain (segs : List Segment) : rawBytes (segs.map Segment.plain) = rawBytes segs := by
  unfold rawBytes
  rw [List.getLast?_map]
  cases segs.getLast? <;> rfl

theorem samplesIn_plain (segs : List Segment) (p : Text) : samplesIn (segs.map Segment.plain) p = samplesIn segs p := by
  unfold samplesIn chunks chunkBytes valuesPerChunk
  rw [active_plain, entries_plain, activeLayouts_plain, rawBytes_plain]

theorem endOf_plain (segs : List Segment) : endOf (segs.map Segment.plain) = endOf segs := by
  unfold endOf
  rw [List.map_map]
  rfl

theorem blockOf_plain (segs : List Segment) :
    blockOf (segs.map Segment.plain) = (blockOf segs).map DataBlock.plain := by
  unfold blockOf
  rw [List.getLast?_map, Option.map_map, Option.map_map, activeLayouts_plain, ← List.map_dropLast, endOf_plain]
  cases segs.getLast? <;> rfl

theorem dataPrefixes_plain (segs : List Segment) :
    dataPrefixes (segs.map Segment.plain) = (dataPrefixes segs).map (List.map Segment.plain) := by
  unfold dataPrefixes
  rw [List.length_map, List.filter_map, List.filter_map, List.map_map]
  congr 1
  · funext k
    exact (List.map_take ..).symm
  · congr 1
    funext k
    show ((segs.map Segment.plain).take (k + 1)).getLast?.any _ = (segs.take (k + 1)).getLast?.any _
    rw [← List.map_take, List.getLast?_map]
    cases (segs.take (k + 1)).getLast? <;> rfl

theorem flatMap_congr_index {β β' γ : Type} (F : β → List γ) (F' : β' → List γ) : ∀ (l : List β) (l' : List β'),
    l.length = l'.length → (∀ (k : Nat) x x', l[k]? = some x → l'[k]? = some x' → F x = F' x') →
    l.flatMap F = l'.flatMap F'
  | [], [], _, _ => rfl
  | [], _ :: _, h, _ => by cases h
  | _ :: _, [], h, _ => by cases h
  | x :: l, x' :: l', h, hp => by
    rw [List.flatMap_cons, List.flatMap_cons, hp 0 x x' rfl rfl,
      flatMap_congr_index F F' l l' (Nat.succ.inj h) (fun k y y' hy hy' => hp (k + 1) y y' hy hy')]

theorem decNat_swap {e e' : Endian} (h : e ≠ e') (bs : Bytes) : decNat e' bs.reverse = decNat e bs := by
  cases e <;> cases e' <;> first | exact absurd rfl h | skip
  all_goals
    unfold decNat
    first | rfl | rw [List.reverse_reverse]

theorem take_swap (n : Nat) (bs : Bytes) : ((bs.take n).reverse ++ (bs.drop n).reverse).take n = (bs.take n).reverse := by
  rcases Nat.le_total n bs.length with h | h
  · rw [List.take_append_of_le_length (by rw [List.length_reverse, List.length_take]; omega),
      List.take_of_length_le (by rw [List.length_reverse, List.length_take]; omega)]
  · rw [List.drop_of_length_le h, List.take_of_length_le h, List.reverse_nil, List.append_nil,
      List.take_of_length_le (by rwa [List.length_reverse])]

theorem drop_swap (n : Nat) (bs : Bytes) : ((bs.take n).reverse ++ (bs.drop n).reverse).drop n = (bs.drop n).reverse := by
  rcases Nat.le_total n bs.length with h | h
  · rw [List.drop_append_of_le_length (by rw [List.length_reverse, List.length_take]; omega),
      List.drop_of_length_le (by rw [List.length_reverse, List.length_take]; omega), List.nil_append]
  · rw [List.drop_of_length_le h, List.take_of_length_le h]
    simp [h]

theorem decode_swapped (al : Alloc) (ty : STy) {d : DataType}
    (hd : d ∈ (ty.storage al).supported) {e e' : Endian} (h : e ≠ e') (bs : Bytes)
    (hlen : bs.length ≤ Format.bytesOf d) :
    Format.decode ty e' (Format.swapped d bs) = Format.decode ty e bs := by
  cases ty with
  | string => rfl
  | extended =>
    have hs : Format.swapped d bs = bs.reverse := by
      rcases List.mem_cons.mp hd with rfl | hd
      · rfl
      · rw [List.mem_singleton.mp hd]; rfl
    rw [hs]
    exact congrArg (BitVec.ofNat 128) (decNat_swap h bs)
  | complex32 =>
    rw [List.mem_singleton.mp hd]
    unfold Format.decode Format.swapped
    dsimp only
    rw [take_swap, drop_swap, decNat_swap h, decNat_swap h]
  | complex64 =>
    rw [List.mem_singleton.mp hd]
    unfold Format.decode Format.swapped
    dsimp only
    rw [take_swap, drop_swap, decNat_swap h, decNat_swap h]
  | bool =>
    have hs : Format.swapped d bs = bs.reverse := by
      rcases List.mem_cons.mp hd with rfl | hd
      · rfl
      · rw [List.mem_singleton.mp hd]; rfl
    have hl : bs.length ≤ 1 := by
      rcases List.mem_cons.mp hd with rfl | hd
      · exact hlen
      · rw [List.mem_singleton.mp hd] at hlen; exact hlen
    rw [hs]
    have : bs.reverse = bs := by
      match bs, hl with
      | [], _ => rfl
      | [_], _ => rfl
    show (bs.reverse.headD 0 != 0) = (bs.headD 0 != 0)
    rw [this]
  | f32 =>
    have hs : Format.swapped d bs = bs.reverse := by
      rcases List.mem_cons.mp hd with rfl | hd
      · rfl
      · rw [List.mem_singleton.mp hd]; rfl
    rw [hs]
    exact congrArg (BitVec.ofNat 32) (decNat_swap h bs)
  | f64 =>
    have hs : Format.swapped d bs = bs.reverse := by
      rcases List.mem_cons.mp hd with rfl | hd
      · rfl
      · rw [List.mem_singleton.mp hd]; rfl
    rw [hs]
    exact congrArg (BitVec.ofNat 64) (decNat_swap h bs)
  | _ =>
    rw [List.mem_singleton.mp hd]
    exact congrArg (BitVec.ofNat _) (decNat_swap h bs)

theorem channelSamples_order (al : Alloc) (ty : STy) {f f' : Bytes}
    {segs segs' : List Segment} (h : segs.map Segment.plain = segs'.map Segment.plain)
    (hv : SameValues f segs f' segs') (p : Text)
    (hd : ∀ pre ∈ dataPrefixes segs, p ∈ active pre → ∀ m, layoutOf (entries pre) p = some m →
      m.dataType ∈ (ty.storage al).supported) :
    channelSamples (Format.decode ty) f segs p = channelSamples (Format.decode ty) f' segs' p := by
  have hpre : (dataPrefixes segs).map (List.map Segment.plain) = (dataPrefixes segs').map (List.map Segment.plain) := by
    rw [← dataPrefixes_plain, ← dataPrefixes_plain, h]
  unfold channelSamples
  apply flatMap_congr_index
  · have := congrArg List.length hpre
    rwa [List.length_map, List.length_map] at this
  · intro k pre pre' hk hk'
    have hpp : pre.map Segment.plain = pre'.map Segment.plain := by
      have h1 : ((dataPrefixes segs).map (List.map Segment.plain))[k]? = some (pre.map Segment.plain) := by
        rw [List.getElem?_map, hk]; rfl
      have h2 : ((dataPrefixes segs').map (List.map Segment.plain))[k]? = some (pre'.map Segment.plain) := by
        rw [List.getElem?_map, hk']; rfl
      rw [hpre, h2] at h1
      exact (Option.some.inj h1).symm
    have hact : active pre' = active pre := by rw [← active_plain, ← hpp, active_plain]
    have hent : entries pre' = entries pre := by rw [← entries_plain, ← hpp, entries_plain]
    have hsam : samplesIn pre' p = samplesIn pre p := by rw [← samplesIn_plain, ← hpp, samplesIn_plain]
    have hblk : (blockOf pre).map DataBlock.plain = (blockOf pre').map DataBlock.plain := by
      rw [← blockOf_plain, hpp, blockOf_plain]
    rw [hact, hent, hsam]
    cases hb : blockOf pre with
    | none =>
      rw [hb] at hblk
      cases hb' : blockOf pre' with
      | none => rfl
      | some b' => rw [hb'] at hblk; cases hblk
    | some b =>
      rw [hb] at hblk
      cases hb' : blockOf pre' with
      | none => rw [hb'] at hblk; cases hblk
      | some b' =>
        cases hi : (active pre).idxOf? p with
        | none => rfl
        | some i =>
          cases hm : layoutOf (entries pre) p with
          | none => rfl
          | some m =>
            dsimp only
            unfold DataBlock.samples
            apply List.map_congr_left
            intro n hn
            have hi' := getElem?_of_idxOf? hi
            have hpact : p ∈ active pre := List.mem_of_getElem? hi'
            rw [hv k pre pre' b b' hk hk' hb hb' p i m n hi' hm (List.mem_range.mp hn)]
            split
            · rename_i heq; rw [heq]
            · rename_i hne
              rw [decode_swapped al ty (hd pre (List.mem_of_getElem? hk) hpact m hm) hne]
              exact List.length_take_le _ _

end Tedium
