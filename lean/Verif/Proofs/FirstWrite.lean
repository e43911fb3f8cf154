import Verif.Proofs.Frame
import Verif.Proofs.SingleFile
import Verif.Proofs.Codec

/-! # Helper lemmas: one write of one channel to a new file, for any type -/

namespace Tedium
open SegSpec WriteSpec

section
variable {α : Type} (S : Storage α) (e : Endian)

/-- The metadata of the first write. -/
def firstMeta (c : ChannelPath) (n : Nat) : MetaData :=
  { objects := [{ path := c.path, properties := [], rawDataIndex := .rawData (writtenFormat S n) }] }

/-- The segment of the first write. -/
def firstSegment (c : ChannelPath) (vals : List α) (layout : DataLayout) : Segment × Bytes :=
  writeSegment e { containsNewObjectList := true, dataIsInterleaved := decide (layout = .interleaved) }
    (some (firstMeta S c vals.length)) (some (TdmsFile.sliceData S e vals))

theorem firstWrite_eq (c : ChannelPath) (vals : List α) (layout : DataLayout) :
    TdmsFile.writeChannels S e ⟨Index.new, []⟩ [c] vals layout =
      ((Index.new.addSegment (firstSegment S e c vals layout).1).1.map (fun _ => ()),
        ⟨(Index.new.addSegment (firstSegment S e c vals layout).1).2, (firstSegment S e c vals layout).2⟩) := by
  unfold TdmsFile.writeChannels
  rw [if_neg (by simp), if_neg (by simp [Nat.mod_one])]
  have h1 : vals.length / [c].length = vals.length := by simp
  dsimp only [TdmsFile.dataStructure]
  rw [h1]
  rfl

/-- The block of the first write. -/
def firstBlock (c : ChannelPath) (vals : List α) (layout : DataLayout) : DataBlock where
  start := (firstMeta S c vals.length).size + 28 + 0
  length := (firstMeta S c vals.length).size + S.memSize * vals.length - (firstMeta S c vals.length).size
  layout := layout
  channels := [writtenFormat S vals.length]
  byteOrder := e

/-- As many chunks as the index finds in that block. -/
def firstChunks (n : Nat) : Nat := S.memSize * n / (n * S.natural.size)

/-- What the index knows of the channel. -/
def firstObject (c : ChannelPath) (n : Nat) (ls : List DataLocation) : ObjectData :=
  ⟨c.path, [], ls, some (writtenFormat S n)⟩

/-- The index after the first write. -/
def firstIndex (c : ChannelPath) (vals : List α) (layout : DataLayout) : Index where
  activeObjects := [⟨c.path, vals.length⟩]
  objects := [(c.path, firstObject S c vals.length [⟨0, 0, vals.length * firstChunks S vals.length⟩])]
  dataBlocks := [firstBlock S e c vals layout]
  nextSegmentStart := 0 + ((firstMeta S c vals.length).size + S.memSize * vals.length + 28)

theorem firstWrite_index (c : ChannelPath) (vals : List α) (layout : DataLayout) (hv : vals ≠ []) (hm : 0 < S.memSize)
    (hs : S.natural.size ≤ S.memSize)
    (hb : (firstMeta S c vals.length).size + 28 + S.memSize * vals.length < 2 ^ 64) :
    Index.new.addSegment (firstSegment S e c vals layout).1 =
      (.ok (firstIndex S e c vals layout).nextSegmentStart, firstIndex S e c vals layout) := by
  have hn : 0 < vals.length := List.length_pos_iff.mpr hv
  have hmn : 0 < S.memSize * vals.length := Nat.mul_pos hm hn
  have hsn : vals.length * S.natural.size ≤ S.memSize * vals.length := by
    rw [Nat.mul_comm]; exact Nat.mul_le_mul_right _ hs
  have hu : u64Lim = 2 ^ 64 := rfl
  have hblk : DataBlock.fromSegment (firstSegment S e c vals layout).1 0 [writtenFormat S vals.length]
      = .ok (firstBlock S e c vals layout) := by
    have h1 : (firstSegment S e c vals layout).1.rawDataOffset = (firstMeta S c vals.length).size := rfl
    have h2 : (firstSegment S e c vals layout).1.nextSegmentOffset =
      (firstMeta S c vals.length).size + S.memSize * vals.length := rfl
    unfold DataBlock.fromSegment
    rw [h1, h2]
    have h3 : (firstMeta S c vals.length).size + leadInBytes + 0 < u64Lim := by
      show (firstMeta S c vals.length).size + 28 + 0 < 2 ^ 64
      omega
    have h4 : ¬ (firstMeta S c vals.length).size > (firstMeta S c vals.length).size + S.memSize * vals.length := by omega
    have h5 : ¬ (firstMeta S c vals.length).size + S.memSize * vals.length - (firstMeta S c vals.length).size = 0 := by omega
    dsimp only
    rw [if_neg h4, if_neg h5, if_neg (by simp), if_pos h3]
    unfold firstBlock
    cases e <;> cases layout <;> rfl
  have hch : (firstBlock S e c vals layout).numberOfChunks = .ok (firstChunks S vals.length) := by
    unfold DataBlock.numberOfChunks DataBlock.chunkSize firstBlock
    dsimp only [DataBlock.chunkSizeFrom, writtenFormat]
    rw [if_pos (by omega)]
    dsimp only [ChunkSize.combine, chunkAdd]
    rw [if_pos (by omega)]
    dsimp only [bind, Except.bind, pure, Except.pure]
    rw [Nat.zero_add]
    unfold firstChunks
    rw [Nat.add_sub_cancel_left]
    cases vals.length * S.natural.size with
    | zero => simp
    | succ k => rfl
  have hcl : vals.length * firstChunks S vals.length < u64Lim := by
    unfold firstChunks
    rcases Nat.eq_zero_or_pos S.natural.size with h0 | h0
    · rw [h0]; simp
    · have h1 : vals.length * (S.memSize * vals.length / (vals.length * S.natural.size)) ≤ S.memSize * vals.length := by
        refine Nat.le_trans (Nat.mul_le_mul_right _ (Nat.le_mul_of_pos_right vals.length h0)) (Nat.mul_div_le _ _)
      omega
  have hobj : Index.addObjects Index.new.deactivateAllObjects (firstMeta S c vals.length).objects =
      (.ok (), ⟨[⟨c.path, vals.length⟩], [(c.path, firstObject S c vals.length [])], [], 0⟩) := by
    unfold firstMeta
    dsimp only [Index.addObjects]
    have : Index.updateOrActivateDataObject Index.new.deactivateAllObjects
        { path := c.path, properties := [], rawDataIndex := .rawData (writtenFormat S vals.length) } =
      (.ok (), ⟨[⟨c.path, vals.length⟩], [(c.path, firstObject S c vals.length [])], [], 0⟩) := by
      unfold Index.updateOrActivateDataObject
      dsimp only [Index.new, Index.deactivateAllObjects, List.find?, Index.updateMetaObject, SMap.get?,
        ObjectData.fromMetadata, SMap.insert]
      simp [Index.channelFormat, SMap.get?, ActiveObject.new, writtenFormat, firstObject, ObjectData.update, dataFormatFromIndex, ObjectData.insertProps]
    rw [this]
  unfold Index.addSegment
  have htoc : (firstSegment S e c vals layout).1.toc.containsNewObjectList = true := rfl
  have hmd : (firstSegment S e c vals layout).1.metaData = some (firstMeta S c vals.length) := rfl
  dsimp only
  rw [htoc, if_pos rfl, hmd]
  dsimp only
  rw [hobj]
  dsimp only
  unfold Index.addRawData
  rw [if_pos (show (firstSegment S e c vals layout).1.toc.containsRawData = true from rfl)]
  have hact : Index.activeRawDataMeta [(c.path, firstObject S c vals.length [])] [⟨c.path, vals.length⟩] = .ok [writtenFormat S vals.length] := by
    simp [Index.activeRawDataMeta, SMap.get?, firstObject, bind, Except.bind, pure, Except.pure]
  dsimp only [Index.new]
  rw [hact]
  dsimp only
  rw [if_neg (by simp), hblk]
  dsimp only [Index.insertDataBlock]
  rw [hch]
  dsimp only [Index.addLocations]
  rw [if_pos hcl]
  have hget : SMap.get? c.path [(c.path, firstObject S c vals.length [])] = some (firstObject S c vals.length []) := by
    simp [SMap.get?]
  have hins : SMap.insert c.path (firstObject S c vals.length [⟨0, 0, vals.length * firstChunks S vals.length⟩])
      [(c.path, firstObject S c vals.length [])]
      = [(c.path, firstObject S c vals.length [⟨0, 0, vals.length * firstChunks S vals.length⟩])] := by
    unfold SMap.insert
    rw [textCmp_refl]
  rw [hget]
  dsimp only
  rw [show (firstObject S c vals.length []).addDataLocation
      { dataBlock := List.length [], channelIndex := 0, numberOfSamples := vals.length * firstChunks S vals.length }
      = firstObject S c vals.length [⟨0, 0, vals.length * firstChunks S vals.length⟩] from rfl, hins]
  unfold Index.advance Segment.totalSizeBytes
  rw [show (firstSegment S e c vals layout).1.nextSegmentOffset =
    (firstMeta S c vals.length).size + S.memSize * vals.length from rfl]
  rw [if_pos (show (firstMeta S c vals.length).size + S.memSize * vals.length + leadInBytes < u64Lim by
    show (firstMeta S c vals.length).size + S.memSize * vals.length + 28 < 2 ^ 64
    omega)]
  dsimp only
  rw [if_pos (show 0 + ((firstMeta S c vals.length).size + S.memSize * vals.length + leadInBytes) < u64Lim by
    show 0 + ((firstMeta S c vals.length).size + S.memSize * vals.length + 28) < 2 ^ 64
    omega)]
  rfl

/-- Values that stand one after the other are read one after the other. -/
theorem valuesRead_values {k : α → α} {f : Bytes} : ∀ (n : Nat) (vals : List α) (p : Nat),
    (∀ v ∈ vals, Reads (S.read e) (S.write e v) (k v)) → At f p (vals.flatMap (S.write e)) → n ≤ vals.length →
    valuesRead S e n f p = .ok ((vals.take n).map k, p + ((vals.take n).flatMap (S.write e)).length) := by
  intro n
  induction n with
  | zero => intro vals p _ _ _; rfl
  | succ n ih =>
    intro vals p hr hat hn
    cases vals with
    | nil => cases hn
    | cons v vals =>
      rw [List.flatMap_cons, At.append] at hat
      unfold valuesRead
      rw [Rd.bind_ok (hr v List.mem_cons_self f p hat.1),
        Rd.bind_ok (ih vals _ (fun w hw => hr w (List.mem_cons_of_mem _ hw)) hat.2 (by simpa using hn))]
      rw [Rd.pure_apply, List.take_succ_cons, List.map_cons, List.flatMap_cons, List.length_append, Nat.add_assoc]

theorem interOne_values {k : α → α} {f : Bytes} (vals : List α) : ∀ (row cells p : Nat),
    (∀ v ∈ vals, Reads (S.read e) (S.write e v) (k v)) → At f p (vals.flatMap (S.write e)) →
    ∃ q, interOne S e [] [] 0 vals.length row cells f p = .ok ((vals.take cells).map k, q) := by
  induction vals with
  | nil => intro row cells p _ _; exact ⟨p, by simp [interOne]⟩
  | cons v vals ih =>
    intro row cells p hr hat
    rw [List.flatMap_cons, At.append] at hat
    rw [List.length_cons]
    unfold interOne
    have hrow : rowOne S e [] [] f p = .ok (k v, p + (S.write e v).length) := by
      unfold rowOne
      rw [Rd.bind_ok (show skipRow S ([] : List (RecordEntry α)) f p = .ok ((), p) from rfl),
        Rd.bind_ok (hr v List.mem_cons_self f p hat.1),
        Rd.bind_ok (show skipRow S ([] : List (RecordEntry α)) f _ = .ok ((), _) from rfl)]
      rfl
    rw [Rd.bind_ok hrow]
    cases cells with
    | zero => rw [if_neg (by simp)]; exact ⟨_, rfl⟩
    | succ cells =>
      rw [if_pos (by simp)]
      obtain ⟨q, hq⟩ := ih (row + 1) cells _ (fun w hw => hr w (List.mem_cons_of_mem _ hw)) hat.2
      rw [Nat.add_sub_cancel, Rd.bind_ok hq]
      exact ⟨q, rfl⟩

/-- Reading the block of the first write. -/
theorem firstBlock_read {k : α → α} (c : ChannelPath) (vals : List α) (layout : DataLayout) (cells : Nat) (f : Bytes)
    (hv : vals ≠ []) (hm : 0 < S.memSize) (hsup : S.supported.contains S.natural = true)
    (hb : f.length + S.memSize * vals.length < 2 ^ 63)
    (hr : ∀ v ∈ vals, Reads (S.read e) (S.write e v) (k v))
    (hat : At f ((firstMeta S c vals.length).size + 28 + 0) (vals.flatMap (S.write e)))
    (hin : (firstMeta S c vals.length).size + 28 + (vals.flatMap (S.write e)).length ≤ f.length) :
    blockOne S f (firstBlock S e c vals layout) 0 0 cells = .ok ((vals.take cells).map k) := by
  have hn : 0 < vals.length := List.length_pos_iff.mpr hv
  have hmn : 0 < S.memSize * vals.length := Nat.mul_pos hm hn
  unfold blockOne firstBlock
  dsimp only [writtenFormat, List.getElem?_cons_zero]
  rw [if_pos hsup, Nat.add_sub_cancel_left]
  have hpre : baseRecord (List.take 0 [({ dataType := S.natural, numberOfValues := vals.length, totalSizeBytes := none } : RawDataMeta)])
    = ([] : List (RecordEntry α)) := rfl
  have hpost : baseRecord (List.drop (0 + 1) [({ dataType := S.natural, numberOfValues := vals.length, totalSizeBytes := none } : RawDataMeta)])
    = ([] : List (RecordEntry α)) := rfl
  cases layout with
  | contigious =>
    dsimp only
    rw [hpre, hpost]
    unfold contigBlockOne
    have hbs : blockSize S (onePlan ([] : List (RecordEntry α)) [] vals.length 0 0 ⟨[], []⟩) = .ok (S.memSize * vals.length) := by
      unfold blockSize
      have : ((onePlan ([] : List (RecordEntry α)) [] vals.length 0 0 ⟨[], []⟩).map
        (fun e => e.plan.sizeBytes S * e.length)).sum = S.memSize * vals.length := by
        simp [onePlan, EntryPlan.sizeBytes]
      dsimp only
      rw [this, if_pos (by show _ < 2 ^ 64; omega)]
    have hfl : firstLength (onePlan ([] : List (RecordEntry α)) [] vals.length 0 0 ⟨[], []⟩) = .ok vals.length := rfl
    rw [hbs, hfl]
    have hd1 : divR (S.memSize * vals.length) (S.memSize * vals.length) = .ok 1 := by
      unfold divR; rw [if_neg (by omega), Nat.div_self hmn]
    have hd2 : divR 0 vals.length = .ok 0 := by
      unfold divR; rw [if_neg (by omega), Nat.zero_div]
    have hlift : ∀ {β : Type} (a : β) (f : Bytes) (p : Nat), Rd.lift (.ok a) f p = .ok (a, p) := fun _ _ _ => rfl
    rw [Rd.bind_ok (show Rd.seek _ f 0 = .ok ((), _) from rfl), Rd.bind_ok (hlift _ f _)]
    rw [hd1, Rd.bind_ok (hlift _ f _), Rd.bind_ok (hlift _ f _), hd2, Rd.bind_ok (hlift _ f _)]
    unfold contigOne
    rw [if_neg (by omega), if_pos rfl, Nat.zero_mod]
    have hsub : ∃ q, subOne S e [] [] vals.length 0 cells f ((firstMeta S c vals.length).size + 28 + 0)
        = .ok ((vals.take cells).map k, q) := by
      unfold subOne
      rw [Rd.bind_ok (show skipAll S ([] : List (RecordEntry α)) f _ = .ok ((), _) from rfl)]
      rw [if_neg (by simp)]
      dsimp only
      rw [Nat.zero_min, Nat.sub_zero]
      unfold seqOne
      have h1 := valuesRead_values S e (min vals.length cells) vals _ hr hat (Nat.min_le_left _ _)
      have h2 : vals.take (min vals.length cells) = vals.take cells := by
        rcases Nat.le_total cells vals.length with h | h
        · rw [Nat.min_eq_right h]
        · rw [Nat.min_eq_left h, List.take_of_length_le h, List.take_length]
      rw [h2] at h1
      have hlen : ((vals.take cells).flatMap (S.write e)).length ≤ (vals.flatMap (S.write e)).length := by
        conv => rhs; rw [← List.take_append_drop cells vals, List.flatMap_append, List.length_append]
        exact Nat.le_add_right _ _
      have hseq : ∃ q, (do
          let vs ← valuesRead S e (min vals.length cells)
          if vals.length - vs.length > 0 then
            let off ← Rd.lift (mulI64 (toI64 (vals.length - vs.length)) (toI64 S.memSize))
            Rd.move off
          return vs) f ((firstMeta S c vals.length).size + 28 + 0) = .ok ((vals.take cells).map k, q) := by
        rw [Rd.bind_ok h1]
        split
        · rename_i hgt
          rw [List.length_map, List.length_take] at hgt ⊢
          have hvl : vals.length ≤ S.memSize * vals.length := Nat.le_mul_of_pos_left _ hm
          have hml : S.memSize ≤ S.memSize * vals.length := Nat.le_mul_of_pos_right _ hn
          have hle : (vals.length - min cells vals.length) * S.memSize ≤ S.memSize * vals.length := by
            rw [Nat.mul_comm]; exact Nat.mul_le_mul_left _ (Nat.sub_le _ _)
          have hmul : mulI64 (toI64 (vals.length - min cells vals.length)) (toI64 S.memSize)
              = .ok (((vals.length - min cells vals.length) * S.memSize : Nat) : Int) := by
            have t1 : toI64 (vals.length - min cells vals.length) = ((vals.length - min cells vals.length : Nat) : Int) := by
              unfold toI64; rw [if_pos (by omega)]
            have t2 : toI64 S.memSize = (S.memSize : Int) := by
              unfold toI64; rw [if_pos (by omega)]
            unfold mulI64
            rw [t1, t2, ← Int.natCast_mul, if_pos (by omega)]
          rw [hmul]
          rw [Rd.bind_ok (show Rd.lift (.ok _) f _ = .ok (_, _) from rfl)]
          have hmv : ∀ p : Nat, p ≤ f.length → Rd.move (((vals.length - min cells vals.length) * S.memSize : Nat) : Int) f p
              = .ok ((), p + (vals.length - min cells vals.length) * S.memSize) := by
            intro p hp
            unfold Rd.move
            dsimp only
            rw [if_neg (by omega)]
            rw [← Int.natCast_add, Int.toNat_natCast]
          rw [Rd.bind_ok (hmv _ (by omega))]
          exact ⟨_, rfl⟩
        · exact ⟨_, rfl⟩
      obtain ⟨q, hq⟩ := hseq
      rw [Rd.bind_ok hq, Rd.bind_ok (show skipAll S ([] : List (RecordEntry α)) f _ = .ok ((), _) from rfl)]
      exact ⟨q, rfl⟩
    obtain ⟨q, hq⟩ := hsub
    rw [Rd.bind_ok hq]
    unfold contigOne
    rw [Rd.bind_ok (Rd.pure_apply _ _ _), Rd.pure_apply]
    show Except.ok _ = _
    rw [List.append_nil]
  | interleaved =>
    dsimp only
    rw [hpre, hpost]
    unfold interBlockOne
    have hrs : rowSize S (onePlan ([] : List (RecordEntry α)) [] vals.length 0 0 ⟨[], []⟩) = S.memSize := by
      simp [rowSize, onePlan, EntryPlan.sizeBytes]
    rw [hrs]
    have hd1 : divR (S.memSize * vals.length) S.memSize = .ok vals.length := by
      unfold divR; rw [if_neg (by omega), Nat.mul_div_cancel_left _ hm]
    rw [hd1]
    rw [Rd.bind_ok (show Rd.seek _ f 0 = .ok ((), _) from rfl)]
    rw [Rd.bind_ok (show Rd.lift (.ok vals.length) f _ = .ok (vals.length, _) from rfl)]
    rw [if_neg (by omega)]
    dsimp only
    rw [Nat.sub_zero]
    obtain ⟨q, hq⟩ := interOne_values S e vals 0 cells _ hr hat
    rw [hq]
    rfl

end
end Tedium
