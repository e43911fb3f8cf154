import Verif.Proofs.Work
import Verif.Props.Open

/-!
# How much work is done to open and to read a file
-/

namespace Tedium
open SegSpec

/-- **C66, opening.** Whatever bytes a file has, trying to open it takes a number of operations on the stream that is at most
    quadratic in its length. -/
theorem open_work (al : Alloc) (f : Bytes) :
    Work.opening al f ≤ 1 + (f.length / 28 + 1) * (f.length + 2) :=
  Nat.add_le_add_left (openLoop_work al f _ _ _) 1

/-- **C66, opening.** It is linear in the length if no segment has metadata reaching into the next one. -/
theorem open_work_orderly {al : Alloc} {f : Bytes} (h : Orderly al f) :
    Work.opening al f ≤ f.length + f.length / 28 + 3 := by
  have := openLoop_work_orderly h (f.length / 28 + 1) 0 Index.new .first rfl
  unfold Work.opening
  show 1 + Work.openLoop al f (f.length / 28 + 1) 0 Index.new ≤ _
  omega

/-- **C66, reading.** In every state of a file, reading any channels from any sample on takes a number of operations that is
    bounded by the declared lengths of its data blocks and the number of channels in them. -/
theorem read_channels_work {al : Alloc} {t : TdmsFile} (hs : Session al t) (ty : STy) (cs : List ChannelPath) (start : Nat)
    (outs : List (List ty.Val)) :
    Work.channels al ty t cs start outs ≤ (t.index.dataBlocks.map (fun b => 2 + b.length * (2 + 2 * b.channels.length))).sum :=
  channels_work hs ty cs start outs

/-- **C66, reading.** The same for one channel. -/
theorem read_channel_work {al : Alloc} {t : TdmsFile} (hs : Session al t) (ty : STy) (c : ChannelPath) (start : Nat)
    (out : List ty.Val) :
    Work.channel al ty t c start out ≤ (t.index.dataBlocks.map (fun b => 2 + b.length * (2 + 2 * b.channels.length))).sum :=
  channel_work hs ty c start out

/-- **C66, reading, what is true of the size.** If the declared end of the last segment of a file is not behind the end of
    the file, then reading takes work linear in the length of the file, for a fixed number of channels in a block. Missing:
    files cut off in their data, for which it is false. -/
theorem read_work_partial {al : Alloc} {f : Bytes} {t : TdmsFile} (h : TdmsFile.new al f = .ok t)
    (hend : t.index.nextSegmentStart ≤ f.length) {C : Nat} (hC : ∀ b ∈ t.index.dataBlocks, b.channels.length ≤ C)
    (ty : STy) (cs : List ChannelPath) (start : Nat) (outs : List (List ty.Val)) :
    Work.channels al ty t cs start outs ≤ f.length * (2 + 2 * C) := by
  refine Nat.le_trans (channels_work (.opened h) ty cs start outs) ?_
  refine Nat.le_trans (sum_blockBound _ hC) ?_
  exact Nat.mul_le_mul_right _ (Nat.le_trans (opened_sized h) hend)

/-! ## Examples -/

/-- Is every segment from here on followed by the next one after its metadata? -/
def orderly? (al : Alloc) (f : Bytes) : (fuel pos : Nat) → Bool
  | 0, _ => false
  | fuel + 1, pos =>
    match Segment.read al f pos with
    | .error _ => true
    | .ok (s, q) => decide (q ≤ pos + (28 + s.nextSegmentOffset)) && orderly? al f fuel (pos + (28 + s.nextSegmentOffset))

theorem orderly_of {al : Alloc} {f : Bytes} {fuel : Nat} (h : orderly? al f fuel 0 = true) : Orderly al f := by
  have key : ∀ p, Starts al f p → ∃ n, orderly? al f n p = true := by
    intro p hp
    induction hp with
    | first => exact ⟨fuel, h⟩
    | next _ hr ih =>
      obtain ⟨n, hn⟩ := ih
      cases n with
      | zero => cases hn
      | succ n =>
        unfold orderly? at hn
        rw [hr] at hn
        exact ⟨n, (Bool.and_eq_true_iff.mp hn).2⟩
  intro p s q hp hr
  obtain ⟨n, hn⟩ := key p hp
  cases n with
  | zero => cases hn
  | succ n =>
    unfold orderly? at hn
    rw [hr] at hn
    exact of_decide_eq_true (Bool.and_eq_true_iff.mp hn).1

/-- A file of two segments with two channels of two and one values, in three chunks and in one. -/
def workFile : Bytes := fileOf [dataSegment .little false [("a", .u8, 2), ("b", .u16, 1)] (List.replicate 12 0),
  dataSegment .big true [("a", .u8, 1), ("b", .u16, 1)] (List.replicate 9 1)]

theorem ok_and {α : Type} {x : R α} {P : α → Bool} (h : (match x with | .ok a => P a | .error _ => false) = true) :
    ∃ a, x = .ok a ∧ P a = true := by
  cases x with
  | ok a => exact ⟨a, rfl, h⟩
  | error e => cases h

/-- The example meets the conditions. Opening it takes 44 operations; reading the last values of a channel takes 13, in
    which the first block is passed over chunk by chunk. -/
theorem work_example :
    Orderly anyAlloc workFile ∧ workFile.length = 229 ∧ Work.opening anyAlloc workFile = 44 ∧
    ∃ t, TdmsFile.new anyAlloc workFile = .ok t ∧ t.index.nextSegmentStart ≤ workFile.length ∧
      (∀ b ∈ t.index.dataBlocks, b.channels.length ≤ 2) ∧
      Work.channel anyAlloc .u8 t (.new "g".toList "a".toList) 3 [0#8, 0#8, 0#8, 0#8] = 13 := by
  refine ⟨orderly_of (fuel := 3) (by decide +kernel), by decide +kernel, by decide +kernel, ?_⟩
  obtain ⟨t, ht, h⟩ := ok_and (x := TdmsFile.new anyAlloc workFile)
    (P := fun t => decide (t.index.nextSegmentStart ≤ workFile.length ∧ (∀ b ∈ t.index.dataBlocks, b.channels.length ≤ 2) ∧
      Work.channel anyAlloc .u8 t (.new "g".toList "a".toList) 3 [0#8, 0#8, 0#8, 0#8] = 13)) (by decide +kernel)
  exact ⟨t, ht, of_decide_eq_true h⟩

/-- A file of one segment with one value, whose lead-in declares one exbibyte of data. -/
def vastFile : Bytes :=
  let s := dataSegment .little false [("a", .u8, 1)] []
  tdsmTag ++ (s.toc.asBytes ++ (encNat .little 4 4713 ++ (encNat .little 8 (s.metaData.size + 2 ^ 60) ++
    (encNat .little 8 s.metaData.size ++ (s.metaData.write .little ++ [7])))))

/-- its data block -/
def vastBlock : DataBlock :=
  { start := 68, length := 2 ^ 60, layout := .contigious, byteOrder := .little
    channels := [{ dataType := .u8, numberOfValues := 1, totalSizeBytes := none }] }

theorem vast_block_work (n : Nat) (hn : n + 70 < 2 ^ 63) :
    n ≤ Work.block anyAlloc .u8 vastFile { vastBlock with length := n + 1 } false [⟨0, 0, [0#8], 0⟩] := by
  have hplan : buildRecordPlan (STy.u8.storage anyAlloc) vastBlock.channels [⟨0, 0, [0#8], 0⟩] =
      .ok [⟨1, .read 0 ⟨[], [0#8]⟩ 0⟩] := rfl
  unfold Work.block
  show n ≤ match buildRecordPlan (STy.u8.storage anyAlloc) vastBlock.channels [⟨0, 0, [0#8], 0⟩] with
    | .error _ => 0
    | .ok plan => 1 + (Act.contigReadFrom (STy.u8.storage anyAlloc) (Act.value anyAlloc .u8 .little) (n + 1) plan 0).work vastFile 68
  rw [hplan]
  have hloop : Act.contigReadFrom (STy.u8.storage anyAlloc) (Act.value anyAlloc .u8 .little) (n + 1)
      [⟨1, .read 0 ⟨[], [0#8]⟩ 0⟩] 0 =
      Act.contigLoop (STy.u8.storage anyAlloc) (Act.value anyAlloc .u8 .little) 1 0 0 (n + 1) 0 [⟨1, .read 0 ⟨[], [0#8]⟩ 0⟩] 0 := by
    have hd : divR (n + 1) 1 = .ok (n + 1) := by
      unfold divR
      rw [if_neg (by decide), Nat.div_one]
    show (Act.lift (divR (n + 1) 1) >>= fun total => Act.contigLoop (STy.u8.storage anyAlloc)
      (Act.value anyAlloc .u8 .little) 1 0 0 total 0 [⟨1, .read 0 ⟨[], [0#8]⟩ 0⟩] 0) = _
    rw [hd]
    rfl
  dsimp only
  rw [hloop]
  have hfirst : Act.contigLoop (STy.u8.storage anyAlloc) (Act.value anyAlloc .u8 .little) 1 0 0 (n + 1) 0
      [⟨1, .read 0 ⟨[], [0#8]⟩ 0⟩] 0 =
      (Act.subBlock (STy.u8.storage anyAlloc) (Act.value anyAlloc .u8 .little) 0 [⟨1, .read 0 ⟨[], [0#8]⟩ 0⟩] >>= fun x =>
        Act.contigLoop (STy.u8.storage anyAlloc) (Act.value anyAlloc .u8 .little) 1 0 0 n 1 x.2 (0 + x.1)) := rfl
  have hden : (Act.subBlock (STy.u8.storage anyAlloc) (Act.value anyAlloc .u8 .little) 0
      [⟨1, .read 0 ⟨[], [0#8]⟩ 0⟩]).denote vastFile 68 = .ok ((1, [⟨1, .read 0 ⟨[7#8], []⟩ 0⟩]), 69) := by
    rfl
  rw [hfirst, Act.work_bind, hden]
  have := contigLoop_full (STy.u8.storage anyAlloc) rfl (Act.value anyAlloc .u8 .little) vastFile 0 [7#8] n 1 0 69 (0 + 1)
    (by omega) (by omega)
  exact Nat.le_trans this (Nat.le_trans (Nat.le_add_left _ _) (Nat.le_add_left _ _))

/-- **C66 is false of reading:** this file has 69 bytes and can be opened with 16 operations, but reading its one sample takes
    more than 2 ^ 59 operations. -/
theorem read_work_counterexample :
    vastFile.length = 69 ∧ Work.opening anyAlloc vastFile ≤ 16 ∧
    ∃ t, TdmsFile.new anyAlloc vastFile = .ok t ∧
      2 ^ 59 ≤ Work.channel anyAlloc .u8 t (.new "g".toList "a".toList) 0 [0#8] := by
  refine ⟨by decide +kernel, by decide +kernel, ?_⟩
  obtain ⟨t, ht, h⟩ := ok_and (x := TdmsFile.new anyAlloc vastFile)
    (P := fun t => decide (t.index.getChannelDataPositions (.new "g".toList "a".toList) = some [⟨0, 0, 2 ^ 60⟩] ∧
      t.index.dataBlocks = [vastBlock] ∧ t.bytes = vastFile)) (by decide +kernel)
  obtain ⟨h1, h2, h3⟩ := of_decide_eq_true h
  refine ⟨t, ht, ?_⟩
  have hplan : readPlan [[⟨0, 0, 2 ^ 60⟩]] 0 = .ok [⟨0, [some ⟨0, 0⟩]⟩] := by decide +kernel
  have hb : t.index.getDataBlock 0 = some { vastBlock with length := (2 ^ 60 - 1) + 1 } := by
    unfold Index.getDataBlock
    rw [h2]
    rfl
  have hw := vast_block_work (2 ^ 60 - 1) (by decide)
  unfold Work.channel
  rw [h1]
  dsimp only
  rw [hplan]
  dsimp only
  unfold Work.plan
  rw [hb]
  refine Nat.le_trans ?_ (Nat.le_add_right _ _)
  refine Nat.le_trans (show 2 ^ 59 ≤ 2 ^ 60 - 1 by decide) ?_
  rw [h3]
  exact hw

/-- An allocator that refuses tables of a million entries. -/
def modestAlloc : Alloc
  | .vec n => decide (n < 1000000)
  | _ => true

/-- A file of 32 bytes with a segment that is said to have `2 ^ 32 - 1` objects. -/
def manyObjectsFile : Bytes :=
  tdsmTag ++ (({ containsMetaData := true } : ToC).asBytes ++ (encNat .little 4 4713 ++ (encNat .little 8 4 ++
    (encNat .little 8 4 ++ encNat .little 4 (2 ^ 32 - 1)))))

/-- **C66 is false of memory:** to open a file of 32 bytes the library asks for a table of 2 ^ 32 - 1 entries: with that much
    memory it finds that the file ends too early, with less it reports that there is none. -/
theorem open_memory_counterexample :
    manyObjectsFile.length = 32 ∧
    TdmsFile.new modestAlloc manyObjectsFile = .error (.err .vecAllocationFailed) ∧
    TdmsFile.new anyAlloc manyObjectsFile = .error (.err (.ioError .unexpectedEof)) := by
  decide +kernel

end Tedium
