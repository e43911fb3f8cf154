import Verif.Proofs.Kept
import Verif.Props.Work
import Verif.Props.Open

/-! # How much an open file keeps in memory (C79) -/

namespace Tedium
open SegSpec

/-- **C79, blocks.** Whatever bytes a file has: an open file keeps at most one data block for every 28 bytes of it. -/
theorem kept_blocks {al : Alloc} {f : Bytes} {t : TdmsFile} (h : TdmsFile.new al f = .ok t) :
    28 * t.index.dataBlocks.length ≤ f.length := by
  obtain ⟨_, segs, hp, hr⟩ := (open_is_replay al f t).mp h
  have h1 := blocks_le_segments segs Inv.new hr
  have h2 : Index.new.dataBlocks.length = 0 := rfl
  rcases hp.length with h3 | h3
  · subst h3
    simp only [List.length_nil] at h1
    omega
  · omega

/-- **C79, names and properties.** All names, paths and properties of an open file together take at most as much as the file,
    for each of the segments it has room for. -/
theorem kept_objects {al : Alloc} {f : Bytes} {t : TdmsFile} (h : TdmsFile.new al f = .ok t) :
    Kept.objects t.index ≤ f.length / 28 * f.length := by
  obtain ⟨_, segs, hp, hr⟩ := (open_is_replay al f t).mp h
  have h1 := (kept_replay segs Inv.new hr).2
  have h2 := parses_kept hp
  have h3 : Kept.objects Index.new = 0 := rfl
  have h4 : segs.length ≤ f.length / 28 := by
    rcases hp.length with h4 | h4
    · subst h4; exact Nat.zero_le _
    · rw [Nat.le_div_iff_mul_le (by omega)]; omega
  have h5 := Nat.mul_le_mul_right f.length h4
  omega

/-- **C79, names and properties.** They take at most as much as the file, if no segment has metadata reaching into the next
    one. -/
theorem kept_objects_orderly {al : Alloc} {f : Bytes} {t : TdmsFile} (h : TdmsFile.new al f = .ok t) (ho : Orderly al f) :
    Kept.objects t.index ≤ f.length := by
  obtain ⟨_, segs, hp, hr⟩ := (open_is_replay al f t).mp h
  have h1 := (kept_replay segs Inv.new hr).2
  have h3 : Kept.objects Index.new = 0 := rfl
  have h4 := sum_entries_le segs
  rcases parses_kept_orderly ho hp .first with h2 | h2
  · subst h2
    simp only [List.map_nil, List.sum_nil] at h1
    omega
  · omega

/-- **C79, tables.** A channel has at most one entry for each block, a block at most one for each object. -/
theorem kept_entries {al : Alloc} {f : Bytes} {t : TdmsFile} (h : TdmsFile.new al f = .ok t) :
    (∀ c ls, t.index.getChannelDataPositions c = some ls → ls.length ≤ t.index.dataBlocks.length) ∧
    (∀ b ∈ t.index.dataBlocks, b.channels.length ≤ t.index.objects.length) := by
  obtain ⟨_, segs, hp, hr⟩ := (open_is_replay al f t).mp h
  have hi := (kept_replay segs Inv.new hr).1
  refine ⟨?_, (channels_replay segs Inv.new (by intro b hb; cases hb) hr)⟩
  intro c ls hls
  unfold Index.getChannelDataPositions at hls
  cases ho : t.index.objects.get? c.path with
  | none => rw [ho] at hls; cases hls
  | some o =>
    rw [ho] at hls
    cases hls
    exact locations_le hi ho

/-- **C79, tables.** Together the tables have at most twice as many entries as there are blocks times objects; so in all an
    open file keeps an amount that is bounded by its size. -/
theorem kept_tables {al : Alloc} {f : Bytes} {t : TdmsFile} (h : TdmsFile.new al f = .ok t) :
    Kept.tables t.index ≤ 2 * (t.index.dataBlocks.length * t.index.objects.length) ∧
    12 * t.index.objects.length ≤ Kept.objects t.index := by
  obtain ⟨_, segs, hp, hr⟩ := (open_is_replay al f t).mp h
  have hi := (kept_replay segs Inv.new hr).1
  obtain ⟨_, h2⟩ := kept_entries h
  have h1 : ∀ o ∈ t.index.objects, o.2.dataLocations.length ≤ t.index.dataBlocks.length :=
    fun o ho => locations_le hi (SMap.sorted_mem_get? hi.sorted ho)
  have e1 := sum_le_mul (fun b : DataBlock => b.channels.length) _ _ h2
  have e2 := sum_le_mul (fun o : Text × ObjectData => o.2.dataLocations.length) _ _ h1
  refine ⟨?_, ?_⟩
  · unfold Kept.tables
    rw [Nat.mul_comm t.index.objects.length] at e2
    omega
  · unfold Kept.objects
    exact mul_le_sum _ _ _ (fun o _ => by omega)

/-- The file of the work example, with a segment that gives the file a property. -/
def keptFile : Bytes :=
  let md : MetaData := ⟨[⟨PropertyPath.file.path, [("author".toList, .string "Ada".toList)], .none⟩]⟩
  workFile ++ FileSegment.encode ⟨.little, { containsMetaData := true }, 4713, md.size, md, []⟩

/-- The file meets the condition: 295 bytes, two blocks of two channels, and names and properties of 70 bytes. -/
theorem kept_example :
    Orderly anyAlloc keptFile ∧ keptFile.length = 295 ∧
    ∃ t, TdmsFile.new anyAlloc keptFile = .ok t ∧ t.index.dataBlocks.length = 2 ∧ t.index.objects.length = 3 ∧
      Kept.objects t.index = 70 ∧ Kept.tables t.index = 8 := by
  refine ⟨orderly_of (fuel := 4) (by decide +kernel), by decide +kernel, ?_⟩
  obtain ⟨t, ht, h⟩ := ok_and (x := TdmsFile.new anyAlloc keptFile)
    (P := fun t => decide (t.index.dataBlocks.length = 2 ∧ t.index.objects.length = 3 ∧ Kept.objects t.index = 70 ∧
      Kept.tables t.index = 8)) (by decide +kernel)
  exact ⟨t, ht, of_decide_eq_true h⟩

/-! ### Metadata that reaches into the next segment -/

/-- The path of the only object of the first segment of this file is a whole segment, which is taken for the second
    one. -/
def nestedFile (n : Nat) : Bytes :=
  let name : Bytes := List.replicate n 0x61
  tdsmTag ++ (ToC.asBytes { containsMetaData := true } ++ (encNat .little 4 4713 ++ (encNat .little 8 8 ++ (encNat .little 8 0 ++
    (encNat .little 4 1 ++ (encNat .little 4 (36 + n) ++
      (tdsmTag ++ (ToC.asBytes { containsMetaData := true } ++ (encNat .little 4 4713 ++ (encNat .little 8 (16 + n) ++
        (encNat .little 8 0 ++ (encNat .little 4 1 ++ (encNat .little 4 n ++ (name ++
      (encNat .little 4 0xFFFFFFFF ++ encNat .little 4 0)))))))))))))))

/-- Without the condition it is not linear: here the names take more than the file. -/
theorem kept_objects_linear_counterexample :
    (nestedFile 40).length = 120 ∧
    ∃ t, TdmsFile.new anyAlloc (nestedFile 40) = .ok t ∧ Kept.objects t.index = 140 := by
  refine ⟨by decide +kernel, ?_⟩
  obtain ⟨t, ht, h⟩ := ok_and (x := TdmsFile.new anyAlloc (nestedFile 40))
    (P := fun t => decide (Kept.objects t.index = 140)) (by decide +kernel)
  exact ⟨t, ht, of_decide_eq_true h⟩

end Tedium
