import Verif.Proofs.FileSegment
import Verif.Props.Listing
import Verif.Props.Index

/-! # C23-C26: opening files -/

namespace Tedium
open SegSpec

/-- A valid encoding of the example segments (both byte orders), for the examples below. -/
def exampleFile : List FileSegment :=
  [{ endian := .little
     toc := { containsMetaData := true, containsRawData := true, containsNewObjectList := true }
     version := 4713, rawOffset := 89
     metaData := { objects := [
       { path := "/'g'/'a'".toList, properties := [("u".toList, .i32 1)]
         rawDataIndex := .rawData { dataType := .doubleFloat, numberOfValues := 2 } },
       { path := "/'g'/'b'".toList, properties := [],
         rawDataIndex := .rawData { dataType := .i32, numberOfValues := 2 } }] }
     rest := List.replicate 48 7 },
   { endian := .big
     toc := { containsMetaData := true, containsRawData := true, bigEndian := true }
     version := 4712, rawOffset := 24
     metaData := { objects := [
       { path := "/'g'/'b'".toList, properties := [], rawDataIndex := .matchPrevious }] }
     rest := List.replicate 24 9 }]

theorem exampleFile_fits : ∀ s ∈ exampleFile, s.Fits := by
  intro s hs
  have hobj : ∀ s ∈ exampleFile, ∀ o ∈ s.metaData.objects, o.Fits := by
    intro s hs o ho
    simp only [exampleFile, List.mem_cons, List.not_mem_nil, or_false] at hs
    rcases hs with rfl | rfl
    all_goals
      simp only [List.mem_cons, List.not_mem_nil, or_false] at ho
    · rcases ho with rfl | rfl
      · refine ⟨by unfold Text.Fits; decide +kernel, by constructor <;> decide, by decide, ?_⟩
        intro p hp
        simp only [List.mem_cons, List.not_mem_nil, or_false] at hp
        subst hp
        exact ⟨by unfold Text.Fits; decide +kernel, trivial⟩
      · exact ⟨by unfold Text.Fits; decide +kernel, by constructor <;> decide, by decide, by simp⟩
    · subst ho
      exact ⟨by unfold Text.Fits; decide +kernel, trivial, by decide, by simp⟩
  have h := hs
  simp only [exampleFile, List.mem_cons, List.not_mem_nil, or_false] at h
  rcases h with rfl | rfl
  all_goals exact ⟨rfl, by decide, by decide, by decide +kernel, ⟨by decide, hobj _ hs⟩⟩

/-! ## C23 -/

/-- **C23.** Opening any byte string ends, after reading at most one segment per 28 bytes. -/
theorem open_terminates (al : Alloc) (f : Bytes) :
    TdmsFile.new al f ≠ .error .hang ∧
    ∃ segs last, Parses al f 0 segs last ∧ 28 * segs.length ≤ f.length := by
  obtain ⟨segs, last, hp⟩ := Parses.exists al f 0
  refine ⟨?_, segs, last, hp, ?_⟩
  · unfold TdmsFile.new
    rw [buildIndex_eq hp]
    unfold openResult
    have hrep : ∀ (segs : List Segment) (ix : Index), Reach ix → replay ix segs ≠ .error .hang := by
      intro segs
      induction segs with
      | nil => intro ix _ h; cases h
      | cons s ss ih =>
        intro ix hr h
        unfold replay at h
        have hadd := (hr.inv.addSegment s).2
        split at h
        · rename_i e ix2 heq
          rw [heq] at hadd
          rcases hadd with ⟨n, hn, _⟩ | ⟨e', he', hse, _⟩
          · cases hn
          · cases he'; cases h
            cases hse with
            | raw _ hre => cases hre
        · rename_i n ix2 heq
          have := Reach.add s hr
          rw [heq] at this
          exact ih _ this h
    intro h
    cases hr : replay Index.new segs with
    | error e => rw [hr] at h; cases h; exact hrep segs _ .new hr
    | ok ix =>
      rw [hr] at h
      dsimp only at h
      split at h
      · cases h
      · obtain ⟨t, ht⟩ := hp.last
        subst ht
        cases h
  · rcases hp.length with h | h
    · rw [h]; simp
    · omega

/-! ## C24 -/

/-- **C24** (guarded: no segment places its data block beyond 2^64, see
    `open_never_panics_counterexample`; otherwise exact). Opening returns a file or an error. -/
theorem open_never_panics_partial (al : Alloc) (f : Bytes) (segs : List Segment) (last : Fail)
    (hp : Parses al f 0 segs last)
    (hguard : ∀ pre s post, segs = pre ++ s :: post → s.toc.containsRawData = true →
      s.rawDataOffset < s.nextSegmentOffset → endOf pre + 28 + s.rawDataOffset < 2 ^ 64) :
    (∃ t, TdmsFile.new al f = .ok t) ∨ ∃ e, TdmsFile.new al f = R.err e := by
  have hrep : ∀ (done todo : List Segment) (ix : Index), segs = done ++ todo →
      replay Index.new done = .ok ix → (∃ ix', replay ix todo = .ok ix') ∨ ∃ e, replay ix todo = R.err e := by
    intro done todo
    induction todo generalizing done with
    | nil => intro ix _ _; exact Or.inl ⟨ix, rfl⟩
    | cons s ss ih =>
      intro ix hsplit hdone
      have hr : Reach ix := Reach.new.replay hdone
      have hn := (replay_refines hdone).next
      have hcat := replay_append Index.new done [s]
      rw [hdone] at hcat
      have hcat2 : replay Index.new (done ++ [s]) = (match ix.addSegment s with
          | (.error e, _) => .error e
          | (.ok _, ix) => .ok ix) := by
        rw [show replay Index.new (done ++ [s]) = replay ix [s] from hcat]; rfl
      unfold replay
      rcases (hr.inv.addSegment s).2 with ⟨n, hok, _⟩ | ⟨e, he, hse, _⟩
      · revert hok hcat2
        cases ix.addSegment s with
        | mk r ix2 =>
          intro hcat2 hok
          dsimp only at hok
          subst hok
          dsimp only at hcat2 ⊢
          exact ih (done ++ [s]) ix2 (by rw [hsplit]; simp) hcat2
      · revert he
        cases ix.addSegment s with
        | mk r ix2 =>
          intro he
          dsimp only at he
          subst he
          dsimp only
          cases hse with
          | noPrevious => exact Or.inr ⟨_, rfl⟩
          | address _ => exact Or.inr ⟨_, rfl⟩
          | raw hraw hre =>
            cases hre with
            | noChannels _ => exact Or.inr ⟨_, rfl⟩
            | rawOffset _ => exact Or.inr ⟨_, rfl⟩
            | zeroLength _ => exact Or.inr ⟨_, rfl⟩
            | chunk => exact Or.inr ⟨_, rfl⟩
            | overflow h1 h2 =>
              exfalso
              have hg := hguard done s ss hsplit hraw h1
              rw [(afterObjects_frame _ s).1, hn] at h2
              unfold leadInBytes at h2
              have : u64Lim = 2 ^ 64 := rfl
              omega
  unfold TdmsFile.new
  rw [buildIndex_eq hp]
  unfold openResult
  rcases hrep [] segs Index.new rfl rfl with ⟨ix, h⟩ | ⟨e, h⟩
  · rw [h]
    dsimp only
    split
    · exact Or.inl ⟨_, rfl⟩
    · obtain ⟨t, ht⟩ := hp.last
      rw [ht]
      exact Or.inr ⟨t, rfl⟩
  · rw [h]
    exact Or.inr ⟨e, rfl⟩

/-- The guard of C24 holds for the example file. -/
example : ∀ pre s post, exampleFile.map FileSegment.segment = pre ++ s :: post →
    s.toc.containsRawData = true → s.rawDataOffset < s.nextSegmentOffset →
    endOf pre + 28 + s.rawDataOffset < 2 ^ 64 := by
  have hall : ∀ s ∈ exampleFile.map FileSegment.segment, s.rawDataOffset < 100 := by decide +kernel
  intro pre s post h _ _
  have h1 := hall s (by rw [h]; simp)
  have h2 : endOf pre ≤ endOf (exampleFile.map FileSegment.segment) := by
    rw [h]; unfold endOf; simp
  have h3 : endOf (exampleFile.map FileSegment.segment) < 1000 := by decide +kernel
  omega

/-- The bytes of a file that makes `TdmsFile::new` panic: one channel, and a raw data offset close to
    2^64. -/
def panicFile : Bytes :=
  let o : ObjectMetaData :=
    { path := "/'g'/'c'".toList, properties := []
      rawDataIndex := .rawData { dataType := .i32, numberOfValues := 1 } }
  let md : MetaData := { objects := [o] }
  tdsmTag ++ ({ containsMetaData := true, containsRawData := true } : ToC).asBytes ++ encNat .little 4 4713
    ++ encNat .little 8 (2 ^ 64 - 1) ++ encNat .little 8 (2 ^ 64 - 10) ++ md.write .little

/-- C24 in full is false. -/
theorem open_never_panics_counterexample :
    TdmsFile.new anyAlloc panicFile = R.panic .overflow := by decide +kernel

/-! ## C25 -/

/-- **C25, any byte string.** A successful opening has added exactly the segments that the byte string
    holds, and the file ends with fewer than four further bytes. Conversely that is enough. -/
theorem open_is_replay (al : Alloc) (f : Bytes) (t : TdmsFile) :
    TdmsFile.new al f = .ok t ↔
      t.bytes = f ∧ ∃ segs, Parses al f 0 segs (.err .endOfFile) ∧ replay Index.new segs = .ok t.index := by
  constructor
  · exact opened
  · rintro ⟨hb, segs, hp, hr⟩
    unfold TdmsFile.new
    rw [buildIndex_eq hp]
    unfold openResult
    rw [hr]
    dsimp only
    rw [if_pos rfl]
    cases t
    dsimp only at hb
    subst hb
    rfl

/-- **C25, files made of segments.** Opening the concatenation of the encodings of segments gives the
    index obtained by adding these segments one after the other (or their first error). A tail
    shorter than four bytes is ignored, any other tail that does not start with the tag is reported
    as `HeaderPatternNotMatched`. -/
theorem open_segments (al : Alloc) (hal : Generous al) (fs : List FileSegment) (hf : ∀ s ∈ fs, s.Fits)
    (tail : Bytes) :
    (tail.length < 4 → buildIndex al (fs.flatMap FileSegment.encode ++ tail)
        = replay Index.new (fs.map FileSegment.segment)) ∧
    (4 ≤ tail.length → tail.take 4 ≠ [0x54, 0x44, 0x53, 0x6D] →
      buildIndex al (fs.flatMap FileSegment.encode ++ tail)
        = match replay Index.new (fs.map FileSegment.segment) with
          | .ok _ => R.err (.headerPatternNotMatched (tail.take 4))
          | .error e => .error e) := by
  constructor
  · intro ht
    have hp := FileSegment.parses_done al hal fs hf tail (read_short (al := al) _ _ ht)
    rw [buildIndex_eq hp]
    unfold openResult
    cases replay Index.new (fs.map FileSegment.segment) with
    | error e => rfl
    | ok ix => exact if_pos rfl
  · intro h4 ht
    have hp := FileSegment.parses_done al hal fs hf tail (read_foreign (al := al) _ _ h4 ht)
    rw [buildIndex_eq hp]
    unfold openResult
    cases replay Index.new (fs.map FileSegment.segment) with
    | error e => rfl
    | ok ix => exact if_neg (by simp)

/-- The library's own segments with metadata are of this kind. -/
theorem written_segment_is_file_segment (e : Endian) (toc : ToC) (m : MetaData) (data : Option DataToWrite)
    (hd : DataToWrite.optSize data = (DataToWrite.optBytes data).length) (hm : m.Fits)
    (hs : m.size + DataToWrite.optSize data < 2 ^ 64) :
    ∃ s : FileSegment, s.Fits ∧ s.encode = (writeSegment e toc (some m) data).2 ∧
      s.segment = (writeSegment e toc (some m) data).1 ∧ s.metaData = m ∧ s.rest = DataToWrite.optBytes data := by
  refine ⟨{ endian := e, toc := finalToC e toc (some m) data, version := 4713, rawOffset := m.size
            metaData := m, rest := DataToWrite.optBytes data },
    ⟨rfl, (by decide : 4713 < 2 ^ 32), ?_, ?_, hm⟩, ?_, ?_, rfl, rfl⟩
  · show m.size < _; omega
  · show m.size + _ < _; rw [← hd]; exact hs
  · rw [writeSegment_split]
    unfold FileSegment.encode FileSegment.head
    dsimp only
    rw [← hd]
  · unfold FileSegment.segment
    dsimp only
    rw [← hd]
    rfl

/-- The example file opens, also with trailing bytes, and both channels have their samples. -/
theorem exampleFile_opens :
    (do let t ← TdmsFile.new anyAlloc (exampleFile.flatMap FileSegment.encode ++ [1, 2, 3])
        return (← t.channelLength (.new "g".toList "a".toList), ← t.channelLength (.new "g".toList "b".toList)))
      = .ok (some 6, some 6) := by decide +kernel

/-! ## C26 -/

/-- **C26, opening** (partial: for files whose segments have a metadata section, which excludes some
    files the library writes itself, see C12; the data is in `truncated_data_partial`). Cut a file at
    any byte `o` of any of its segments: in the tag, the segment is not seen; in the rest of the
    lead-in or in the metadata, opening fails with an unexpected end of file; behind the metadata,
    the segment is seen like a complete one. -/
theorem open_truncated_partial (al : Alloc) (hal : Generous al) (pre : List FileSegment) (s : FileSegment)
    (post : List FileSegment) (hf : ∀ x ∈ pre, x.Fits) (hs : s.Fits) (o : Nat) (ho : o < s.encode.length) :
    buildIndex al (((pre ++ s :: post).flatMap FileSegment.encode).take
        ((pre.flatMap FileSegment.encode).length + o))
      = if o < 4 then replay Index.new (pre.map FileSegment.segment)
        else if o < 28 + s.metaData.size then
          (match replay Index.new (pre.map FileSegment.segment) with
           | .ok _ => R.err (.ioError .unexpectedEof)
           | .error e => .error e)
        else replay Index.new ((pre ++ [s]).map FileSegment.segment) := by
  have hfile : ((pre ++ s :: post).flatMap FileSegment.encode).take
        ((pre.flatMap FileSegment.encode).length + o)
      = pre.flatMap FileSegment.encode ++ s.encode.take o := by
    rw [List.flatMap_append, List.flatMap_cons, List.take_length_add_append,
      List.take_append_of_le_length (by omega)]
  rw [hfile]
  have hlen : (s.encode.take o).length = o := by rw [List.length_take]; omega
  have hread := FileSegment.read_at al hal s hs (pre.flatMap FileSegment.encode) s.rest
  by_cases h4 : o < 4
  · rw [if_pos h4]
    exact (open_segments al hal pre hf _).1 (by rw [hlen]; exact h4)
  · rw [if_neg h4]
    by_cases hh : o < 28 + s.metaData.size
    · rw [if_pos hh]
      have hcut := Segment.read_cut hread ((pre.flatMap FileSegment.encode).length + o) (by omega)
      rw [List.take_length_add_append, if_neg (by omega)] at hcut
      have hp := FileSegment.parses_done al hal pre hf (s.encode.take o) hcut
      rw [buildIndex_eq hp]
      unfold openResult
      cases replay Index.new (pre.map FileSegment.segment) with
      | error e => rfl
      | ok ix => exact if_neg (by simp)
    · rw [if_neg hh]
      have htake : s.encode.take o = s.head ++ s.rest.take (o - (28 + s.metaData.size)) := by
        unfold FileSegment.encode
        rw [List.take_append, FileSegment.length_head, List.take_of_length_le
          (by rw [FileSegment.length_head]; omega)]
      have hread2 := FileSegment.read_at al hal s hs (pre.flatMap FileSegment.encode)
        (s.rest.take (o - (28 + s.metaData.size)))
      have hp2 : Parses al (pre.flatMap FileSegment.encode ++ s.encode.take o) 0
          (pre.map FileSegment.segment ++ [s.segment]) (.err .endOfFile) := by
        have hseg : Parses al (pre.flatMap FileSegment.encode ++ s.encode.take o)
            (pre.flatMap FileSegment.encode).length [s.segment] (.err .endOfFile) := by
          refine .segment (by rw [htake]; exact hread2) (.done ?_)
          rcases Segment.read_cases al (pre.flatMap FileSegment.encode ++ s.encode.take o)
            ((pre.flatMap FileSegment.encode).length + (28 + s.segment.nextSegmentOffset)) with
              ⟨_, h1⟩ | ⟨h1, _⟩ | ⟨h1, _⟩
          · exact h1
          · rw [List.length_append, hlen, ← FileSegment.length_encode] at h1; omega
          · rw [List.length_append, hlen, ← FileSegment.length_encode] at h1; omega
        have := FileSegment.parses al hal pre hf [] (s.encode.take o) (by
          rw [List.nil_append, List.length_nil, Nat.zero_add]; exact hseg)
        simpa using this
      rw [buildIndex_eq hp2]
      unfold openResult
      rw [List.map_append, List.map_cons, List.map_nil]
      cases replay Index.new (pre.map FileSegment.segment ++ [s.segment]) with
      | error e => rfl
      | ok ix => exact if_pos rfl

/-- All three cases occur for the second segment of the example file: cut in the tag, in the lead-in
    and in the raw data. -/
theorem open_truncated_example :
    (do let t ← TdmsFile.new anyAlloc ((exampleFile.flatMap FileSegment.encode).take (165 + 3))
        t.channelLength (.new "g".toList "b".toList)) = .ok (some 4) ∧
    TdmsFile.new anyAlloc ((exampleFile.flatMap FileSegment.encode).take (165 + 20))
      = R.err (.ioError .unexpectedEof) ∧
    (do let t ← TdmsFile.new anyAlloc ((exampleFile.flatMap FileSegment.encode).take (165 + 60))
        t.channelLength (.new "g".toList "b".toList)) = .ok (some 6) := by
  refine ⟨?_, ?_, ?_⟩ <;> decide +kernel

end Tedium
