import Verif.Proofs.Open

/-!
# Properties of the index: C14, C15, C18-C22

`replay Index.new segs = .ok ix` says that the segments `segs`, added one after the other to an
empty index, are all accepted and give `ix`. By `open_is_replay` (C25) this is the state of every
opened file. `feed Index.new segs` is the state after adding `segs` when failures are ignored.
-/

namespace Tedium
open SegSpec

/-- The segments used to show that the hypotheses below can be met: two channels of different types
    with two chunks, a property segment, and a segment that reuses one channel's layout. -/
def exampleSegs : List Segment :=
  [{ toc := { containsMetaData := true, containsRawData := true, containsNewObjectList := true }
     nextSegmentOffset := 148, rawDataOffset := 100
     metaData := some { objects := [
       { path := "/'g'/'a'".toList, properties := [("u".toList, .i32 1), ("u".toList, .i32 2)]
         rawDataIndex := .rawData { dataType := .doubleFloat, numberOfValues := 2 } },
       { path := "/'g'/'b'".toList, properties := [],
         rawDataIndex := .rawData { dataType := .i32, numberOfValues := 2 } }] } },
   { toc := { containsMetaData := true }
     nextSegmentOffset := 40, rawDataOffset := 40
     metaData := some { objects := [
       { path := "/'g'/'a'".toList, properties := [("u".toList, .i32 3), ("t".toList, .boolean true)]
         rawDataIndex := .none },
       { path := "/'g'".toList, properties := [], rawDataIndex := .none }] } },
   { toc := { containsMetaData := true, containsRawData := true, containsNewObjectList := true,
              bigEndian := true, dataIsInterleaved := true }
     nextSegmentOffset := 60, rawDataOffset := 40
     metaData := some { objects := [
       { path := "/'g'/'b'".toList, properties := [], rawDataIndex := .matchPrevious }] } }]

/-- All of them are accepted, and the resulting lengths are 4 and 4 + 4. -/
theorem exampleSegs_accepted : ∃ ix, replay Index.new exampleSegs = .ok ix ∧
    ix.channelLength (ChannelPath.new "g".toList "a".toList) = .ok (some 4) ∧
    ix.channelLength (ChannelPath.new "g".toList "b".toList) = .ok (some 8) := by
  refine ⟨_, rfl, ?_, ?_⟩ <;> decide +kernel

/-! ## C14 -/

/-- **C14, files.** For an object that occurs in the segments, `read_property` returns the last
    value given to that name (or `None`), and `read_all_properties` lists each name once, in
    ascending order, with that last value. -/
theorem properties_last_value {segs : List Segment} {t : TdmsFile}
    (h : replay Index.new segs = .ok t.index) (path : PropertyPath)
    (hl : Listed (entries segs) path.path) :
    (∀ n, t.readProperty path n = .ok (lastValue (propertiesOf (entries segs) path.path) n)) ∧
    ∃ ps, t.readAllProperties path = some ps ∧
      ps.Pairwise (fun a b => textCmp a.1 b.1 = .lt) ∧
      ∀ n v, (n, v) ∈ ps ↔ lastValue (propertiesOf (entries segs) path.path) n = some v := by
  have hr := replay_refines h
  have hget := hr.obj.listed _ hl
  have hval : ∀ n, (ObjectData.insertProps [] (propertiesOf (entries segs) path.path)).get? n
      = lastValue (propertiesOf (entries segs) path.path) n := by
    intro n; rw [get?_insertProps]
    cases lastValue (propertiesOf (entries segs) path.path) n <;> rfl
  have hs := sorted_insertProps [] (propertiesOf (entries segs) path.path) SMap.sorted_nil
  constructor
  · intro n
    unfold TdmsFile.readProperty Index.getObjectProperty
    rw [hget]
    show Except.ok _ = _
    rw [← hval n]; rfl
  · refine ⟨_, by unfold TdmsFile.readAllProperties Index.getObjectProperties; rw [hget]; rfl, hs, ?_⟩
    intro n v
    rw [← hval n]
    exact SMap.mem_iff_get? hs

example : lastValue (propertiesOf (entries exampleSegs) "/'g'/'a'".toList) "u".toList = some (.i32 3) := by
  decide +kernel

/-- What a call of `read_property` found. -/
def foundValue : R (Option PropertyValue) → Option PropertyValue
  | .ok v => v
  | .error _ => none

theorem foundValue_readProperty (t : TdmsFile) (path : PropertyPath) (n : Text) :
    foundValue (t.readProperty path n) = propOf t.index.objects path.path n := by
  unfold TdmsFile.readProperty Index.getObjectProperty propOf
  cases SMap.get? path.path t.index.objects <;> rfl

/-- **C14, histories.** After any history of calls (also failing ones) on any file, `read_property`
    finds the last value the history wrote to that object under that name, and if the history wrote
    none, what it would have found before. -/
theorem last_write_wins (al : Alloc) (t : TdmsFile) (ops : List Op) (path : PropertyPath) (n : Text) :
    foundValue ((runOps al t ops).readProperty path n) =
      (lastValue (ops.flatMap (Op.propsFor path.path)) n).or (foundValue (t.readProperty path n)) := by
  rw [foundValue_readProperty, foundValue_readProperty]
  induction ops generalizing t with
  | nil => rfl
  | cons op ops ih =>
    show propOf (runOps al (op.run al t).2 ops).index.objects path.path n = _
    rw [ih]
    have happ : ∀ a b : List (Text × PropertyValue),
        lastValue (a ++ b) n = (lastValue b n).or (lastValue a n) := by
      intro a b
      unfold lastValue
      rw [List.filter_append, List.getLast?_append]
      cases ((b.filter (fun p => p.1 = n)).getLast?) <;> rfl
    rw [List.flatMap_cons, happ, Option.or_assoc]
    congr 1
    cases op with
    | write e ty channels vals layout =>
      show propOf (t.writeChannels (ty.storage al) e channels vals layout).2.index.objects _ _ = _
      rw [writeChannels_propOf]
      rfl
    | props e p ps =>
      show propOf (t.writeProperties e p ps).2.index.objects _ _ = _
      rw [writeProperties_propOf]
      show _ = (lastValue (if p.path = path.path then ps else []) n).or _
      split <;> rfl

example : lastValue ([Op.props .little (.group "g".toList) [("u".toList, .i32 1)],
    .write .little .f64 [.new "g".toList "a".toList] [(1 : BitVec 64), (2 : BitVec 64)] .interleaved,
    .props .little (.group "g".toList) [("u".toList, .i32 7)]].flatMap
      (Op.propsFor (PropertyPath.group "g".toList).path)) "u".toList = some (.i32 7) := by decide +kernel

/-! ## C15 -/

/-- **C15.** `MissingObject`/`None` exactly for objects that never occur; `Ok(None)` exactly for
    objects that occur without the property. -/
theorem missing_objects {segs : List Segment} {t : TdmsFile}
    (h : replay Index.new segs = .ok t.index) (p : PropertyPath) (c : ChannelPath) (n : Text) :
    (t.readProperty p n = R.err (.missingObject p.path) ↔ ¬ Listed (entries segs) p.path) ∧
    (t.readProperty p n = .ok none ↔
      Listed (entries segs) p.path ∧ ∀ v, (n, v) ∉ propertiesOf (entries segs) p.path) ∧
    (t.readAllProperties p = none ↔ ¬ Listed (entries segs) p.path) ∧
    (t.channelLength c = .ok none ↔ ¬ Listed (entries segs) c.path) ∧
    (¬ Listed (entries segs) c.path → ∀ (α : Type) (S : Storage α) (start : Nat) (out : List α),
      t.readChannelFrom S c start out = R.err (.missingObject c.path) ∧
      t.readChannelsFrom S [c] start [out] = R.err (.missingObject c.path)) := by
  have hr := replay_refines h
  have hex : ∀ q, Listed (entries segs) q → ∃ o, t.index.objects.get? q = some o :=
    fun q hq => ⟨_, hr.obj.listed q hq⟩
  have hno : ∀ q, ¬ Listed (entries segs) q → t.index.objects.get? q = none :=
    fun q hq => (hr.obj.unlisted q hq).1
  have hlast : ∀ l : List (Text × PropertyValue), lastValue l n = none ↔ ∀ v, (n, v) ∉ l := by
    intro l
    unfold lastValue
    rw [Option.map_eq_none_iff, List.getLast?_eq_none_iff, List.filter_eq_nil_iff]
    constructor
    · intro hh v hv; exact hh (n, v) hv (by simp)
    · rintro hh ⟨m, v⟩ hm heq
      simp only [decide_eq_true_eq] at heq
      subst heq
      exact hh v hm
  refine ⟨?_, ?_, ?_, ?_, ?_⟩
  · constructor
    · intro hh hl
      rw [(properties_last_value h p hl).1 n] at hh
      cases hh
    · intro hl
      unfold TdmsFile.readProperty Index.getObjectProperty
      rw [hno _ hl]
  · constructor
    · intro hh
      by_cases hl : Listed (entries segs) p.path
      · rw [(properties_last_value h p hl).1 n] at hh
        refine ⟨hl, (hlast _).mp ?_⟩
        injection hh
      · unfold TdmsFile.readProperty Index.getObjectProperty at hh
        rw [hno _ hl] at hh
        cases hh
    · rintro ⟨hl, hv⟩
      rw [(properties_last_value h p hl).1 n, (hlast _).mpr hv]
  · unfold TdmsFile.readAllProperties Index.getObjectProperties
    rw [Option.map_eq_none_iff]
    constructor
    · intro hh hl; obtain ⟨o, ho⟩ := hex _ hl; rw [hh] at ho; cases ho
    · exact hno _
  · unfold TdmsFile.channelLength Index.channelLength
    constructor
    · intro hh hl
      obtain ⟨o, ho⟩ := hex _ hl
      rw [ho] at hh
      dsimp only at hh
      split at hh <;> cases hh
    · intro hl; rw [hno _ hl]
  · intro hl α S start out
    constructor
    · unfold TdmsFile.readChannelFrom Index.getChannelDataPositions
      rw [hno _ hl]; rfl
    · unfold TdmsFile.readChannelsFrom TdmsFile.lookupPositions Index.getChannelDataPositions
      rw [hno _ hl]; rfl

example : Listed (entries exampleSegs) (PropertyPath.group "g".toList).path ∧
    ¬ Listed (entries exampleSegs) (PropertyPath.group "h".toList).path := by
  constructor
  · exact ⟨_, List.mem_of_getElem? (i := 3) rfl, by decide +kernel⟩
  · unfold Listed
    decide +kernel

/-! ## C18 -/

theorem feed_reach (segs : List Segment) : Reach (feed Index.new segs) := by
  suffices h : ∀ (segs : List Segment) (ix : Index), Reach ix → Reach (feed ix segs) from h segs _ .new
  intro segs
  induction segs with
  | nil => intro ix h; exact h
  | cons s ss ih => intro ix h; exact ih _ (.add s h)

/-- **C18.** Whatever was added before, adding a segment succeeds, returns an error, or overflows the
    address of its data block. No internal assertion can fail and nothing hangs. -/
theorem indexing_never_panics (segs : List Segment) (s : Segment) :
    (∃ n, ((feed Index.new segs).addSegment s).1 = .ok n) ∨
    (∃ e, ((feed Index.new segs).addSegment s).1 = R.err e) ∨
    (((feed Index.new segs).addSegment s).1 = R.panic .overflow ∧ s.toc.containsRawData = true ∧
      s.rawDataOffset < s.nextSegmentOffset ∧
      2 ^ 64 ≤ (feed Index.new segs).nextSegmentStart + 28 + s.rawDataOffset) := by
  rcases ((feed_reach segs).inv.addSegment s).2 with ⟨n, h, _⟩ | ⟨e, h, he, _⟩
  · exact Or.inl ⟨n, h⟩
  · right
    cases he with
    | noPrevious => exact Or.inl ⟨_, h⟩
    | address _ => exact Or.inl ⟨_, h⟩
    | raw hr hre =>
      cases hre with
      | noChannels _ => exact Or.inl ⟨_, h⟩
      | rawOffset _ => exact Or.inl ⟨_, h⟩
      | zeroLength _ => exact Or.inl ⟨_, h⟩
      | chunk => exact Or.inl ⟨_, h⟩
      | overflow h1 h2 =>
        refine Or.inr ⟨h, hr, h1, ?_⟩
        rw [(afterObjects_frame _ s).1] at h2
        unfold leadInBytes at h2
        have : u64Lim = 2 ^ 64 := rfl
        omega

/-- Each of the three outcomes of C18 occurs. -/
theorem indexing_outcomes :
    (∃ n, ((feed Index.new (exampleSegs.take 2)).addSegment (exampleSegs.getLast (by decide))).1 = .ok n) ∧
    ((feed Index.new []).addSegment (exampleSegs.getLast (by decide))).1 = R.err .noPreviousType ∧
    ((feed Index.new exampleSegs).addSegment
      { toc := { containsRawData := true }, nextSegmentOffset := 2 ^ 64 - 1,
        rawDataOffset := 2 ^ 64 - 2, metaData := some { objects := [] } }).1 = R.panic .overflow := by
  refine ⟨⟨_, rfl⟩, ?_, ?_⟩ <;> decide +kernel

/-! ## C19 -/

/-- **C19.** After any sequence of segments, failures included, the locations of a channel are in
    strictly increasing block order, each points at an existing block and at an existing channel of
    it, counts that channel's values in the whole chunks of the block, and belongs to no other
    channel. -/
theorem locations_valid (segs : List Segment) (c : ChannelPath) (ls : List DataLocation)
    (h : (feed Index.new segs).getChannelDataPositions c = some ls) :
    ls.Pairwise (fun a b => a.dataBlock < b.dataBlock) ∧
    (∀ l ∈ ls, ∃ b m n, (feed Index.new segs).getDataBlock l.dataBlock = some b ∧
      b.channels[l.channelIndex]? = some m ∧ b.numberOfChunks = .ok n ∧
      l.numberOfSamples = m.numberOfValues * n) ∧
    (∀ c' ls', (feed Index.new segs).getChannelDataPositions c' = some ls' → c'.path ≠ c.path →
      ∀ l ∈ ls, ∀ l' ∈ ls', ¬ (l.dataBlock = l'.dataBlock ∧ l.channelIndex = l'.channelIndex)) := by
  have hi := (feed_reach segs).inv
  unfold Index.getChannelDataPositions at h
  obtain ⟨o, ho, rfl⟩ := Option.map_eq_some_iff.mp h
  refine ⟨hi.incr _ _ ho, ?_, ?_⟩
  · intro l hl
    exact hi.valid _ _ ho l hl
  · intro c' ls' h' hne l hl l' hl' heq
    unfold Index.getChannelDataPositions at h'
    obtain ⟨o', ho', rfl⟩ := Option.map_eq_some_iff.mp h'
    exact hne (hi.sep _ _ _ _ ho ho' l hl l' hl' heq.1 heq.2).symm

example : (feed Index.new exampleSegs).getChannelDataPositions (.new "g".toList "b".toList)
    = some [⟨0, 1, 4⟩, ⟨1, 0, 4⟩] := by decide +kernel

/-! ## C20 -/

theorem sum_locations (segs : List Segment) (p : Text) :
    ((locations segs p).map (·.numberOfSamples)).sum
      = ((dataPrefixes segs).map (fun pre => samplesIn pre p)).sum := by
  have hgen : ∀ (l : List (List Segment)) (i : Nat),
      ((l.zipIdx i).filterMap (fun (x : List Segment × Nat) =>
        ((active x.1).idxOf? p).map fun j =>
          ({ dataBlock := x.2, channelIndex := j, numberOfSamples := valuesPerChunk x.1 p * chunks x.1 }
            : DataLocation)) |>.map (·.numberOfSamples)).sum = (l.map (fun pre => samplesIn pre p)).sum := by
    intro l
    induction l with
    | nil => intro i; rfl
    | cons x xs ih =>
      intro i
      rw [List.zipIdx_cons, List.filterMap_cons, List.map_cons, List.sum_cons]
      unfold samplesIn
      cases hx : (active x).idxOf? p with
      | none =>
        rw [if_neg (idxOf?_eq_none.mp hx)]
        simp only [Option.map_none, Nat.zero_add]
        exact ih (i + 1)
      | some j =>
        rw [if_pos (List.mem_of_getElem? (getElem?_of_idxOf? hx))]
        simp only [Option.map_some, List.map_cons, List.sum_cons]
        congr 1
        exact ih (i + 1)
  exact hgen (dataPrefixes segs) 0

/-- **C20, value.** The length of a channel that occurs in the segments is the sum, over the
    segments with raw data, of its values per chunk times the number of whole chunks where it is
    active (a sum of 2^64 or more is the only exception: the addition overflows). -/
theorem channel_length_sum {segs : List Segment} {t : TdmsFile}
    (h : replay Index.new segs = .ok t.index) (c : ChannelPath) (hl : Listed (entries segs) c.path) :
    t.channelLength c =
      if ((dataPrefixes segs).map (fun pre => samplesIn pre c.path)).sum < 2 ^ 64
      then .ok (some ((dataPrefixes segs).map (fun pre => samplesIn pre c.path)).sum)
      else R.panic .overflow := by
  unfold TdmsFile.channelLength Index.channelLength
  rw [(replay_refines h).obj.listed _ hl]
  dsimp only [objectOf]
  rw [sum_locations]

theorem mul_chunks_le {values size chunk raw : Nat} (hs : 0 < size) (hc : values * size ≤ chunk) :
    values * (if chunk = 0 then 0 else raw / chunk) ≤ raw := by
  split
  · omega
  · rename_i h0
    calc values * (raw / chunk) ≤ (values * size) * (raw / chunk) :=
          Nat.mul_le_mul_right _ (Nat.le_mul_of_pos_right _ hs)
      _ ≤ chunk * (raw / chunk) := Nat.mul_le_mul_right _ hc
      _ ≤ raw := Nat.mul_div_le raw chunk

/-- **C20, the exception cannot arise** when all declared types have a fixed, non-zero size. -/
theorem channel_length_fits {segs : List Segment} {ix : Index} (h : replay Index.new segs = .ok ix)
    (hsize : ∀ o ∈ entries segs, ∀ m, o.rawDataIndex = .rawData m →
      m.totalSizeBytes = none ∧ 0 < m.dataType.size) (p : Text) :
    ((dataPrefixes segs).map (fun pre => samplesIn pre p)).sum < 2 ^ 64 := by
  have hlayout : ∀ (es : List ObjectMetaData) (q : Text) (m : RawDataMeta), layoutOf es q = some m →
      ∃ o ∈ es, o.rawDataIndex = .rawData m := by
    intro es q m hm
    unfold layoutOf at hm
    have := List.mem_of_getLast? hm
    rw [List.mem_filterMap] at this
    obtain ⟨o, ho, hd⟩ := this
    refine ⟨o, (List.mem_filter.mp ho).1, ?_⟩
    unfold declares at hd
    split at hd
    · cases hd; assumption
    · cases hd
  have hsum : ∀ l : List RawDataMeta, ∀ m ∈ l, m.numberOfValues * m.dataType.size
      ≤ (l.map (fun m => m.numberOfValues * m.dataType.size)).sum := by
    intro l
    induction l with
    | nil => intro m hm; cases hm
    | cons x xs ih =>
      intro m hm
      simp only [List.map_cons, List.sum_cons]
      rcases List.mem_cons.mp hm with hm | hm
      · subst hm; omega
      · have := ih m hm; omega
  -- each segment contributes at most its raw data
  have hone : ∀ pre : List Segment, (∀ o ∈ entries pre, ∀ m, o.rawDataIndex = .rawData m →
      m.totalSizeBytes = none ∧ 0 < m.dataType.size) → samplesIn pre p ≤ rawBytes pre := by
    intro pre hpre
    unfold samplesIn
    split
    · rename_i hact
      unfold valuesPerChunk
      cases hm : layoutOf (entries pre) p with
      | none => simp
      | some m =>
        dsimp only
        have hmem : m ∈ activeLayouts pre := by
          unfold activeLayouts
          rw [List.mem_filterMap]
          exact ⟨p, hact, hm⟩
        obtain ⟨o, ho, hro⟩ := hlayout _ _ _ hm
        have hnone : (activeLayouts pre).any (fun m => m.totalSizeBytes.isSome) = false := by
          rw [List.any_eq_false]
          intro x hx
          unfold activeLayouts at hx
          rw [List.mem_filterMap] at hx
          obtain ⟨q, _, hq⟩ := hx
          obtain ⟨o', ho', hro'⟩ := hlayout _ _ _ hq
          simp [(hpre o' ho' x hro').1]
        unfold chunks
        rw [hnone, if_neg (by simp)]
        exact mul_chunks_le (hpre o ho m hro).2 (hsum _ _ hmem)
    · omega
  -- the raw data of all segments fits into the file
  have hfile : ∀ segs : List Segment, (∀ o ∈ entries segs, ∀ m, o.rawDataIndex = .rawData m →
      m.totalSizeBytes = none ∧ 0 < m.dataType.size) →
      ((dataPrefixes segs).map (fun pre => samplesIn pre p)).sum ≤ endOf segs := by
    intro segs
    have : ∀ (k : Nat) (segs : List Segment), segs.length = k →
      (∀ o ∈ entries segs, ∀ m, o.rawDataIndex = .rawData m →
      m.totalSizeBytes = none ∧ 0 < m.dataType.size) →
      ((dataPrefixes segs).map (fun pre => samplesIn pre p)).sum ≤ endOf segs := by
      intro k
      induction k with
      | zero =>
        intro segs hk _
        have := List.length_eq_zero_iff.mp hk
        subst this
        exact Nat.zero_le _
      | succ k ih =>
        intro segs hk hs
        have hne : segs ≠ [] := by intro hh; subst hh; simp at hk
        have hsplit := List.dropLast_concat_getLast hne
        generalize segs.dropLast = init at hsplit
        generalize segs.getLast hne = s at hsplit
        subst hsplit
        have hinit := ih init (by simp at hk; omega) (fun o ho => hs o (by rw [entries_snoc]; simp [ho]))
        rw [dataPrefixes_snoc, List.map_append, List.sum_append, endOf_snoc]
        split
        · have := hone (init ++ [s]) hs
          simp only [List.map_cons, List.map_nil, List.sum_cons, List.sum_nil]
          have hraw : rawBytes (init ++ [s]) ≤ s.nextSegmentOffset := by
            unfold rawBytes; simp
          omega
        · simp only [List.map_nil, List.sum_nil]; omega
    exact this _ segs rfl
  have hend : endOf segs < 2 ^ 64 := by
    have hnext := (replay_refines h).next
    by_cases hne : segs = []
    · subst hne; decide
    · have hsplit := List.dropLast_concat_getLast hne
      rw [← hsplit, replay_append] at h
      cases h1 : replay Index.new segs.dropLast with
      | error e => rw [h1] at h; cases h
      | ok ix1 =>
        rw [h1] at h
        have h2 : replay ix1 [segs.getLast hne] = .ok ix := h
        unfold replay at h2
        split at h2
        · cases h2
        · rename_i n ix2 heq
          cases h2
          have := addSegment_next heq
          rw [← hnext, this.2.1]
          exact this.2.2
  exact Nat.lt_of_le_of_lt (hfile segs hsize) hend

/-- **C20, monotone.** Adding a segment, also one that is rejected, in any state of the index never
    makes a channel disappear or shortens it. -/
theorem channel_length_monotone (ix : Index) (s : Segment) (c : ChannelPath) (n : Nat)
    (h : ix.channelLength c = .ok (some n)) :
    (∃ n', n ≤ n' ∧ (ix.addSegment s).2.channelLength c = .ok (some n')) ∨
    (ix.addSegment s).2.channelLength c = R.panic .overflow := by
  unfold Index.channelLength at h ⊢
  cases hg : ix.objects.get? c.path with
  | none => rw [hg] at h; cases h
  | some o =>
    rw [hg] at h
    obtain ⟨o', ho', ls, hls⟩ := addSegment_grows ix s c.path o hg
    rw [ho']
    dsimp only at h ⊢
    split at h
    · have hn : n = (o.dataLocations.map (·.numberOfSamples)).sum := by
        injection h with h; injection h with h; exact h.symm
      split
      · left
        refine ⟨_, ?_, rfl⟩
        rw [← hls, List.map_append, List.sum_append, hn]
        omega
      · exact Or.inr rfl
    · cases h

example : ∀ p, ((dataPrefixes exampleSegs).map (fun pre => samplesIn pre p)).sum < 2 ^ 64 := by
  obtain ⟨ix, h, _⟩ := exampleSegs_accepted
  refine fun p => channel_length_fits h ?_ p
  have hd : (entries exampleSegs).all (fun o => match o.rawDataIndex with
    | .rawData m => m.totalSizeBytes = none && decide (0 < m.dataType.size)
    | _ => true) = true := by decide +kernel
  intro o ho m hm
  have := List.all_eq_true.mp hd o ho
  rw [hm] at this
  simpa using this

/-! ## C21 -/

/-- **C21, data blocks and channels.** Every accepted segment with raw data gives one data block;
    its channels are the active ones in first-listing order with their latest layouts, and these are
    exactly the channels that get a location for it, in that order. -/
theorem active_channel_rules {segs : List Segment} {ix : Index}
    (h : replay Index.new segs = .ok ix) :
    ix.dataBlocks.map some = (dataPrefixes segs).map blockOf ∧
    (∀ c : ChannelPath, Listed (entries segs) c.path →
      ix.getChannelDataPositions c = some (locations segs c.path)) ∧
    ix.activeObjects.map (·.path) = active segs := by
  have hr := replay_refines h
  refine ⟨hr.blocks, ?_, hr.obj.paths⟩
  intro c hl
  unfold Index.getChannelDataPositions
  rw [hr.obj.listed _ hl]
  rfl

/-- **C21, who is active.** A path is active exactly when an entry with raw data lists it since the
    last new-object-list flag; in particular entries without raw data never become active. Active
    paths are distinct. -/
theorem active_iff (segs : List Segment) (p : Text) :
    (p ∈ active segs ↔ ∃ o ∈ listedSince segs, o.path = p ∧ o.rawDataIndex ≠ .none) ∧
    (active segs).Nodup := by
  refine ⟨?_, nodup_firstOccurrences _⟩
  unfold active activeOf
  rw [mem_firstOccurrences, List.mem_map]
  constructor
  · rintro ⟨o, ho, rfl⟩
    rw [List.mem_filter] at ho
    exact ⟨o, ho.1, rfl, by simpa using ho.2⟩
  · rintro ⟨o, ho, rfl, hr⟩
    exact ⟨o, List.mem_filter.mpr ⟨ho, by simpa using hr⟩, rfl⟩

/-- **C21, 'same as previous'.** A segment is rejected with `NoPreviousType` exactly when one of its
    entries says 'same as previous' and no earlier entry (in earlier segments or before it in this
    one) declares a layout for that object. -/
theorem same_as_previous {segs : List Segment} {ix : Index}
    (h : replay Index.new segs = .ok ix) (s : Segment) :
    (ix.addSegment s).1 = R.err .noPreviousType ↔
      ∃ pre o post, entriesOf s = pre ++ o :: post ∧ o.rawDataIndex = .matchPrevious ∧
        layoutOf (entries segs ++ pre) o.path = none := by
  have hr := replay_refines h
  rw [addSegment_eq]
  rcases hr.afterObjects s with ⟨hall, ix1, heq, hi1, _, _, _⟩ | ⟨hex, ix1, heq⟩
  · rw [heq]
    dsimp only
    constructor
    · intro hh
      exfalso
      rcases (addRawData_spec hi1 s).2 with hok | ⟨e, he, _, hre⟩
      · revert hh hok
        cases ix1.addRawData s with
        | mk r ix2 =>
          intro hh hok
          dsimp only at hok
          subst hok
          dsimp only at hh
          rw [advance_eq] at hh
          split at hh <;> cases hh
      · revert hh he
        cases ix1.addRawData s with
        | mk r ix2 =>
          intro hh he
          dsimp only at he
          subst he
          dsimp only at hh
          injection hh with hh
          subst hh
          cases hre
    · rintro ⟨pre, o, post, h1, h2, h3⟩
      exact absurd ⟨h2, h3⟩ (hall pre o post h1)
  · rw [heq]
    exact ⟨fun _ => hex, fun _ => rfl⟩

example : active exampleSegs = ["/'g'/'b'".toList] ∧
    (dataPrefixes exampleSegs).map (fun pre => (active pre, chunks pre)) =
      [(["/'g'/'a'".toList, "/'g'/'b'".toList], 2), (["/'g'/'b'".toList], 2)] := by decide +kernel

/-! ## C22 -/

/-- **C22** (partial: when the address of the data block itself leaves 64 bits the code panics
    instead of returning `SegmentAddressOverflow`, see `address_overflow_counterexample`; the
    hypothesis `haddr` excludes that). The outcome for a segment whose 'same as previous' entries
    are all resolvable, in the order in which the checks are made. -/
theorem inconsistent_headers_partial {segs : List Segment} {ix : Index}
    (h : replay Index.new segs = .ok ix) (s : Segment)
    (hprev : (ix.addSegment s).1 ≠ R.err .noPreviousType)
    (haddr : endOf segs + 28 + s.rawDataOffset < 2 ^ 64 ∨ s.toc.containsRawData = false) :
    (s.toc.containsRawData = true → active (segs ++ [s]) = [] →
      (ix.addSegment s).1 = R.err .segmentTocDataBlockWithoutDataChannels) ∧
    (s.toc.containsRawData = true → active (segs ++ [s]) ≠ [] →
      s.nextSegmentOffset < s.rawDataOffset → (ix.addSegment s).1 = R.err .invalidRawOffset) ∧
    (s.toc.containsRawData = true → active (segs ++ [s]) ≠ [] →
      s.nextSegmentOffset = s.rawDataOffset → (ix.addSegment s).1 = R.err .zeroLengthDataBlock) ∧
    ((s.toc.containsRawData = true → active (segs ++ [s]) ≠ [] ∧ s.rawDataOffset < s.nextSegmentOffset) →
      2 ^ 64 ≤ endOf (segs ++ [s]) →
      (ix.addSegment s).1 = R.err .segmentAddressOverflow ∨
      (ix.addSegment s).1 = R.err .chunkSizeOverflow) ∧
    (∀ n, (ix.addSegment s).1 = .ok n → n = endOf (segs ++ [s]) ∧ n < 2 ^ 64 ∧
      (s.toc.containsRawData = true →
        active (segs ++ [s]) ≠ [] ∧ s.rawDataOffset < s.nextSegmentOffset)) := by
  have hr := replay_refines h
  rw [addSegment_eq] at hprev ⊢
  rcases hr.afterObjects s with ⟨_, ix1, heq, hi1, ho1, _, hn1⟩ | ⟨_, ix1, heq⟩
  case inr => rw [heq] at hprev; exact absurd rfl hprev
  rw [heq]
  dsimp only
  have hpaths := ho1.paths
  have hstart : ix1.nextSegmentStart = endOf segs := hn1.trans hr.next
  have hact : active (segs ++ [s]) = ix1.activeObjects.map (·.path) := hpaths.symm
  obtain ⟨ms, hms, hlen, _, _⟩ := activeRawDataMeta_ok hi1.active
  have hem : ms = [] ↔ active (segs ++ [s]) = [] := by
    rw [hact, List.map_eq_nil_iff, ← List.length_eq_zero_iff, ← List.length_eq_zero_iff, hlen]
  by_cases hraw : s.toc.containsRawData = true
  · have haddr' : s.rawDataOffset + leadInBytes + ix1.nextSegmentStart < u64Lim := by
      rcases haddr with ha | ha
      · rw [hstart]; unfold leadInBytes; have : u64Lim = 2 ^ 64 := rfl; omega
      · rw [hraw] at ha; cases ha
    unfold Index.addRawData
    rw [if_pos hraw, hms]
    dsimp only
    by_cases he : ms = []
    · subst he
      have hact0 := hem.mp rfl
      refine ⟨fun _ _ => rfl, fun _ hn => absurd hact0 hn, fun _ hn => absurd hact0 hn,
        fun hc => absurd hact0 (hc hraw).1, ?_⟩
      intro n hn; cases hn
    · have hact0 : active (segs ++ [s]) ≠ [] := fun hh => he (hem.mpr hh)
      have hemp : ms.isEmpty = false := by cases ms <;> simp_all
      rw [hemp, if_neg (by simp)]
      rcases fromSegment_cases s ix1.nextSegmentStart ms he with ⟨hc, hf⟩ | ⟨hc, hf⟩ | ⟨_, hc, _⟩ | ⟨hc, _, hf⟩
      · rw [hf]
        refine ⟨fun _ hn => absurd hn hact0, fun _ _ _ => rfl, fun _ _ hn => by omega,
          fun hcc => absurd (hcc hraw).2 (by omega), ?_⟩
        intro n hn; cases hn
      · rw [hf]
        refine ⟨fun _ hn => absurd hn hact0, fun _ _ hn => by omega, fun _ _ _ => rfl,
          fun hcc => absurd (hcc hraw).2 (by omega), ?_⟩
        intro n hn; cases hn
      · omega
      · rw [hf]
        dsimp only
        generalize hb : DataBlock.mk _ _ _ _ _ = b
        have hres := insertDataBlock_result hi1 b
        have hnx : (ix1.insertDataBlock b).2.nextSegmentStart = endOf segs := by
          have := addRawData_next ix1 s
          unfold Index.addRawData at this
          rw [if_pos hraw, hms] at this
          dsimp only at this
          rw [hemp, if_neg (by simp), hf] at this
          dsimp only at this
          rw [hb] at this
          exact this.trans hstart
        revert hres hnx
        cases ix1.insertDataBlock b with
        | mk r ix2 =>
          intro hres hnx
          dsimp only at hres hnx
          rcases hres with hres | hres
          · subst hres
            dsimp only
            rw [advance_eq, hnx]
            have hend := endOf_snoc segs s
            refine ⟨fun _ hn => absurd hn hact0, fun _ _ hn => by omega, fun _ _ hn => by omega, ?_, ?_⟩
            · intro _ hov
              rw [if_neg (by unfold leadInBytes; have : u64Lim = 2 ^ 64 := rfl; omega)]
              exact Or.inl rfl
            · intro n hn
              split at hn
              · rename_i hlt
                injection hn with hn
                unfold leadInBytes at hn hlt
                have : u64Lim = 2 ^ 64 := rfl
                exact ⟨by omega, by omega, fun _ => ⟨hact0, hc⟩⟩
              · cases hn
          · subst hres
            refine ⟨fun _ hn => absurd hn hact0, fun _ _ hn => by omega, fun _ _ hn => by omega,
              fun _ _ => Or.inr rfl, ?_⟩
            intro n hn; cases hn
  · unfold Index.addRawData
    rw [if_neg hraw]
    dsimp only
    rw [advance_eq, hstart]
    have hend := endOf_snoc segs s
    refine ⟨fun hh => absurd hh hraw, fun hh => absurd hh hraw, fun hh => absurd hh hraw, ?_, ?_⟩
    · intro _ hov
      rw [if_neg (by unfold leadInBytes; have : u64Lim = 2 ^ 64 := rfl; omega)]
      exact Or.inl rfl
    · intro n hn
      split at hn
      · rename_i hlt
        injection hn with hn
        unfold leadInBytes at hn hlt
        have : u64Lim = 2 ^ 64 := rfl
        exact ⟨by omega, by omega, fun hh => absurd hh hraw⟩
      · cases hn

/-- C22 is false in full: an address beyond 2^64 can also panic. -/
theorem address_overflow_counterexample :
    ∃ ix s, replay Index.new exampleSegs = .ok ix ∧ s.toc.containsRawData = true ∧
      2 ^ 64 ≤ endOf (exampleSegs ++ [s]) ∧ (ix.addSegment s).1 = R.panic .overflow := by
  refine ⟨_, { toc := { containsRawData := true }, nextSegmentOffset := 2 ^ 64 - 1,
               rawDataOffset := 2 ^ 64 - 2, metaData := some { objects := [] } }, rfl, ?_, ?_, ?_⟩ <;>
    decide +kernel

/-- A segment without metadata and with the raw-data flag. -/
def rawSegment (newList : Bool) (next raw : Nat) : Segment where
  toc := { containsRawData := true, containsNewObjectList := newList }
  nextSegmentOffset := next
  rawDataOffset := raw
  metaData := none

/-- The cases of C22 all occur. -/
theorem inconsistent_headers_cases : ∃ ix, replay Index.new exampleSegs = .ok ix ∧
    (ix.addSegment (rawSegment true 9 4)).1
        = R.err .segmentTocDataBlockWithoutDataChannels ∧
    (ix.addSegment (rawSegment false (9) 10)).1 = R.err .invalidRawOffset ∧
    (ix.addSegment (rawSegment false (9) 9)).1 = R.err .zeroLengthDataBlock ∧
    (ix.addSegment (rawSegment false (2 ^ 64 - 1) 9)).1
        = R.err .segmentAddressOverflow := by
  refine ⟨_, rfl, ?_, ?_, ?_, ?_⟩ <;> decide +kernel

end Tedium
