import Verif.Spec.Verdict
import Verif.Proofs.Accept
import Verif.Props.Open

/-! # C60: exactly which files open -/

namespace Tedium
open SegSpec

theorem chunkSizeFrom_exact : ∀ (cs : List RawDataMeta) (w : ChunkSize) (n : Nat), (w = .fixed n ∨ w = .variable n) →
    n < u64Lim →
    ((n + (cs.map (fun m => m.totalSizeBytes.getD (m.numberOfValues * m.dataType.size))).sum < u64Lim →
      ∃ r, DataBlock.chunkSizeFrom w cs = .ok r) ∧
    (u64Lim ≤ n + (cs.map (fun m => m.totalSizeBytes.getD (m.numberOfValues * m.dataType.size))).sum →
      DataBlock.chunkSizeFrom w cs = R.err .chunkSizeOverflow))
  | [], w, n, _, hn => ⟨fun _ => ⟨w, rfl⟩, fun h => by simp at h; omega⟩
  | c :: cs, w, n, hw, hn => by
    rw [List.map_cons, List.sum_cons]
    unfold DataBlock.chunkSizeFrom
    have comb : ∀ (k : Nat) (kind : ChunkSize), (kind = .fixed k ∨ kind = .variable k) →
        (n + k < u64Lim → ∃ w', w.combine kind = .ok w' ∧ (w' = .fixed (n + k) ∨ w' = .variable (n + k))) ∧
        (u64Lim ≤ n + k → w.combine kind = R.err .chunkSizeOverflow) := by
      intro k kind hk
      rcases hw with rfl | rfl <;> rcases hk with rfl | rfl <;>
      · unfold ChunkSize.combine chunkAdd
        constructor
        · intro h
          simp only [if_pos h]
          exact ⟨_, rfl, by first | exact Or.inl rfl | exact Or.inr rfl⟩
        · intro h
          simp only [if_neg (show ¬ n + k < u64Lim by omega)]
          rfl
    have step : ∀ (k : Nat) (kind : ChunkSize), (kind = .fixed k ∨ kind = .variable k) →
        ((n + (k + (cs.map (fun m => m.totalSizeBytes.getD (m.numberOfValues * m.dataType.size))).sum) < u64Lim →
          ∃ r, (w.combine kind >>= fun s => DataBlock.chunkSizeFrom s cs) = .ok r) ∧
        (u64Lim ≤ n + (k + (cs.map (fun m => m.totalSizeBytes.getD (m.numberOfValues * m.dataType.size))).sum) →
          (w.combine kind >>= fun s => DataBlock.chunkSizeFrom s cs) = R.err .chunkSizeOverflow)) := by
      intro k kind hk
      by_cases h : n + k < u64Lim
      · obtain ⟨w', h1, h2⟩ := (comb k kind hk).1 h
        rw [h1]
        have ih := chunkSizeFrom_exact cs w' (n + k) h2 h
        rw [Nat.add_assoc] at ih
        exact ih
      · have h1 := (comb k kind hk).2 (by omega)
        rw [h1]
        exact ⟨fun hh => by omega, fun _ => rfl⟩
    cases hc : c.totalSizeBytes with
    | some total => exact step total (.variable total) (Or.inr rfl)
    | none =>
      dsimp only
      rw [Option.getD_none]
      by_cases hv : c.numberOfValues * c.dataType.size < u64Lim
      · rw [if_pos hv]
        exact step _ _ (Or.inl rfl)
      · rw [if_neg hv]
        exact ⟨fun hh => by omega, fun _ => rfl⟩

theorem numberOfChunks_exact (b : DataBlock) :
    ((b.channels.map (fun m => m.totalSizeBytes.getD (m.numberOfValues * m.dataType.size))).sum < u64Lim →
      ∃ n, b.numberOfChunks = .ok n) ∧
    (u64Lim ≤ (b.channels.map (fun m => m.totalSizeBytes.getD (m.numberOfValues * m.dataType.size))).sum →
      b.numberOfChunks = R.err .chunkSizeOverflow) := by
  have h := chunkSizeFrom_exact b.channels (.fixed 0) 0 (Or.inl rfl) (by decide)
  rw [Nat.zero_add] at h
  unfold DataBlock.numberOfChunks DataBlock.chunkSize
  constructor
  · intro hs
    obtain ⟨r, hr⟩ := h.1 hs
    rw [hr]
    match r with
    | .fixed 0 => exact ⟨_, rfl⟩
    | .fixed (n + 1) => exact ⟨_, rfl⟩
    | .variable n => exact ⟨_, rfl⟩
  · intro hs
    rw [h.2 hs]
    rfl

theorem addLocations_rejects (di n : Nat) : ∀ (as : List ActiveObject) (ci : Nat) (objs : SMap ObjectData),
    (∀ a ∈ as, ∃ o, objs.get? a.path = some o) → (∃ a ∈ as, u64Lim ≤ a.numberOfSamples * n) →
    (Index.addLocations di n ci objs as).1 = R.err .chunkSizeOverflow
  | [], _, _, _, h => by obtain ⟨a, ha, _⟩ := h; cases ha
  | a :: as, ci, objs, ho, hs => by
    obtain ⟨o, hoa⟩ := ho a List.mem_cons_self
    unfold Index.addLocations
    by_cases hlt : a.numberOfSamples * n < u64Lim
    · rw [if_pos hlt, hoa]
      refine addLocations_rejects di n as _ _ ?_ ?_
      · intro b hb
        obtain ⟨o', ho'⟩ := ho b (List.mem_cons_of_mem _ hb)
        rw [SMap.get?_insert]
        split
        · exact ⟨_, rfl⟩
        · exact ⟨o', ho'⟩
      · obtain ⟨b, hb, hge⟩ := hs
        rcases List.mem_cons.mp hb with rfl | hb
        · omega
        · exact ⟨b, hb, hge⟩
    · rw [if_neg hlt]

theorem unresolved_iff (segs : List Segment) (s : Segment) : unresolved segs s = true ↔
    ∃ pre o post, entriesOf s = pre ++ o :: post ∧ o.rawDataIndex = .matchPrevious ∧
      layoutOf (entries segs ++ pre) o.path = none := by
  unfold unresolved
  rw [List.any_eq_true]
  constructor
  · rintro ⟨i, hi, h⟩
    rw [List.mem_range] at hi
    rw [List.getElem?_eq_getElem hi] at h
    simp only [Option.any_some, Bool.and_eq_true, decide_eq_true_eq, Option.isNone_iff_eq_none] at h
    refine ⟨(entriesOf s).take i, (entriesOf s)[i], (entriesOf s).drop (i + 1), ?_, h.1, h.2⟩
    rw [List.getElem_cons_drop, List.take_append_drop]
  · rintro ⟨pre, o, post, h1, h2, h3⟩
    refine ⟨pre.length, ?_, ?_⟩
    · rw [List.mem_range, h1]; simp
    · rw [h1]
      simp [h2, h3]

/-- **C60, one segment.** Behind any accepted segments, the outcome of adding a segment, with the error, is the verdict
    of the specification. -/
theorem segment_verdict {segs : List Segment} {ix : Index} (h : replay Index.new segs = .ok ix) (s : Segment) :
    (ix.addSegment s).1 = verdict segs s := by
  have hr := replay_refines h
  have hlim : u64Lim = 2 ^ 64 := rfl
  rw [addSegment_eq]
  unfold verdict
  dsimp only
  rcases hr.afterObjects s with ⟨hall, ix1, heq, hi1, ho1, hb1, hn1⟩ | ⟨hex, ix1, heq⟩
  case inr =>
    rw [heq, if_pos ((unresolved_iff segs s).mpr hex)]
  have hres : ¬ unresolved segs s = true := by
    intro hh
    obtain ⟨pre, o, post, h1, h2, h3⟩ := (unresolved_iff segs s).mp hh
    exact hall pre o post h1 ⟨h2, h3⟩
  rw [if_neg hres, heq]
  dsimp only
  have hstart : ix1.nextSegmentStart = endOf segs := hn1.trans hr.next
  have hend := endOf_snoc segs s
  have hadv : ∀ ix2 : Index, ix2.nextSegmentStart = endOf segs →
      (ix2.advance s).1 = if 2 ^ 64 ≤ endOf (segs ++ [s]) then R.err .segmentAddressOverflow else .ok (endOf (segs ++ [s])) := by
    intro ix2 hn2
    rw [advance_eq, hn2, hend]
    unfold leadInBytes
    by_cases hlt : endOf segs + (s.nextSegmentOffset + 28) < u64Lim
    · rw [if_pos hlt, if_neg (by omega)]
      show Except.ok _ = Except.ok _
      congr 1
      omega
    · rw [if_neg hlt, if_pos (by omega)]
  by_cases hraw : s.toc.containsRawData = true
  case neg =>
    simp only [hraw, false_and, if_false, Bool.false_eq_true]
    have har : ix1.addRawData s = (.ok (), ix1) := by
      unfold Index.addRawData
      rw [if_neg hraw]
    rw [har]
    exact hadv ix1 hstart
  simp only [hraw, true_and]
  have hnext := addRawData_next ix1 s
  unfold Index.addRawData at hnext ⊢
  rw [if_pos hraw] at hnext ⊢
  obtain ⟨ms, hms, hlen, hfm, hj⟩ := activeRawDataMeta_ok hi1.active
  rw [hms] at hnext ⊢
  have hms' : ms = activeLayouts (segs ++ [s]) := by rw [hfm, ho1.layouts]; rfl
  have hact : active (segs ++ [s]) = ix1.activeObjects.map (·.path) := ho1.paths.symm
  dsimp only at hnext ⊢
  by_cases hne : ms = []
  · have : active (segs ++ [s]) = [] := by
      rw [hact, List.map_eq_nil_iff]
      rw [hne] at hlen
      exact List.length_eq_zero_iff.mp hlen.symm
    rw [if_pos (by simpa using hne), if_pos this]
  have hactne : ¬ active (segs ++ [s]) = [] := by
    intro hh
    rw [hact, List.map_eq_nil_iff] at hh
    rw [hh] at hlen
    exact hne (List.length_eq_zero_iff.mp hlen)
  rw [if_neg (by simpa using hne)] at hnext ⊢
  rw [if_neg hactne]
  rcases fromSegment_cases s ix1.nextSegmentStart ms hne with ⟨hc, he⟩ | ⟨hc, he⟩ | ⟨hc, ho, he⟩ | ⟨hc, ho, he⟩
  · rw [he, if_pos hc]
  · rw [he, if_neg (by omega), if_pos hc.symm]
  · rw [he, if_neg (by omega), if_neg (by omega), if_pos (by unfold leadInBytes at ho; omega)]
  rw [if_neg (by omega), if_neg (by omega), if_neg (by unfold leadInBytes at ho; omega)]
  rw [he] at hnext ⊢
  dsimp only at hnext ⊢
  generalize hbd : (DataBlock.mk _ _ _ _ _) = b at hnext ⊢
  have hbc : b.channels = activeLayouts (segs ++ [s]) := by rw [← hbd, ← hms']
  unfold Index.insertDataBlock at hnext ⊢
  have hnc := numberOfChunks_exact b
  rw [hbc] at hnc
  by_cases htot : chunkTotal (segs ++ [s]) < u64Lim
  · obtain ⟨n, hn⟩ := hnc.1 htot
    rw [hn] at hnext ⊢
    dsimp only at hnext ⊢
    have hnck : n = chunks (segs ++ [s]) := by
      rw [numberOfChunks_spec hn, ← hbd]
      unfold chunks chunkBytes rawBytes
      simp only [hms', List.getLast?_append, List.getLast?_singleton, Option.some_or]
    have hobj : ∀ a ∈ ix1.activeObjects, ∃ o, ix1.objects.get? a.path = some o :=
      fun a ha => by obtain ⟨o, _, h1, _⟩ := hi1.active a ha; exact ⟨o, h1⟩
    by_cases hov : ∃ p ∈ active (segs ++ [s]), 2 ^ 64 ≤ valuesPerChunk (segs ++ [s]) p * chunks (segs ++ [s])
    · rw [if_pos (Or.inr hov)]
      have := addLocations_rejects ix1.dataBlocks.length n ix1.activeObjects 0 ix1.objects hobj (by
        obtain ⟨p, hp, hge⟩ := hov
        refine ⟨⟨p, valsOf (entries (segs ++ [s])) p⟩, ?_, ?_⟩
        · rw [ho1.active]; exact List.mem_map.mpr ⟨p, hp, rfl⟩
        · rw [hnck]; exact hge)
      generalize Index.addLocations ix1.dataBlocks.length n 0 ix1.objects ix1.activeObjects = al at this
      obtain ⟨r, objs⟩ := al
      dsimp only at this ⊢
      subst this
      rfl
    · rw [if_neg (by
        rintro (hh | hh)
        · omega
        · exact hov hh)]
      have := addLocations_accepts ix1.dataBlocks.length n ix1.activeObjects 0 ix1.objects hobj (by
        intro a ha
        rw [ho1.active] at ha
        obtain ⟨p, hp, rfl⟩ := List.mem_map.mp ha
        rw [hnck]
        apply Classical.byContradiction
        intro hge
        exact hov ⟨p, hp, by
          have : u64Lim ≤ valuesPerChunk (segs ++ [s]) p * chunks (segs ++ [s]) := Nat.not_lt.mp hge
          omega⟩)
      revert hnext this
      generalize Index.addLocations ix1.dataBlocks.length n 0 ix1.objects ix1.activeObjects = al
      obtain ⟨r, objs⟩ := al
      intro hnext this
      dsimp only at this hnext ⊢
      subst this
      exact hadv _ (hnext.trans hstart)
  · rw [hnc.2 (by unfold chunkTotal at htot; omega), if_pos (Or.inl (by omega))]

theorem refusal_cons (done : List Segment) (s : Segment) (todo : List Segment) : refusal done (s :: todo) =
    (match verdict done s with
    | .error e => some e
    | .ok _ => refusal (done ++ [s]) todo) := rfl

theorem replay_refusal : ∀ (todo done : List Segment) {ix : Index}, replay Index.new done = .ok ix →
    (∀ e, refusal done todo = some e → replay ix todo = .error e) ∧
    (refusal done todo = none → ∃ ix', replay ix todo = .ok ix')
  | [], _, ix, _ => ⟨fun e h => (by cases h), fun _ => ⟨ix, rfl⟩⟩
  | s :: todo, done, ix, h => by
    have hv := segment_verdict h s
    rw [refusal_cons]
    rw [show replay ix (s :: todo) = (match ix.addSegment s with
      | (.error e, _) => Except.error e
      | (.ok _, ix) => replay ix todo) from rfl]
    have hnext : ∀ n ix', ix.addSegment s = (.ok n, ix') → replay Index.new (done ++ [s]) = .ok ix' := by
      intro n ix' hs
      rw [replay_append, h]
      show (match ix.addSegment s with
        | (.error e, _) => Except.error e
        | (.ok _, ix) => Except.ok ix) = _
      rw [hs]
    revert hv hnext
    cases ix.addSegment s with
    | mk r ix1 =>
      intro hv hnext
      dsimp only at hv
      rw [← hv]
      cases r with
      | error e => exact ⟨fun e' he => (by cases he; rfl), fun hn => (by cases hn)⟩
      | ok n => exact replay_refusal todo (done ++ [s]) (hnext n ix1 rfl)

/-- **C60, opening.** Whether a byte string opens, and otherwise the error, in terms of the segments it holds: the
    complaint about the first segment that is not accepted; if there is none, whatever stopped the reading of
    segments, unless that was the end of the file. -/
theorem open_verdict {al : Alloc} {f : Bytes} {segs : List Segment} {last : Fail} (hp : Parses al f 0 segs last) :
    (∀ e, refusal [] segs = some e → TdmsFile.new al f = .error e) ∧
    (refusal [] segs = none → last ≠ .err .endOfFile → TdmsFile.new al f = .error last) ∧
    (refusal [] segs = none → last = .err .endOfFile → ∃ t, TdmsFile.new al f = .ok t) := by
  obtain ⟨h1, h2⟩ := replay_refusal segs [] (ix := Index.new) rfl
  have hnew : TdmsFile.new al f = (openResult Index.new segs last).map (fun ix => ⟨ix, f⟩) := by
    unfold TdmsFile.new
    rw [buildIndex_eq hp]
    cases openResult Index.new segs last <;> rfl
  rw [hnew]
  unfold openResult
  refine ⟨fun e he => ?_, fun hn hl => ?_, fun hn hl => ?_⟩
  · rw [h1 e he]; rfl
  · obtain ⟨ix, hix⟩ := h2 hn
    rw [hix]
    dsimp only
    rw [if_neg hl]
    rfl
  · obtain ⟨ix, hix⟩ := h2 hn
    rw [hix]
    dsimp only
    rw [if_pos hl]
    exact ⟨_, rfl⟩

theorem refusal_some : ∀ (todo done : List Segment) {e : Fail}, refusal done todo = some e ↔
    ∃ pre s post, todo = pre ++ s :: post ∧ refusal done pre = none ∧ verdict (done ++ pre) s = .error e
  | [], done, e => ⟨fun h => (by cases h), fun ⟨pre, _, _, h, _⟩ => by cases pre <;> cases h⟩
  | x :: todo, done, e => by
    rw [refusal_cons]
    cases hv : verdict done x with
    | error e' =>
      constructor
      · intro h
        cases h
        exact ⟨[], x, todo, rfl, rfl, by rw [List.append_nil]; exact hv⟩
      · rintro ⟨pre, s, post, h1, h2, h3⟩
        cases pre with
        | nil =>
          cases h1
          rw [List.append_nil, hv] at h3
          cases h3
          rfl
        | cons y pre =>
          cases h1
          rw [refusal_cons, hv] at h2
          cases h2
    | ok n =>
      dsimp only
      rw [refusal_some todo (done ++ [x])]
      constructor
      · rintro ⟨pre, s, post, rfl, h2, h3⟩
        refine ⟨x :: pre, s, post, rfl, ?_, by simpa using h3⟩
        rw [refusal_cons, hv]
        exact h2
      · rintro ⟨pre, s, post, h1, h2, h3⟩
        cases pre with
        | nil =>
          cases h1
          rw [List.append_nil, hv] at h3
          cases h3
        | cons y pre =>
          cases h1
          rw [refusal_cons, hv] at h2
          exact ⟨pre, s, post, rfl, h2, by simpa using h3⟩

theorem verdict_panic {segs : List Segment} {s : Segment} : verdict segs s = R.panic .overflow ↔
    (unresolved segs s = false ∧ s.toc.containsRawData = true ∧ active (segs ++ [s]) ≠ [] ∧
      s.rawDataOffset < s.nextSegmentOffset ∧ 2 ^ 64 ≤ endOf segs + 28 + s.rawDataOffset) := by
  unfold verdict
  dsimp only
  cases hu : unresolved segs s with
  | true => simp
  | false =>
    cases hr : s.toc.containsRawData with
    | false =>
      simp only [Bool.false_eq_true, false_and, if_false, and_false, iff_false]
      split <;> (intro h; cases h)
    | true =>
      simp only [Bool.false_eq_true, if_false, true_and]
      split
      · rename_i h; exact ⟨fun hh => (by cases hh), fun hh => absurd h hh.1⟩
      rename_i hact
      split
      · rename_i h; exact ⟨fun hh => (by cases hh), fun hh => by omega⟩
      split
      · rename_i h; exact ⟨fun hh => (by cases hh), fun hh => by omega⟩
      split
      · rename_i h; exact ⟨fun _ => ⟨hact, by omega, h⟩, fun _ => rfl⟩
      rename_i h
      constructor
      · intro hh
        split at hh
        · cases hh
        · split at hh <;> cases hh
      · intro hh; omega

theorem verdict_panics {segs : List Segment} {s : Segment} {p : PanicKind} (h : verdict segs s = R.panic p) : p = .overflow := by
  unfold verdict at h
  dsimp only at h
  repeat (split at h; · first | (cases h; rfl) | cases h)
  cases h

/-- **C24, exactly.** Opening panics exactly when it comes to a segment that is flagged as containing raw data, has
    active channels and a raw data offset before its end, and whose data block starts beyond 2^64. All
    earlier segments were accepted. It never hangs (`open_terminates`). -/
theorem open_panics_iff {al : Alloc} {f : Bytes} {segs : List Segment} {last : Fail} (hp : Parses al f 0 segs last)
    (p : PanicKind) : TdmsFile.new al f = R.panic p ↔
      p = .overflow ∧ ∃ pre s post, segs = pre ++ s :: post ∧ refusal [] pre = none ∧ unresolved pre s = false ∧
        s.toc.containsRawData = true ∧ active (pre ++ [s]) ≠ [] ∧ s.rawDataOffset < s.nextSegmentOffset ∧
        2 ^ 64 ≤ endOf pre + 28 + s.rawDataOffset := by
  obtain ⟨h1, h2, h3⟩ := open_verdict hp
  constructor
  · intro h
    cases hr : refusal [] segs with
    | none =>
      exfalso
      by_cases hl : last = .err .endOfFile
      · obtain ⟨t, ht⟩ := h3 hr hl
        rw [ht] at h
        cases h
      · obtain ⟨e, he⟩ := hp.last
        rw [h2 hr hl, he] at h
        cases h
    | some e =>
      rw [h1 e hr] at h
      cases h
      obtain ⟨pre, s, post, h4, h5, h6⟩ := (refusal_some segs []).mp hr
      rw [List.nil_append] at h6
      have hpo := verdict_panics h6
      subst hpo
      exact ⟨rfl, pre, s, post, h4, h5, verdict_panic.mp h6⟩
  · rintro ⟨rfl, pre, s, post, h4, h5, h6⟩
    exact h1 _ ((refusal_some segs []).mpr ⟨pre, s, post, h4, h5, by rw [List.nil_append]; exact verdict_panic.mpr h6⟩)

/-- A segment with these entries behind `exampleSegs`. -/
def caseSegment (raw : Bool) (next offset : Nat) (entries : List ObjectMetaData) : Segment where
  toc := { containsRawData := raw, containsMetaData := true, containsNewObjectList := true }
  nextSegmentOffset := next
  rawDataOffset := offset
  metaData := some { objects := entries }

/-- An entry for a channel with `n` values of type `u32`. -/
def u32Entry (n : Nat) : ObjectMetaData where
  path := "/'g'/'n'".toList
  properties := []
  rawDataIndex := .rawData { dataType := .u32, numberOfValues := n }

/-- Every verdict occurs. -/
theorem segment_verdict_cases :
    refusal [] exampleSegs = none ∧
    verdict exampleSegs (caseSegment true 60 52 [u32Entry 1]) = .ok (endOf exampleSegs + 88) ∧
    verdict exampleSegs (caseSegment false 60 70 []) = .ok (endOf exampleSegs + 88) ∧
    verdict exampleSegs (caseSegment true 60 52 [{ path := "/'g'/'n'".toList, properties := [], rawDataIndex := .matchPrevious }])
      = R.err .noPreviousType ∧
    verdict exampleSegs (caseSegment true 60 52 []) = R.err .segmentTocDataBlockWithoutDataChannels ∧
    verdict exampleSegs (caseSegment true 60 61 [u32Entry 1]) = R.err .invalidRawOffset ∧
    verdict exampleSegs (caseSegment true 60 60 [u32Entry 1]) = R.err .zeroLengthDataBlock ∧
    verdict exampleSegs (caseSegment true (2 ^ 64 - 1) (2 ^ 64 - 2) [u32Entry 1]) = R.panic .overflow ∧
    verdict exampleSegs (caseSegment true 60 52 [u32Entry (2 ^ 62)]) = R.err .chunkSizeOverflow ∧
    verdict exampleSegs (caseSegment true (2 ^ 64 - 29) 52 [u32Entry 1]) = R.err .segmentAddressOverflow := by
  refine ⟨?_, ?_, ?_, ?_, ?_, ?_, ?_, ?_, ?_, ?_⟩ <;> decide +kernel

/-- The file that makes `TdmsFile::new` panic holds one segment, the one the theorem describes. -/
theorem open_panics_example : ∃ s, Parses anyAlloc panicFile 0 [s] (.err .endOfFile) ∧
    refusal [] [] = none ∧ unresolved [] s = false ∧ s.toc.containsRawData = true ∧ active [s] ≠ [] ∧
    s.rawDataOffset < s.nextSegmentOffset ∧ 2 ^ 64 ≤ 28 + s.rawDataOffset := by
  let o : ObjectMetaData :=
    { path := "/'g'/'c'".toList, properties := []
      rawDataIndex := .rawData { dataType := .i32, numberOfValues := 1 } }
  let s : Segment :=
    { toc := { containsMetaData := true, containsRawData := true }, nextSegmentOffset := 2 ^ 64 - 1
      rawDataOffset := 2 ^ 64 - 10, metaData := some { objects := [o] } }
  refine ⟨s, .segment (q := 68) ?_ (.done ?_), ?_, ?_, ?_, ?_, ?_, ?_⟩ <;> decide +kernel

end Tedium
