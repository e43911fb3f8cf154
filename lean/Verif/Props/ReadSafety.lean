import Verif.Proofs.WrongType
import Verif.Proofs.Totals
import Verif.Props.Read

/-! # C26 (data), C39, C40: errors of reading -/

namespace Tedium
open SegSpec PlanSpec

/-! ## C39 -/

/-- The sample number `start` of the channel is in the last segment of `pre`, one of the segments with
    raw data. -/
structure HoldsSample (segs pre : List Segment) (path : Text) (start : Nat) : Prop where
  data : pre ∈ dataPrefixes segs
  active : path ∈ active pre
  after : sampleCount pre.dropLast path ≤ start
  before : start < sampleCount pre path

/-- **C39.** Let the first wanted sample lie in a segment in which the channel is stored as a type that
    the requested type does not support. Then a read into a non-empty buffer fails with
    `DataTypeMismatch(stored, requested)`, and reading the channel together with others does not
    succeed either. This holds for all files, types, offsets and buffers. -/
theorem wrong_type_rejected {α : Type} (S : Storage α) {segs : List Segment} {t : TdmsFile}
    (h : replay Index.new segs = .ok t.index) {pre : List Segment} {c : ChannelPath} {start : Nat}
    (hs : HoldsSample segs pre c.path start) {m : RawDataMeta} (hm : layoutOf (entries pre) c.path = some m)
    (hsup : m.dataType ∉ S.supported) (out : List α) (hout : out ≠ []) :
    t.readChannelFrom S c start out = R.err (.dataTypeMismatch m.dataType S.natural) ∧
    ∀ (cs : List ChannelPath) (outs : List (List α)) (i : Nat), cs[i]? = some c → outs[i]? = some out →
      ∀ r, t.readChannelsFrom S cs start outs ≠ .ok r := by
  have hr := replay_refines h
  have hl := getPositions_listed h hs.data hs.active
  have hpos := hr.positions hl
  obtain ⟨B, hB⟩ := List.mem_iff_getElem?.mp hs.data
  obtain ⟨⟨pl, hv, hidx⟩, hnone⟩ := visit_first hB hs.active hs.after hs.before
  obtain ⟨b, hb, hgb⟩ := hr.block hB
  obtain ⟨_, _, hbch, _⟩ := blockOf_fields hb
  obtain ⟨hm1, _⟩ := layout_at h hB hidx
  have hmb : b.channels[pl.index]? = some m := by rw [hbch, hm1, hm]
  have hBlt : B < t.index.dataBlocks.length := (List.getElem?_eq_some_iff.mp hgb).1
  have hincomplete : (⟨out, 0⟩ : Progress α).isComplete = false := by
    unfold Progress.isComplete
    cases out with
    | nil => exact absurd rfl hout
    | cons v vs => rfl
  have hvalid : ∀ c ls, t.index.getChannelDataPositions c = some ls →
      Increasing ls ∧ ∀ l ∈ ls, l.dataBlock < t.index.dataBlocks.length := by
    intro c ls hc
    obtain ⟨o, ho, rfl⟩ := Option.map_eq_some_iff.mp hc
    refine ⟨hr.inv.incr _ _ ho, fun l hl => ?_⟩
    obtain ⟨b, _, _, hb, _⟩ := hr.inv.valid _ _ ho l hl
    exact (List.getElem?_eq_some_iff.mp hb).1
  constructor
  · unfold TdmsFile.readChannelFrom
    rw [hpos]
    dsimp only
    rw [readPlan_eq start t.index.dataBlocks.length [locations segs c.path]
      (fun ls hls => by rw [List.mem_singleton.mp hls]; exact (hvalid c _ hpos).1)
      (fun ls hls => by rw [List.mem_singleton.mp hls]; exact (hvalid c _ hpos).2)]
    have hva : visitAll start B [locations segs c.path] = some ⟨B, [some pl]⟩ := by
      unfold visitAll
      simp [hv]
    obtain ⟨post, hplan⟩ := plan_split start _ B _ hBlt hva
    rw [hplan, filterMap_none (fun x hx => by
      unfold visitAll
      simp [hnone x (List.mem_range.mp hx)]), List.nil_append]
    show (executePlan S t _ _ >>= _) = _
    unfold executePlan
    obtain ⟨e, he, hval⟩ := executeBlock_unsupported (S := S) (br := ⟨B, [some pl]⟩) (ps := [⟨out, 0⟩]) (i := 0) hgb
      rfl rfl hincomplete hmb hsup
    rw [he]
    unfold blockRequests at hval
    rw [if_neg (by simp [hincomplete])] at hval
    unfold validateTypes at hval
    dsimp only at hval
    rw [hmb] at hval
    dsimp only at hval
    rw [if_neg (by simpa using hsup)] at hval
    cases hval
    rfl
  · intro cs outs i hci houti r hres
    unfold TdmsFile.readChannelsFrom at hres
    obtain ⟨pos, hlook, hres⟩ := bind_ok_iff.mp hres
    obtain ⟨ls, hls, hcls⟩ := lookupPositions_getElem? hlook hci
    rw [hpos] at hcls
    cases hcls
    have hall : ∀ ls ∈ pos, Increasing ls ∧ ∀ l ∈ ls, l.dataBlock < t.index.dataBlocks.length := by
      intro ls hls
      obtain ⟨c, hc⟩ := lookupPositions_mem hlook ls hls
      exact hvalid c ls hc
    rw [readPlan_eq start t.index.dataBlocks.length pos (fun ls h => (hall ls h).1) (fun ls h => (hall ls h).2)] at hres
    have hmap : (pos.map (visit start B))[i]? = some (some pl) := by rw [List.getElem?_map, hls, Option.map_some, hv]
    have hva : visitAll start B pos = some ⟨B, pos.map (visit start B)⟩ := by
      unfold visitAll
      rw [if_pos]
      rw [List.any_eq_true]
      exact ⟨some pl, List.mem_of_getElem? hmap, rfl⟩
    obtain ⟨post, hplan⟩ := plan_split start _ B _ hBlt hva
    rw [hplan] at hres
    obtain ⟨_, hpl, hres⟩ := bind_ok_iff.mp hres
    cases hpl
    obtain ⟨ps, hex, _⟩ := bind_ok_iff.mp hres
    obtain ⟨e, he⟩ := executePlan_unsupported (S := S) (t := t) (i := i) hincomplete
      (br := ⟨B, pos.map (visit start B)⟩) (post := post) hgb hmap hmb hsup
      ((List.range B).filterMap (fun b => visitAll start b pos)) (outs.map (fun o => ⟨o, 0⟩))
      (by rw [List.getElem?_map, houti]; rfl) (by
        intro x hx pl' hpl'
        obtain ⟨B', hB', hx⟩ := List.mem_filterMap.mp hx
        unfold visitAll at hx
        split at hx
        · cases hx
          dsimp only at hpl'
          rw [List.getElem?_map, hls, Option.map_some, hnone B' (List.mem_range.mp hB')] at hpl'
          cases hpl'
        · cases hx)
    rw [he] at hex
    cases hex

/-- **C39, channels of one type.** If a channel is stored as an unsupported type everywhere, a read
    into a non-empty buffer either leaves the buffer as it was, or fails; when there is a sample to read,
    it fails with `DataTypeMismatch` naming the type stored in the segment of the first wanted sample. -/
theorem wrong_type_never_reinterprets {α : Type} (S : Storage α) {segs : List Segment} {t : TdmsFile}
    (h : replay Index.new segs = .ok t.index) {c : ChannelPath} (hl : Listed (entries segs) c.path)
    (hsup : ∀ pre ∈ dataPrefixes segs, c.path ∈ active pre →
      ∀ m, layoutOf (entries pre) c.path = some m → m.dataType ∉ S.supported)
    (start : Nat) (out : List α) (hout : out ≠ []) :
    (∀ r, t.readChannelFrom S c start out = .ok r → r = out) ∧
    (start < sampleCount segs c.path →
      ∃ pre m, HoldsSample segs pre c.path start ∧ layoutOf (entries pre) c.path = some m ∧
        t.readChannelFrom S c start out = R.err (.dataTypeMismatch m.dataType S.natural)) := by
  have hr := replay_refines h
  have hpos := hr.positions hl
  have hvalid : Increasing (locations segs c.path) ∧
      ∀ l ∈ locations segs c.path, l.dataBlock < t.index.dataBlocks.length := by
    obtain ⟨o, ho, hol⟩ := Option.map_eq_some_iff.mp hpos
    refine ⟨hol ▸ hr.inv.incr _ _ ho, fun l hl => ?_⟩
    obtain ⟨b, _, _, hb, _⟩ := hr.inv.valid _ _ ho l (by rw [hol]; exact hl)
    exact (List.getElem?_eq_some_iff.mp hb).1
  -- the segment of the first sample
  have hfind : start < sampleCount segs c.path → ∃ pre, HoldsSample segs pre c.path start := by
    intro hlt
    have key : ∀ k, k ≤ (dataPrefixes segs).length → start < samplesBefore (locations segs c.path) k →
        ∃ pre, HoldsSample segs pre c.path start := by
      intro k
      induction k with
      | zero =>
        intro _ hk
        rw [samplesBefore_locations] at hk
        simp at hk
      | succ k ih =>
        intro hk1 hk2
        by_cases hk : start < samplesBefore (locations segs c.path) k
        · exact ih (by omega) hk
        · have hB := List.getElem?_eq_getElem (show k < (dataPrefixes segs).length by omega)
          obtain ⟨h1, h2, h3⟩ := sampleCount_at hB c.path
          refine ⟨_, ⟨List.mem_of_getElem? hB, ?_, by omega, by omega⟩⟩
          refine Classical.byContradiction (fun hn => ?_)
          have : samplesIn (dataPrefixes segs)[k] c.path = 0 := by unfold samplesIn; rw [if_neg hn]
          omega
    refine key (dataPrefixes segs).length (Nat.le_refl _) ?_
    rw [samplesBefore_locations, List.take_length]
    exact hlt
  have hmis : start < sampleCount segs c.path →
      ∃ pre m, HoldsSample segs pre c.path start ∧ layoutOf (entries pre) c.path = some m ∧
        t.readChannelFrom S c start out = R.err (.dataTypeMismatch m.dataType S.natural) := by
    intro hlt
    obtain ⟨pre, hp⟩ := hfind hlt
    obtain ⟨B, hB⟩ := List.mem_iff_getElem?.mp hp.data
    obtain ⟨j, hj⟩ := Option.isSome_iff_exists.mp (List.isSome_idxOf?.mpr hp.active)
    obtain ⟨_, m, hm⟩ := layout_at h hB hj
    exact ⟨pre, m, hp, hm, (wrong_type_rejected S h hp hm (hsup pre hp.data hp.active m hm) out hout).1⟩
  refine ⟨fun r hres => ?_, hmis⟩
  by_cases hlt : start < sampleCount segs c.path
  · obtain ⟨_, _, _, _, he⟩ := hmis hlt
    rw [he] at hres
    cases hres
  · unfold TdmsFile.readChannelFrom at hres
    rw [hpos] at hres
    dsimp only at hres
    rw [readPlan_eq start t.index.dataBlocks.length [locations segs c.path]
      (fun ls hls => by rw [List.mem_singleton.mp hls]; exact hvalid.1)
      (fun ls hls => by rw [List.mem_singleton.mp hls]; exact hvalid.2)] at hres
    have hplan : plan start t.index.dataBlocks.length [locations segs c.path] = [] := by
      unfold plan
      apply filterMap_none
      intro B _
      cases hv : visit start B (locations segs c.path) with
      | none => unfold visitAll; simp [hv]
      | some pl =>
        exfalso
        obtain ⟨pre, _, hp, _, _, _, _, _, _, _, _, _, _, hst⟩ := visit_segs hv
        rw [(sampleCount_at hp c.path).2.1, samplesBefore_locations] at hst
        apply hlt
        unfold sampleCount
        refine Nat.lt_of_lt_of_le hst ?_
        have hsplit := List.take_append_drop (B + 1) (dataPrefixes segs)
        conv => rhs; rw [← hsplit]
        rw [List.map_append, List.sum_append]
        omega
    rw [hplan] at hres
    cases hres
    rfl


/-- Reading a 16-bit channel as bytes, as strings or together with a channel of the right type. -/
theorem wrong_type_example :
    (∃ segs pre m, ∃ t : TdmsFile, replay Index.new segs = .ok t.index ∧
      HoldsSample segs pre (ChannelPath.new "g".toList "b".toList).path 2 ∧
      layoutOf (entries pre) (ChannelPath.new "g".toList "b".toList).path = some m ∧
      m.dataType ∉ (STy.u8.storage anyAlloc).supported) ∧
    readFrom .u8 (fileOf windowFile) "b" 2 [0#8] = R.err (.dataTypeMismatch .u16 .u8) ∧
    readFrom .string (fileOf windowFile) "b" 5 [("" : String).toList] = R.err (.dataTypeMismatch .u16 .tdmsString) ∧
    readManyFrom .u8 (fileOf windowFile) ["a", "b"] 0 [[0#8], [0#8]] = R.err (.dataTypeMismatch .u16 .u8) := by
  refine ⟨?_, by decide +kernel, by decide +kernel, by decide +kernel⟩
  obtain ⟨ix, hix⟩ := exists_ok (x := replay Index.new (windowFile.map FileSegment.segment)) (by decide +kernel)
  refine ⟨_, (windowFile.map FileSegment.segment).take 1, ⟨.u16, 2, none⟩, ⟨ix, []⟩, hix, ⟨?_, ?_, ?_, ?_⟩, ?_, ?_⟩ <;>
    decide +kernel

/-! ## C40 -/

/-- **C40** (partial: a contiguous block needs a first channel with values, and sizes must not overflow
    64 bits). In every state a user can get to, and for all types, channels, offsets and buffers,
    `read_channel_from` and `read_channels_from` return `Ok` or `Err`; they end and do not panic. -/
theorem read_never_panics_partial (al : Alloc) (ty : STy) {t : TdmsFile} (hs : Session al t) (start : Nat) :
    (∀ (c : ChannelPath) (out : List ty.Val),
      (∀ ls, t.index.getChannelDataPositions c = some ls → TameAt t ls) →
      (∃ r, t.readChannelFrom (ty.storage al) c start out = .ok r) ∨
      ∃ e, t.readChannelFrom (ty.storage al) c start out = R.err e) ∧
    (∀ (cs : List ChannelPath) (outs : List (List ty.Val)),
      (∀ c ∈ cs, ∀ ls, t.index.getChannelDataPositions c = some ls → TameAt t ls) →
      (∃ r, t.readChannelsFrom (ty.storage al) cs start outs = .ok r) ∨
      ∃ e, t.readChannelsFrom (ty.storage al) cs start outs = R.err e) := by
  have hi := hs.reach.inv
  have hS := STy.reads_sat al ty
  obtain ⟨hp, hm⟩ := STy.memSize_bounds al ty
  constructor
  · intro c out ht
    rcases readChannelFrom_sat hS hp hm hi c start out (fun ls hls => ⟨ht ls hls, fun _ => hs.sized hls⟩) with
      ⟨r, h, _⟩ | h
    · exact Or.inl ⟨r, h⟩
    · exact Or.inr h
  · intro cs outs ht
    rcases readChannelsFrom_sat hS hp hm hi cs start outs (fun c hc ls hls => ⟨ht c hc ls hls, hs.sized hls⟩) with
      ⟨r, h, _⟩ | h
    · exact Or.inl ⟨r, h⟩
    · exact Or.inr h

theorem numberOfValues_sum_le (ms : List RawDataMeta) (h : ∀ m ∈ ms, Format.ordinary m.dataType = true) :
    (ms.map (·.numberOfValues)).sum ≤ (ms.map (fun m => m.numberOfValues * m.dataType.size)).sum := by
  induction ms with
  | nil => simp
  | cons m ms ih =>
    have h1 := ih (fun x hx => h x (List.mem_cons_of_mem _ hx))
    have h2 := Format.ordinary_pos (h m List.mem_cons_self)
    have h3 : m.numberOfValues * 1 ≤ m.numberOfValues * m.dataType.size := Nat.mul_le_mul_left _ h2
    simp only [List.map_cons, List.sum_cons]
    omega

theorem sum_map_const {α : Type} (n : Nat) (f : α → Nat) : ∀ l : List α, (∀ x ∈ l, f x = n) → (l.map f).sum = l.length * n
  | [], _ => by simp
  | x :: l, h => by
    have := sum_map_const n f l (fun y hy => h y (List.mem_cons_of_mem _ hy))
    simp only [List.map_cons, List.sum_cons, List.length_cons, this, h x List.mem_cons_self, Nat.add_mul]
    omega

/-- Regular segments of files shorter than 2^58 bytes are tame. -/
theorem tame_of_regular {segs : List Segment} {t : TdmsFile} (h : replay Index.new segs = .ok t.index)
    (hf : t.bytes.length < 2 ^ 58) {c : ChannelPath}
    (hreg : ∀ pre ∈ dataPrefixes segs, c.path ∈ active pre → Regular t.bytes pre) {ls : List DataLocation}
    (hls : t.index.getChannelDataPositions c = some ls) : TameAt t ls := by
  have hr := replay_refines h
  have key : ∀ l ∈ ls, 0 < l.numberOfSamples → ∀ b, t.index.getDataBlock l.dataBlock = some b →
      b.Tame l.numberOfSamples := by
    intro l hl hn b hb
    have hloc : l ∈ locations segs c.path := by
      by_cases hlist : Listed (entries segs) c.path
      · rw [hr.positions hlist] at hls
        cases hls
        exact hl
      · unfold Index.getChannelDataPositions at hls
        obtain ⟨o, ho, hol⟩ := Option.map_eq_some_iff.mp hls
        have := (hr.obj.unlisted _ hlist).1
        rw [ho] at this
        cases this
    unfold locations at hloc
    obtain ⟨⟨pre, i⟩, hpi, hl'⟩ := List.mem_filterMap.mp hloc
    obtain ⟨j, hj, rfl⟩ := Option.map_eq_some_iff.mp hl'
    have hi : (dataPrefixes segs)[i]? = some pre := List.mem_zipIdx_iff_getElem?.mp hpi
    obtain ⟨b', hb', hgb⟩ := hr.block hi
    have hbb : b' = b := by rw [hgb] at hb; exact Option.some.inj hb
    subst hbb
    have hact : c.path ∈ active pre := List.isSome_idxOf?.mp (by rw [hj]; rfl)
    have hreg := hreg pre (List.mem_of_getElem? hi) hact
    obtain ⟨hm1, m, hm⟩ := layout_at h hi hj
    have hmem : m ∈ activeLayouts pre := by
      unfold activeLayouts
      exact List.mem_filterMap.mpr ⟨c.path, hact, hm⟩
    obtain ⟨s, hs, hch, hlen, hlay⟩ := blockOf_fields hb'
    obtain ⟨b2, hb2, hin⟩ := hreg.inside
    rw [hb'] at hb2
    cases hb2
    obtain ⟨n, hn0, hnall⟩ : ∃ n, 0 < n ∧ ∀ m ∈ activeLayouts pre, m.numberOfValues = n :=
      ⟨m.numberOfValues, (hreg.equal m hmem).1, fun m' hm' => ((hreg.equal m hmem).2 m' hm').symm⟩
    have hsum := numberOfValues_sum_le (activeLayouts pre) (fun m hm => (hreg.ordinary m hm).1)
    have hcb : ((activeLayouts pre).map (fun m => m.numberOfValues * m.dataType.size)).sum = chunkBytes pre := rfl
    have hconst := sum_map_const n (·.numberOfValues) (activeLayouts pre) hnall
    have hlpos : 0 < (activeLayouts pre).length := List.length_pos_of_mem hmem
    have hvpos : 0 < (activeLayouts pre).length * n := Nat.mul_pos hlpos hn0
    have hcpos : 0 < chunkBytes pre := by omega
    have hchunks : chunks pre = rawBytes pre / chunkBytes pre := by
      rw [chunks_ordinary hreg.ordinary, chunkBytes_ordinary hreg.ordinary]
    have hv : valuesPerChunk pre c.path = n := by
      unfold valuesPerChunk
      rw [hm]
      exact hnall m hmem
    have hcl : chunkBytes pre * chunks pre ≤ rawBytes pre := by
      rw [hchunks]; exact Nat.mul_div_le _ _
    have hcp : 0 < chunks pre := Nat.pos_of_ne_zero (fun h0 => by
      dsimp only at hn
      rw [h0] at hn
      simp at hn)
    have hcc : chunkBytes pre * 1 ≤ chunkBytes pre * chunks pre := Nat.mul_le_mul_left _ hcp
    refine ⟨?_, ?_, ?_⟩
    · intro _
      rw [hch]
      cases hal : activeLayouts pre with
      | nil => rw [hal] at hmem; cases hmem
      | cons m0 ms => exact ⟨m0, rfl, by rw [hnall m0 (by rw [hal]; exact List.mem_cons_self)]; exact hn0⟩
    · rw [hch]
      omega
    · intro _
      dsimp only
      rw [hch, hv, Nat.mul_assoc, ← Nat.mul_assoc _ n]
      have : (activeLayouts pre).length * n * chunks pre ≤ chunkBytes pre * chunks pre :=
        Nat.mul_le_mul_right _ (by omega)
      omega
  exact key

/-- **C40 for regular files**: no request for channels whose segments are regular panics, in files of
    less than 2^58 bytes. -/
theorem read_regular_never_panics_partial (al : Alloc) (ty : STy) {t : TdmsFile} (hs : Session al t)
    {segs : List Segment} (h : replay Index.new segs = .ok t.index) (hf : t.bytes.length < 2 ^ 58)
    (cs : List ChannelPath)
    (hreg : ∀ c ∈ cs, ∀ pre ∈ dataPrefixes segs, c.path ∈ active pre → Regular t.bytes pre)
    (start : Nat) (outs : List (List ty.Val)) :
    ((∃ r, t.readChannelsFrom (ty.storage al) cs start outs = .ok r) ∨
      ∃ e, t.readChannelsFrom (ty.storage al) cs start outs = R.err e) ∧
    ∀ c ∈ cs, ∀ out, (∃ r, t.readChannelFrom (ty.storage al) c start out = .ok r) ∨
      ∃ e, t.readChannelFrom (ty.storage al) c start out = R.err e := by
  have ht : ∀ c ∈ cs, ∀ ls, t.index.getChannelDataPositions c = some ls → TameAt t ls :=
    fun c hc ls hls => tame_of_regular h hf (hreg c hc) hls
  refine ⟨(read_never_panics_partial al ty hs start).2 cs outs ht, fun c hc out => ?_⟩
  exact (read_never_panics_partial al ty hs start).1 c out (ht c hc)

/-- C40 is false in full. The first channel of the block has no values: division by zero. -/
theorem read_never_panics_first_counterexample :
    readFrom .u16 (fileOf [dataSegment .little false [("a", .u8, 0), ("b", .u16, 1)] [1, 0]]) "b" 0 (vals16 [0])
      = R.panic .divByZero := by decide +kernel

/-- C40 is false in full. A file that claims 2^62 strings: the size of a chunk overflows. -/
theorem read_never_panics_overflow_counterexample :
    readFrom .string (fileOf [dataSegment .little false [("a", .u8, 1), ("b", .tdmsString, 2 ^ 62)] [1]]) "b" 0
      [("" : String).toList] = R.panic .overflow := by decide +kernel

/-- Requests that do not panic: a start behind the end, a wrong type, an unknown channel, no buffer. -/
theorem read_never_panics_example :
    readFrom .u16 (fileOf windowFile) "b" 1000 (vals16 [7]) = .ok (vals16 [7]) ∧
    readFrom .u16 (fileOf windowFile) "a" 0 (vals16 [7]) = R.err (.dataTypeMismatch .u8 .u16) ∧
    readFrom .u16 (fileOf windowFile) "x" 0 (vals16 [7])
      = R.err (.missingObject (ChannelPath.new "g".toList "x".toList).path) ∧
    readManyFrom .u16 (fileOf windowFile) ["b", "b"] 0 [] = .ok [] := by
  refine ⟨?_, ?_, ?_, ?_⟩ <;> decide +kernel

/-! ## C26, the data of a cut file -/

/-- **C26, data** (partial: same limits as C36). After a file was cut, reading a window whose segments
    are complete in the cut file gives the values they have in the uncut file. -/
theorem truncated_data_partial (al : Alloc) (ty : STy) (hty : Format.ordinaryTy ty = true) (f : Bytes) (n : Nat)
    {segs : List Segment} {t : TdmsFile} (h : replay Index.new segs = .ok t.index) (ht : t.bytes = f.take n)
    (hf : f.length < 2 ^ 63) (c : ChannelPath) (hl : Listed (entries segs) c.path) (start : Nat) (out : List ty.Val)
    (hread : ReadableIn (ty.storage al).supported (f.take n) segs c.path start out.length) :
    t.readChannelFrom (ty.storage al) c start out =
      .ok (overlay out ((channelSamples (Format.decode ty) f segs c.path).drop start)) := by
  have hlen : (f.take n).length ≤ f.length := by rw [List.length_take]; omega
  have h1 := read_window_partial al ty hty h (by rw [ht]; omega) c hl start out (by rw [ht]; exact hread)
  have hg : Grows t ⟨t.index, f⟩ := ⟨⟨f.drop n, by rw [ht, List.take_append_drop]⟩, [], (List.append_nil _).symm⟩
  have h2 := readChannelFrom_mono (S := ty.storage al) (STy.mono al ty) hg rfl h1
  have h3 := read_window_partial al ty hty (t := ⟨t.index, f⟩) h hf c hl start out (by
    intro pre hpre hact hst hin hpos
    have hr := hread pre hpre hact hst hin hpos
    refine ⟨hr.stored, ?_, hr.ordinary, hr.contiguous, hr.interleaved⟩
    obtain ⟨b, hb, hle⟩ := hr.inside
    exact ⟨b, hb, by dsimp only; omega⟩)
  rw [h1, ← h2, h3]

/-- The samples of a file with fewer segments are the first samples of the channel. -/
theorem channelSamples_prefix {α : Type} (dec : Endian → Bytes → α) (f : Bytes) (segs rest : List Segment) (path : Text) :
    channelSamples dec f segs path <+: channelSamples dec f (segs ++ rest) path := by
  induction rest using snocInduction with
  | nil => rw [List.append_nil]; exact List.prefix_rfl
  | snoc rest s ih =>
    refine ih.trans ?_
    rw [← List.append_assoc]
    unfold channelSamples
    rw [dataPrefixes_snoc, List.flatMap_append]
    exact List.prefix_append _ _

/-- The example file cut in the second segment's raw data: all samples of the first segment can still be read. -/
theorem truncated_data_example :
    readFrom .u16 ((fileOf windowFile).take 224) "b" 1 (vals16 [0, 0, 0]) = .ok (vals16 [11, 12, 13]) := by
  decide +kernel

/-- C26 is false in full for the data: a complete row of interleaved data at the end of a cut file
    cannot be read, because the reader always reads one row more than it needs. -/
theorem truncated_data_counterexample :
    (fileOf windowFile).length = 226 ∧
    readFrom .u16 ((fileOf windowFile).take 224) "b" 4 (vals16 [0]) = R.err (.ioError .unexpectedEof) := by
  decide +kernel

end Tedium
