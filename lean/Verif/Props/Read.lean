import Verif.Proofs.ReadFile
import Verif.Proofs.Fixed
import Verif.Props.Open

/-!
# C36-C38, C41: what reading returns

`channelSamples (Format.decode ty) f segs path` (`Verif.Spec.Samples`) are the samples of a channel
according to the file format, computed from byte positions only. `overlay out xs` is the buffer `out`
after the values `xs` were stored at its start.
-/

namespace Tedium
open SegSpec PlanSpec

/-! ## C38 -/

theorem lookupPositions_mem {t : TdmsFile} {cs : List ChannelPath} {pos : List (List DataLocation)}
    (h : t.lookupPositions cs = .ok pos) : ∀ ls ∈ pos, ∃ c, t.index.getChannelDataPositions c = some ls := by
  induction cs generalizing pos with
  | nil => cases h; simp
  | cons c cs ih =>
    unfold TdmsFile.lookupPositions at h
    cases hc : t.index.getChannelDataPositions c with
    | none => rw [hc] at h; cases h
    | some ls =>
      rw [hc] at h
      cases hr : t.lookupPositions cs with
      | error e => rw [hr] at h; cases h
      | ok pos' =>
        rw [hr] at h
        cases h
        intro x hx
        rcases List.mem_cons.mp hx with rfl | hx
        · exact ⟨c, hc⟩
        · exact ih hr x hx

/-- **C38.** In every state a user can get to, and for all channels and start offsets, planning a read
    ends with a plan that lists blocks in strictly increasing order, and lists exactly the blocks in
    which one of the channels has a sample with number `start` or more. For each channel the entry
    says whether it has such a sample in the block and how many samples come before it
    (`PlanSpec.visitAll`). -/
theorem read_plan_exact {al : Alloc} {t : TdmsFile} (hs : Session al t) (cs : List ChannelPath) (start : Nat)
    (pos : List (List DataLocation)) (hpos : t.lookupPositions cs = .ok pos) :
    ∃ plan, readPlan pos start = .ok plan ∧
      plan.Pairwise (fun a b => a.dataBlock < b.dataBlock) ∧
      ∀ br, br ∈ plan ↔ visitAll start br.dataBlock pos = some br := by
  have hi := hs.reach.inv
  have hvalid : ∀ ls ∈ pos, Increasing ls ∧ ∀ l ∈ ls, l.dataBlock < t.index.dataBlocks.length := by
    intro ls hls
    obtain ⟨c, hc⟩ := lookupPositions_mem hpos ls hls
    obtain ⟨o, ho, rfl⟩ := Option.map_eq_some_iff.mp hc
    refine ⟨hi.incr _ _ ho, fun l hl => ?_⟩
    obtain ⟨b, _, _, hb, _⟩ := hi.valid _ _ ho l hl
    exact (List.getElem?_eq_some_iff.mp hb).1
  have hfst : ∀ B br, visitAll start B pos = some br → br.dataBlock = B := by
    intro B br h
    unfold visitAll at h
    split at h
    · cases h; rfl
    · cases h
  refine ⟨_, readPlan_eq start t.index.dataBlocks.length pos (fun ls h => (hvalid ls h).1)
    (fun ls h => (hvalid ls h).2), ?_, ?_⟩
  · unfold plan
    refine List.Pairwise.filterMap _ (R := (· < ·)) ?_ List.pairwise_lt_range
    intro a a' hlt b hb b' hb'
    rw [hfst a b hb, hfst a' b' hb']
    exact hlt
  · intro br
    unfold plan
    rw [List.mem_filterMap]
    constructor
    · rintro ⟨B, _, h⟩
      rw [hfst B br h]
      exact h
    · intro h
      refine ⟨br.dataBlock, List.mem_range.mpr ?_, h⟩
      unfold visitAll at h
      split at h
      · rename_i hany
        rw [List.any_map, List.any_eq_true] at hany
        obtain ⟨ls, hls, hv⟩ := hany
        obtain ⟨pl, hv⟩ := Option.isSome_iff_exists.mp hv
        unfold visit at hv
        cases hf : ls.find? (fun l => l.dataBlock == br.dataBlock) with
        | none => rw [hf] at hv; cases hv
        | some l =>
          have hlB : l.dataBlock = br.dataBlock := by simpa using List.find?_some hf
          rw [← hlB]
          exact (hvalid ls hls).2 l (List.mem_of_find?_eq_some hf)
      · cases h

/-- A plan that skips a block of one channel, starts in the middle of a block of the other, and goes on. -/
example : readPlan [[⟨0, 0, 4⟩, ⟨2, 1, 4⟩], [⟨0, 1, 2⟩, ⟨1, 0, 3⟩, ⟨2, 0, 4⟩]] 3 =
    .ok [⟨0, [some ⟨0, 3⟩, none]⟩, ⟨1, [none, some ⟨0, 1⟩]⟩, ⟨2, [some ⟨1, 0⟩, some ⟨0, 0⟩]⟩] := by decide +kernel

/-! ## C36 -/

/-- **C36** (partial: for integers, floats, complex floats and booleans, and for segments that are
    `Readable`; see the counterexamples for what goes wrong elsewhere). Reading from sample `start`
    stores the samples `start`, `start + 1`, ... of the channel in the buffer and leaves the rest of
    the buffer as it was, for every number of segments, mix of layouts, byte orders, chunks and
    channel sets. Only the segments that hold one of the wanted samples have to be `Readable`. -/
theorem read_window_partial (al : Alloc) (ty : STy) (hty : Format.ordinaryTy ty = true) {segs : List Segment}
    {t : TdmsFile} (h : replay Index.new segs = .ok t.index) (hf : t.bytes.length < 2 ^ 63) (c : ChannelPath)
    (hl : Listed (entries segs) c.path) (start : Nat) (out : List ty.Val)
    (hread : ReadableIn (ty.storage al).supported t.bytes segs c.path start out.length) :
    t.readChannelFrom (ty.storage al) c start out =
      .ok (overlay out ((channelSamples (Format.decode ty) t.bytes segs c.path).drop start)) :=
  readChannelFrom_segs (STy.fixed al ty hty) h hf c hl start out hread

/-- Cell `i` of an overlaid buffer: the value if there is one, otherwise the old cell. -/
theorem overlay_getElem? {α : Type} (out xs : List α) (i : Nat) (hi : i < out.length) :
    (overlay out xs)[i]? = (xs[i]?).or out[i]? := by
  unfold overlay
  rw [List.getElem?_append, List.length_take, List.getElem?_take]
  by_cases hx : i < xs.length
  · rw [if_pos (by omega), if_pos hi, List.getElem?_eq_getElem hx]; rfl
  · rw [if_neg (by omega), List.getElem?_eq_none (by omega : xs.length ≤ i), List.getElem?_drop]
    show _ = out[i]?
    congr 1
    omega

/-- **C36, cell by cell.** The buffer keeps its length, and its cell `i` is sample number `start + i`,
    or what it was if the channel has no such sample. -/
theorem read_window_cells_partial (al : Alloc) (ty : STy) (hty : Format.ordinaryTy ty = true)
    {segs : List Segment} {t : TdmsFile} (h : replay Index.new segs = .ok t.index) (hf : t.bytes.length < 2 ^ 63)
    (c : ChannelPath) (hl : Listed (entries segs) c.path) (start : Nat) (out : List ty.Val)
    (hread : ReadableIn (ty.storage al).supported t.bytes segs c.path start out.length) :
    ∃ r, t.readChannelFrom (ty.storage al) c start out = .ok r ∧ r.length = out.length ∧
      (channelSamples (Format.decode ty) t.bytes segs c.path).length = sampleCount segs c.path ∧
      ∀ i < out.length, r[i]? =
        ((channelSamples (Format.decode ty) t.bytes segs c.path)[start + i]?).or out[i]? := by
  refine ⟨_, read_window_partial al ty hty h hf c hl start out hread, length_overlay _ _,
    length_channelSamples h _ _, ?_⟩
  intro i hi
  rw [overlay_getElem? _ _ _ hi, List.getElem?_drop]

theorem chunkBytesOf_equal {n : Nat} : ∀ (ms : List RawDataMeta), (∀ m ∈ ms, m.numberOfValues = n) →
    chunkBytesOf ms = n * rowBytesOf ms
  | [], _ => by simp [chunkBytesOf, rowBytesOf]
  | m :: ms, h => by
    have ih := chunkBytesOf_equal ms (fun x hx => h x (List.mem_cons_of_mem _ hx))
    unfold chunkBytesOf rowBytesOf at ih ⊢
    rw [List.map_cons, List.sum_cons, List.map_cons, List.sum_cons, ih, h m List.mem_cons_self, Nat.mul_add]

theorem chunkBytes_ordinary {pre : List Segment}
    (h : ∀ m ∈ activeLayouts pre, Format.ordinary m.dataType = true ∧ m.totalSizeBytes = none) :
    chunkBytes pre = chunkBytesOf (activeLayouts pre) := by
  unfold chunkBytes chunkBytesOf
  congr 1
  apply List.map_congr_left
  intro m hm
  rw [Format.bytesOf_ordinary (h m hm).1]

/-- Regular segments are readable, for every channel and start. -/
theorem SegSpec.Regular.readable {segs : List Segment} {ix : Index} (h : replay Index.new segs = .ok ix)
    {supported : List DataType} {f : Bytes} {pre : List Segment} (hpre : pre ∈ dataPrefixes segs)
    (hr : Regular f pre) {path : Text} (hact : path ∈ active pre)
    (hsup : ∀ m, layoutOf (entries pre) path = some m → m.dataType ∈ supported) (start : Nat) :
    Readable supported f pre path start := by
  obtain ⟨i, hi⟩ := List.mem_iff_getElem?.mp hpre
  obtain ⟨j, hj⟩ := Option.isSome_iff_exists.mp (List.isSome_idxOf?.mpr hact)
  obtain ⟨hm1, m, hm⟩ := layout_at h hi hj
  have hmem : m ∈ activeLayouts pre := by
    unfold activeLayouts
    exact List.mem_filterMap.mpr ⟨path, hact, hm⟩
  obtain ⟨n, hn0, hn⟩ : ∃ n, 0 < n ∧ ∀ m ∈ activeLayouts pre, m.numberOfValues = n :=
    ⟨m.numberOfValues, (hr.equal m hmem).1, fun m' hm' => ((hr.equal m hmem).2 m' hm').symm⟩
  have hvpc : valuesPerChunk pre path = n := by
    unfold valuesPerChunk
    rw [hm]
    exact hn m hmem
  refine ⟨⟨m, hm, hsup m hm⟩, hr.inside, hr.ordinary, ?_, ?_⟩
  · intro _
    cases hal : activeLayouts pre with
    | nil => rw [hal] at hmem; cases hmem
    | cons m0 ms =>
      refine ⟨m0, rfl, ?_, Or.inr ?_⟩
      · rw [hn m0 (by rw [hal]; exact List.mem_cons_self)]; exact hn0
      · rw [hn m0 (by rw [hal]; exact List.mem_cons_self), hvpc]
  · intro hint
    unfold samplesIn
    rw [if_pos hact, hvpc, chunks_ordinary hr.ordinary, chunkBytesOf_equal _ hn]
    obtain ⟨k, hk⟩ := hr.whole hint
    rw [chunkBytes_ordinary hr.ordinary, chunkBytesOf_equal _ hn] at hk
    rw [hk]
    have hrow : 0 < rowBytesOf (activeLayouts pre) := by
      have hpos : 0 < Format.bytesOf m.dataType := by
        rw [Format.bytesOf_ordinary (hr.ordinary m hmem).1]
        exact Format.ordinary_pos (hr.ordinary m hmem).1
      obtain ⟨x, y, hxy⟩ := List.append_of_mem hmem
      unfold rowBytesOf
      rw [hxy]
      simp
      omega
    rw [Nat.mul_div_cancel_left _ (Nat.mul_pos hn0 hrow), Nat.mul_comm n, Nat.mul_assoc,
      Nat.mul_div_cancel_left _ hrow]

/-- **C36 for regular files.** If the segments in which the channel has data are regular, i.e. the
    channels of a segment have equal length, every window of the channel is read correctly. -/
theorem read_window_regular_partial (al : Alloc) (ty : STy) (hty : Format.ordinaryTy ty = true)
    {segs : List Segment} {t : TdmsFile} (h : replay Index.new segs = .ok t.index) (hf : t.bytes.length < 2 ^ 63)
    (c : ChannelPath) (hl : Listed (entries segs) c.path)
    (hreg : ∀ pre ∈ dataPrefixes segs, c.path ∈ active pre → Regular t.bytes pre ∧
      ∀ m, layoutOf (entries pre) c.path = some m → m.dataType ∈ (ty.storage al).supported)
    (start : Nat) (out : List ty.Val) :
    t.readChannelFrom (ty.storage al) c start out =
      .ok (overlay out ((channelSamples (Format.decode ty) t.bytes segs c.path).drop start)) :=
  read_window_partial al ty hty h hf c hl start out (fun pre hpre hact _ _ _ =>
    (hreg pre hpre hact).1.readable h hpre hact (hreg pre hpre hact).2 start)

/-- A data segment as found in files: new object list, metadata for the channels `chs`, raw data. -/
def dataSegment (e : Endian) (interleaved : Bool) (chs : List (String × DataType × Nat)) (data : Bytes) :
    FileSegment :=
  let md : MetaData := { objects := chs.map (fun c =>
    { path := (ChannelPath.new "g".toList c.1.toList).path, properties := []
      rawDataIndex := .rawData { dataType := c.2.1, numberOfValues := c.2.2 } }) }
  { endian := e
    toc := { containsMetaData := true, containsRawData := true, containsNewObjectList := true
             dataIsInterleaved := interleaved, bigEndian := e = .big }
    version := 4713, rawOffset := md.size, metaData := md, rest := data }

/-- The bytes of a file made of segments. -/
def fileOf (fs : List FileSegment) : Bytes := fs.flatMap FileSegment.encode

/-- Read from a channel of group `g` of a file. -/
def readFrom (ty : STy) (f : Bytes) (ch : String) (start : Nat) (out : List ty.Val) : R (List ty.Val) := do
  let t ← TdmsFile.new anyAlloc f
  t.readChannelFrom (ty.storage anyAlloc) (.new "g".toList ch.toList) start out

theorem exists_ok {α : Type} {x : R α} (h : x.isOk = true) : ∃ a, x = .ok a := by
  cases x with
  | ok a => exact ⟨a, rfl⟩
  | error e => cases h

/-- 16-bit values -/
def vals16 (l : List Nat) : List STy.u16.Val := l.map (fun n => BitVec.ofNat 16 n)

/-- A file with two chunks of contiguous data of two channels, then an interleaved big-endian segment. -/
def windowFile : List FileSegment :=
  [dataSegment .little false [("a", .u8, 2), ("b", .u16, 2)] [1, 2, 10, 0, 11, 0, 3, 4, 12, 0, 13, 0],
   dataSegment .big true [("b", .u16, 1), ("a", .u8, 1)] [0, 14, 5, 0, 15, 6]]

/-- The theorem's hypotheses hold for it, and the samples are as expected. -/
theorem windowFile_regular : ∃ t, TdmsFile.new anyAlloc (fileOf windowFile) = .ok t ∧
    replay Index.new (windowFile.map FileSegment.segment) = .ok t.index ∧
    t.bytes.length < 2 ^ 63 ∧
    Listed (entries (windowFile.map FileSegment.segment)) (ChannelPath.new "g".toList "b".toList).path ∧
    (∀ pre ∈ dataPrefixes (windowFile.map FileSegment.segment), Regular t.bytes pre ∧
      ∀ m, layoutOf (entries pre) (ChannelPath.new "g".toList "b".toList).path = some m →
        m.dataType ∈ (STy.u16.storage anyAlloc).supported) ∧
    channelSamples (Format.decode .u16) t.bytes (windowFile.map FileSegment.segment)
      (ChannelPath.new "g".toList "b".toList).path = vals16 [10, 11, 12, 13, 14, 15] ∧
    t.readChannelFrom (STy.u16.storage anyAlloc) (.new "g".toList "b".toList) 3 (vals16 [0, 0, 0, 99])
      = .ok (vals16 [13, 14, 15, 99]) := by
  obtain ⟨ix, hix⟩ := exists_ok (x := replay Index.new (windowFile.map FileSegment.segment)) (by decide +kernel)
  have hopen : buildIndex anyAlloc (fileOf windowFile) = replay Index.new (windowFile.map FileSegment.segment) := by
    decide +kernel
  have hread : readFrom .u16 (fileOf windowFile) "b" 3 (vals16 [0, 0, 0, 99]) = .ok (vals16 [13, 14, 15, 99]) := by
    decide +kernel
  have hnew : TdmsFile.new anyAlloc (fileOf windowFile) = .ok ⟨ix, fileOf windowFile⟩ := by
    unfold TdmsFile.new; rw [hopen, hix]; rfl
  unfold readFrom at hread
  rw [hnew] at hread
  refine ⟨_, hnew, hix, by show (fileOf windowFile).length < _; decide +kernel,
    by unfold Listed; decide +kernel, ?_, ?_, hread⟩
  rotate_left
  · show channelSamples _ (fileOf windowFile) _ _ = _
    decide +kernel
  intro pre hpre
  have h : ∀ pre ∈ dataPrefixes (windowFile.map FileSegment.segment),
      ((∃ b ∈ blockOf pre, b.start + b.length ≤ (fileOf windowFile).length) ∧
      (∀ m ∈ activeLayouts pre, Format.ordinary m.dataType = true ∧ m.totalSizeBytes = none) ∧
      (∀ m ∈ activeLayouts pre, 0 < m.numberOfValues ∧
        ∀ m' ∈ activeLayouts pre, m.numberOfValues = m'.numberOfValues) ∧
      ((∃ s ∈ pre.getLast?, s.toc.dataIsInterleaved = true) → chunkBytes pre ∣ rawBytes pre)) ∧
      ∀ m ∈ layoutOf (entries pre) (ChannelPath.new "g".toList "b".toList).path,
        m.dataType ∈ (STy.u16.storage anyAlloc).supported := by decide +kernel
  obtain ⟨⟨h1, h2, h3, h4⟩, h5⟩ := h pre hpre
  exact ⟨⟨h1, h2, h3, h4⟩, h5⟩

/-- C36 fails when the channels of a contiguous segment have different lengths and reading starts in
    the segment: `b` has the samples 10, 11, 12, 13, but reading from sample 1 skips a whole chunk,
    because channel `a` has one value per chunk. -/
theorem read_window_lengths_counterexample :
    readFrom .u16 (fileOf [dataSegment .little false [("a", .u8, 1), ("b", .u16, 2)]
      [1, 10, 0, 11, 0, 2, 12, 0, 13, 0]]) "b" 0 (vals16 [0, 0, 0, 0]) = .ok (vals16 [10, 11, 12, 13]) ∧
    readFrom .u16 (fileOf [dataSegment .little false [("a", .u8, 1), ("b", .u16, 2)]
      [1, 10, 0, 11, 0, 2, 12, 0, 13, 0]]) "b" 1 (vals16 [0, 0, 0]) = .ok (vals16 [12, 13, 0]) := by
  constructor <;> decide +kernel

/-- C36 fails next to a timestamp channel, whose values are taken to have 8 bytes: the four bytes of
    the value of `b` (1, 0) are preceded by the 16 bytes of a timestamp, and the reader looks in the
    middle of the timestamp. -/
theorem read_window_timestamp_counterexample :
    readFrom .u16 (fileOf [dataSegment .little false [("t", .timestamp, 1), ("b", .u16, 1)]
      ([7, 7, 7, 7, 7, 7, 7, 7, 9, 9, 9, 9, 9, 9, 9, 9] ++ [1, 0])]) "b" 0 (vals16 [0])
      = .ok (vals16 [0x0909]) := by decide +kernel

/-- C36 fails for interleaved data that ends in the middle of a chunk: the channel's length is 2, but
    three values are stored in the buffer. -/
theorem read_window_partial_chunk_counterexample :
    (do let t ← TdmsFile.new anyAlloc (fileOf [dataSegment .little true [("b", .u16, 2)] [1, 0, 2, 0, 3, 0]])
        return (← t.channelLength (.new "g".toList "b".toList),
          ← t.readChannel (STy.u16.storage anyAlloc) (.new "g".toList "b".toList) (vals16 [0, 0, 0])))
      = .ok (some 2, vals16 [1, 2, 3]) := by decide +kernel

/-! ## C37 -/

theorem SegSpec.ReadableFrom.readableIn {supported : List DataType} {f : Bytes} {segs : List Segment} {path : Text}
    {start : Nat} (h : ReadableFrom supported f segs path start) (n : Nat) :
    ReadableIn supported f segs path start n := fun pre hpre hact hst _ hpos => h pre hpre hact hst hpos

/-- **C37** (partial: the requested channels are distinct and at the same point in the segments they
    share, and there the buffers have the same length; same limits as C36 otherwise). Reading several
    channels at once stores in each buffer what reading that channel alone stores. -/
theorem read_channels_agree_partial (al : Alloc) (ty : STy) (hty : Format.ordinaryTy ty = true)
    {segs : List Segment} {t : TdmsFile} (h : replay Index.new segs = .ok t.index) (hf : t.bytes.length < 2 ^ 63)
    (start : Nat) (cs : List (ChannelPath × List ty.Val))
    (hl : ∀ c ∈ cs, Listed (entries segs) c.1.path)
    (hread : ∀ c ∈ cs, ReadableFrom (ty.storage al).supported t.bytes segs c.1.path start)
    (hdist : cs.Pairwise (fun c d => c.1.path ≠ d.1.path))
    (hstep : ∀ c ∈ cs, ∀ d ∈ cs, InStep segs c.1.path d.1.path)
    (hlen : ∀ c ∈ cs, ∀ d ∈ cs, (∃ pre ∈ dataPrefixes segs, c.1.path ∈ active pre ∧ d.1.path ∈ active pre) →
      c.2.length = d.2.length) :
    ∃ outs, t.readChannelsFrom (ty.storage al) (cs.map (·.1)) start (cs.map (·.2)) = .ok outs ∧
      outs.length = cs.length ∧
      ∀ (i : Nat) (c : ChannelPath × List ty.Val), cs[i]? = some c →
        ∃ o, outs[i]? = some o ∧ t.readChannelFrom (ty.storage al) c.1 start c.2 = .ok o ∧
          o = overlay c.2 ((channelSamples (Format.decode ty) t.bytes segs c.1.path).drop start) := by
  refine ⟨_, readChannelsFrom_segs (STy.fixed al ty hty) h hf start cs hl hread hdist hstep hlen,
    List.length_map _, ?_⟩
  intro i c hc
  have hmem := List.mem_of_getElem? hc
  refine ⟨_, by rw [List.getElem?_map, hc]; rfl, ?_, rfl⟩
  exact read_window_partial al ty hty h hf c.1 (hl c hmem) start c.2 (ReadableFrom.readableIn (hread c hmem) _)

/-- Read channels of group `g` of a file. -/
def readManyFrom (ty : STy) (f : Bytes) (chs : List String) (start : Nat) (outs : List (List ty.Val)) :
    R (List (List ty.Val)) := do
  let t ← TdmsFile.new anyAlloc f
  t.readChannelsFrom (ty.storage anyAlloc) (chs.map (fun c => .new "g".toList c.toList)) start outs

/-- Three channels: two share the first segment, one is only in the second. -/
def manyFile : List FileSegment :=
  [dataSegment .little true [("a", .u16, 1), ("b", .u16, 1)] [1, 0, 10, 0, 2, 0, 11, 0],
   dataSegment .little false [("c", .u16, 2)] [20, 0, 21, 0, 22, 0, 23, 0]]

/-- The hypotheses of C37 hold for it. -/
theorem manyFile_agrees : ∃ t, TdmsFile.new anyAlloc (fileOf manyFile) = .ok t ∧
    replay Index.new (manyFile.map FileSegment.segment) = .ok t.index ∧
    (∀ pre ∈ dataPrefixes (manyFile.map FileSegment.segment), Regular t.bytes pre ∧
      ∀ c ∈ ["a", "b", "c"], ∀ m, layoutOf (entries pre) (ChannelPath.new "g".toList c.toList).path = some m →
        m.dataType ∈ (STy.u16.storage anyAlloc).supported) ∧
    (∀ c ∈ ["a", "b", "c"], ∀ d ∈ ["a", "b", "c"], InStep (manyFile.map FileSegment.segment)
      (ChannelPath.new "g".toList c.toList).path (ChannelPath.new "g".toList d.toList).path) ∧
    t.readChannelsFrom (STy.u16.storage anyAlloc)
        (["a", "c", "b"].map (fun c => ChannelPath.new "g".toList c.toList)) 1
        [vals16 [0, 0], vals16 [0, 0, 0], vals16 [9, 9]]
      = .ok [vals16 [2, 0], vals16 [21, 22, 23], vals16 [11, 9]] := by
  obtain ⟨ix, hix⟩ := exists_ok (x := replay Index.new (manyFile.map FileSegment.segment)) (by decide +kernel)
  have hopen : buildIndex anyAlloc (fileOf manyFile) = replay Index.new (manyFile.map FileSegment.segment) := by
    decide +kernel
  have hread : readManyFrom .u16 (fileOf manyFile) ["a", "c", "b"] 1 [vals16 [0, 0], vals16 [0, 0, 0], vals16 [9, 9]]
      = .ok [vals16 [2, 0], vals16 [21, 22, 23], vals16 [11, 9]] := by decide +kernel
  have hnew : TdmsFile.new anyAlloc (fileOf manyFile) = .ok ⟨ix, fileOf manyFile⟩ := by
    unfold TdmsFile.new; rw [hopen, hix]; rfl
  unfold readManyFrom at hread
  rw [hnew] at hread
  refine ⟨_, hnew, hix, ?_, by unfold InStep; decide +kernel, hread⟩
  intro pre hpre
  have h : ∀ pre ∈ dataPrefixes (manyFile.map FileSegment.segment),
      ((∃ b ∈ blockOf pre, b.start + b.length ≤ (fileOf manyFile).length) ∧
      (∀ m ∈ activeLayouts pre, Format.ordinary m.dataType = true ∧ m.totalSizeBytes = none) ∧
      (∀ m ∈ activeLayouts pre, 0 < m.numberOfValues ∧
        ∀ m' ∈ activeLayouts pre, m.numberOfValues = m'.numberOfValues) ∧
      ((∃ s ∈ pre.getLast?, s.toc.dataIsInterleaved = true) → chunkBytes pre ∣ rawBytes pre)) ∧
      ∀ c ∈ ["a", "b", "c"], ∀ m ∈ layoutOf (entries pre) (ChannelPath.new "g".toList c.toList).path,
        m.dataType ∈ (STy.u16.storage anyAlloc).supported := by decide +kernel
  obtain ⟨⟨h1, h2, h3, h4⟩, h5⟩ := h pre hpre
  exact ⟨⟨h1, h2, h3, h4⟩, h5⟩

/-- C37 fails for buffers of different lengths: the number of values read for the last channel counts
    as progress of both, so that the second sample of `a` is overwritten by the third. -/
theorem read_channels_buffers_counterexample :
    let f := fileOf [dataSegment .little false [("a", .u16, 2), ("b", .u16, 2)] [1, 0, 2, 0, 10, 0, 11, 0],
      dataSegment .little false [("a", .u16, 2), ("b", .u16, 2)] [3, 0, 4, 0, 12, 0, 13, 0]]
    readFrom .u16 f "a" 0 (vals16 [0, 0, 0, 0]) = .ok (vals16 [1, 2, 3, 4]) ∧
    readManyFrom .u16 f ["a", "b"] 0 [vals16 [0, 0, 0, 0], vals16 [0]]
      = .ok [vals16 [1, 3, 4, 0], vals16 [10]] := by
  constructor <;> decide +kernel

/-- C37 fails for channels that are out of step: `b` has one sample less before the shared segment. -/
theorem read_channels_out_of_step_counterexample :
    let f := fileOf [dataSegment .little false [("a", .u16, 1)] [1, 0],
      dataSegment .little true [("a", .u16, 3), ("b", .u16, 3)] [2, 0, 10, 0, 3, 0, 11, 0, 4, 0, 12, 0]]
    readFrom .u16 f "b" 1 (vals16 [0, 0]) = .ok (vals16 [11, 12]) ∧
    (readManyFrom .u16 f ["b", "a"] 1 [vals16 [0, 0], vals16 [0, 0]]
      ≠ .ok [vals16 [11, 12], vals16 [2, 3]]) := by
  constructor <;> decide +kernel

/-- C37 fails when a channel is requested twice: only the last buffer is filled. -/
theorem read_channels_twice_counterexample :
    readManyFrom .u16 (fileOf [dataSegment .little false [("a", .u16, 1)] [7, 0]]) ["a", "a"] 0
      [vals16 [0], vals16 [0]] = .ok [vals16 [0], vals16 [7]] := by decide +kernel

/-! ## C41 -/

/-- storing `xs` in two buffers in a row -/
theorem overlay_split {α : Type} (o1 o2 xs : List α) :
    overlay (o1 ++ o2) xs = overlay o1 xs ++ overlay o2 (xs.drop o1.length) := by
  unfold overlay
  rw [List.length_append, List.length_drop, List.take_add, List.drop_append]
  rcases Nat.le_total xs.length o1.length with h | h
  · rw [List.drop_eq_nil_of_le (as := xs) h, Nat.sub_eq_zero_of_le h]
    simp
  · rw [List.drop_eq_nil_of_le (as := o1) h]
    simp

/-- **C41** (partial: limits of C36). Reading `o1.length` samples from `start` and then `o2.length`
    samples from `start + o1.length` stores the same values as reading all of them at once. -/
theorem reads_compose_partial (al : Alloc) (ty : STy) (hty : Format.ordinaryTy ty = true) {segs : List Segment}
    {t : TdmsFile} (h : replay Index.new segs = .ok t.index) (hf : t.bytes.length < 2 ^ 63) (c : ChannelPath)
    (hl : Listed (entries segs) c.path) (start : Nat) (o1 o2 : List ty.Val)
    (h1 : ReadableIn (ty.storage al).supported t.bytes segs c.path start (o1.length + o2.length))
    (h2 : ReadableIn (ty.storage al).supported t.bytes segs c.path (start + o1.length) o2.length) :
    ∃ r1 r2, t.readChannelFrom (ty.storage al) c start o1 = .ok r1 ∧
      t.readChannelFrom (ty.storage al) c (start + o1.length) o2 = .ok r2 ∧
      t.readChannelFrom (ty.storage al) c start (o1 ++ o2) = .ok (r1 ++ r2) := by
  refine ⟨_, _, read_window_partial al ty hty h hf c hl start o1 ?_,
    read_window_partial al ty hty h hf c hl _ o2 h2, ?_⟩
  · intro pre hpre hact hst hlt hpos
    exact h1 pre hpre hact hst (by omega) hpos
  · rw [read_window_partial al ty hty h hf c hl start (o1 ++ o2) (by rw [List.length_append]; exact h1),
      overlay_split, List.drop_drop]

/-- Two reads of the file above, and the one that covers both. -/
theorem reads_compose_example :
    readFrom .u16 (fileOf windowFile) "b" 1 (vals16 [0, 0]) = .ok (vals16 [11, 12]) ∧
    readFrom .u16 (fileOf windowFile) "b" 3 (vals16 [0, 0, 0, 5]) = .ok (vals16 [13, 14, 15, 5]) ∧
    readFrom .u16 (fileOf windowFile) "b" 1 (vals16 [0, 0, 0, 0, 0, 5])
      = .ok (vals16 [11, 12, 13, 14, 15, 5]) := by
  refine ⟨?_, ?_, ?_⟩ <;> decide +kernel

/-- C41 fails where C36 fails: with channels of different lengths. -/
theorem reads_compose_counterexample :
    let f := fileOf [dataSegment .little false [("a", .u8, 1), ("b", .u16, 2)] [1, 10, 0, 11, 0, 2, 12, 0, 13, 0]]
    readFrom .u16 f "b" 0 (vals16 [0]) = .ok (vals16 [10]) ∧
    readFrom .u16 f "b" 1 (vals16 [0]) = .ok (vals16 [12]) ∧
    readFrom .u16 f "b" 0 (vals16 [0, 0]) = .ok (vals16 [10, 11]) := by
  refine ⟨?_, ?_, ?_⟩ <;> decide +kernel

end Tedium
