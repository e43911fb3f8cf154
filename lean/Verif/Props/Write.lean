import Verif.Proofs.History
import Verif.Props.ReadSafety

/-! # Properties: what is written is what is read (C31, C33, C44, C45) -/

namespace Tedium
open SegSpec WriteSpec

/-! ## C31 and C45 -/

theorem le_sum_of_mem' {n : Nat} : ∀ {l : List Nat}, n ∈ l → n ≤ l.sum
  | [], h => by cases h
  | x :: l, h => by
    rw [List.sum_cons]
    rcases List.mem_cons.mp h with rfl | h
    · omega
    · have := le_sum_of_mem' h
      omega

theorem samplesIn_le {f : Bytes} {pre : List Segment} (h : Regular f pre) (p : Text) : samplesIn pre p ≤ rawBytes pre := by
  unfold samplesIn
  split
  · rename_i hp
    unfold valuesPerChunk
    cases hl : layoutOf (entries pre) p with
    | none => simp
    | some m =>
      have hm : m ∈ activeLayouts pre := by
        unfold activeLayouts
        exact List.mem_filterMap.mpr ⟨p, hp, hl⟩
      rw [chunks_ordinary h.ordinary, chunkBytes_ordinary h.ordinary |>.symm]
      have h1 : m.numberOfValues * m.dataType.size ≤ chunkBytes pre :=
        le_sum_of_mem' (List.mem_map_of_mem hm (f := fun m => m.numberOfValues * m.dataType.size))
      have h2 := mul_chunks_le (raw := rawBytes pre) (Format.ordinary_pos (h.ordinary m hm).1) h1
      split at h2
      · rename_i h0; rw [h0]; simp
      · exact h2
  · omega

theorem sampleCount_le {f : Bytes} {segs : List Segment} {p : Text}
    (h : ∀ pre ∈ dataPrefixes segs, p ∈ active pre → Regular f pre) : sampleCount segs p ≤ endOf segs := by
  induction segs using snocInduction with
  | nil => exact Nat.le_refl _
  | snoc segs s ih =>
    rw [sampleCount_snoc, endOf_snoc]
    have h1 := ih (fun pre hpre hact => h pre (by rw [dataPrefixes_snoc]; exact List.mem_append_left _ hpre) hact)
    split
    · rename_i hraw
      by_cases hact : p ∈ active (segs ++ [s])
      · have h2 := samplesIn_le (h (segs ++ [s]) (by
          rw [dataPrefixes_snoc, if_pos hraw]; exact List.mem_append_right _ (List.mem_singleton.mpr rfl)) hact) p
        have h3 : rawBytes (segs ++ [s]) = s.nextSegmentOffset - s.rawDataOffset := by
          unfold rawBytes
          rw [List.getLast?_append, List.getLast?_singleton]
          rfl
        omega
      · unfold samplesIn
        rw [if_neg hact]
        omega
    · omega

theorem SegSpec.Regular.grow {f g : Bytes} {pre : List Segment} (h : Regular f pre) (hp : f <+: g) : Regular g pre := by
  obtain ⟨⟨b, hb, hle⟩, h2, h3, h4⟩ := h
  exact ⟨⟨b, hb, Nat.le_trans hle hp.length_le⟩, h2, h3, h4⟩

theorem overlay_self {α : Type} {xs ys : List α} (h : xs.length = ys.length) : overlay xs ys = ys := by
  unfold overlay
  rw [List.take_of_length_le (by omega), List.drop_of_length_le (by omega), List.append_nil]

/-- Bytes after the segments do not change the samples of a regular channel. -/
theorem channelSamples_grow (al : Alloc) (ty : STy) (hty : Format.ordinaryTy ty = true) {segs : List Segment}
    {ix : Index} (h : replay Index.new segs = .ok ix) {f g : Bytes} (hp : f <+: g) (hg : g.length < 2 ^ 63)
    (c : ChannelPath) (hl : Listed (entries segs) c.path)
    (hreg : ∀ pre ∈ dataPrefixes segs, c.path ∈ active pre → Regular f pre ∧
      ∀ m, layoutOf (entries pre) c.path = some m → m.dataType ∈ (ty.storage al).supported) :
    channelSamples (Format.decode ty) g segs c.path = channelSamples (Format.decode ty) f segs c.path := by
  have hlen := hp.length_le
  have h1 := read_window_regular_partial al ty hty (t := ⟨ix, f⟩) h (by dsimp only; omega) c hl hreg 0
    (channelSamples (Format.decode ty) f segs c.path)
  have hgr : Grows ⟨ix, f⟩ ⟨ix, g⟩ := ⟨⟨hp.choose, hp.choose_spec.symm⟩, [], (List.append_nil _).symm⟩
  have h2 := readChannelFrom_mono (S := ty.storage al) (STy.mono al ty) hgr rfl h1
  have h3 := read_window_regular_partial al ty hty (t := ⟨ix, g⟩) h hg c hl
    (fun pre hpre hact => ⟨(hreg pre hpre hact).1.grow hp, (hreg pre hpre hact).2⟩) 0
    (channelSamples (Format.decode ty) f segs c.path)
  rw [h2] at h3
  injection h3 with h3
  rw [List.drop_zero, List.drop_zero] at h3
  rw [overlay_self rfl, overlay_self (by rw [length_channelSamples h, length_channelSamples h])] at h3
  exact h3.symm

/-- A channel that no segment mentions has no samples. -/
theorem channelSamples_unlisted {α : Type} (dec : Endian → Bytes → α) (f : Bytes) {segs : List Segment} {p : Text}
    (h : ¬ Listed (entries segs) p) : channelSamples dec f segs p = [] := by
  unfold channelSamples
  rw [List.flatMap_eq_nil_iff]
  intro pre hpre
  have hl : layoutOf (entries pre) p = none := by
    cases hh : layoutOf (entries pre) p with
    | none => rfl
    | some m =>
      exfalso
      apply h
      obtain ⟨o, ho, hop⟩ := layoutOf_listed hh
      refine ⟨o, ?_, hop⟩
      obtain ⟨i, hi⟩ := List.mem_iff_getElem?.mp hpre
      obtain ⟨k, hk⟩ := (dataPrefixes_take segs i pre hi).1
      unfold entries at ho ⊢
      rw [hk] at ho
      obtain ⟨s, hs, hos⟩ := List.mem_flatMap.mp ho
      exact List.mem_flatMap.mpr ⟨s, List.mem_of_mem_take hs, hos⟩
  rw [hl]
  split
  · rename_i hh; cases hh
  · rfl

/-- **Appending** (C31, C45). `t` is any state of a file that ends where its last segment ends, `old`
    the samples a channel has in it. After a history of compatible calls the channel has the old
    samples followed by the values written to it, in order; all calls succeed. -/
theorem append_then_read_partial (al : Alloc) {segs : List Segment} {t : TdmsFile} {last : Last} (hx : Exact segs t)
    (hl : LastIs al segs last) (ops : List Op) (hc : Compatible last ops)
    (hsz : (runOps al t ops).bytes.length < 2 ^ 63) :
    AllSucceed al t ops ∧
    ∀ (ty : STy) (c : ChannelPath), Format.ordinaryTy ty = true →
      (∀ op ∈ ops, Names c.path op → typeOf op = some ty) →
      (Listed (entries segs) c.path ∨ ∃ op ∈ ops, Names c.path op) →
      (∀ pre ∈ dataPrefixes segs, c.path ∈ active pre → Regular t.bytes pre ∧
        ∀ m, layoutOf (entries pre) c.path = some m → m.dataType ∈ (ty.storage al).supported) →
      (runOps al t ops).channelLength c = .ok (some
        (channelSamples (Format.decode ty) t.bytes segs c.path ++ written ty c.path ops).length) ∧
      ∀ start out, (runOps al t ops).readChannelFrom (ty.storage al) c start out = .ok (overlay out
        ((channelSamples (Format.decode ty) t.bytes segs c.path ++ written ty c.path ops).drop start)) := by
  obtain ⟨hall, more, hx', hpre, hlist, hsam⟩ := history al ops segs t last hx hl hc hsz
  refine ⟨hall, ?_⟩
  intro ty c hty htype hnamed hold
  have hpfx := runOps_bytes al t ops
  have hlisted : Listed (entries (segs ++ more)) c.path := by
    rcases hnamed with h | h
    · unfold entries
      rw [List.flatMap_append]
      exact (listed_append _ _ _).mpr (Or.inl h)
    · exact hlist _ h
  have hreg : ∀ pre ∈ dataPrefixes (segs ++ more), c.path ∈ active pre → Regular (runOps al t ops).bytes pre ∧
      ∀ m, layoutOf (entries pre) c.path = some m → m.dataType ∈ (ty.storage al).supported := by
    intro pre hp hact
    rcases hpre pre hp with h | ⟨hr, op, hop, ty', hty', _, hchs⟩
    · exact ⟨(hold pre h hact).1.grow hpfx, (hold pre h hact).2⟩
    · obtain ⟨hn, hsup⟩ := hchs c.path hact
      have := htype op hop hn
      rw [this] at hty'
      cases hty'
      exact ⟨hr, hsup⟩
  have hsamples : channelSamples (Format.decode ty) (runOps al t ops).bytes (segs ++ more) c.path
      = channelSamples (Format.decode ty) t.bytes segs c.path ++ written ty c.path ops := by
    have := hsam ty c.path htype []
    rw [List.append_nil] at this
    rw [this]
    congr 1
    by_cases hls : Listed (entries segs) c.path
    · exact channelSamples_grow al ty hty hx.refines hpfx hsz c hls hold
    · rw [channelSamples_unlisted _ _ hls, channelSamples_unlisted _ _ hls]
  constructor
  · rw [channel_length_sum hx'.refines c hlisted]
    have hcount := sampleCount_le (fun pre hp hact => (hreg pre hp hact).1)
    rw [hx'.ends] at hcount
    have hlen := length_channelSamples (dec := Format.decode ty) hx'.refines (runOps al t ops).bytes c.path
    rw [hsamples] at hlen
    unfold sampleCount at hcount hlen
    rw [if_pos (by omega), hlen]
  · intro start out
    rw [read_window_regular_partial al ty hty hx'.refines hsz c hlisted hreg start out, hsamples]

/-- **C31** (partial: values of ordinary types, channel lists without repetitions, each list either
    different from the previous one at a position they share or equal to it with as many values of the
    same type). Everything written to a new file is read in the same session. -/
theorem write_then_read_partial (al : Alloc) {t : TdmsFile} (ht : TdmsFile.create al = .ok t) (ops : List Op)
    (hc : Compatible Last.none ops) (hsz : (runOps al t ops).bytes.length < 2 ^ 63) :
    AllSucceed al t ops ∧
    ∀ (ty : STy) (c : ChannelPath), Format.ordinaryTy ty = true →
      (∀ op ∈ ops, Names c.path op → typeOf op = some ty) → (∃ op ∈ ops, Names c.path op) →
      (runOps al t ops).channelLength c = .ok (some (written ty c.path ops).length) ∧
      ∀ start out, (runOps al t ops).readChannelFrom (ty.storage al) c start out
        = .ok (overlay out ((written ty c.path ops).drop start)) := by
  have hix : t = ⟨Index.new, []⟩ := by
    have : TdmsFile.create al = .ok ⟨Index.new, []⟩ := rfl
    rw [this] at ht
    exact (Except.ok.inj ht).symm
  obtain ⟨h1, h2⟩ := append_then_read_partial al (segs := []) (t := t) (last := Last.none)
    ⟨by rw [hix]; rfl, by rw [hix]; rfl⟩ ⟨rfl, fun ty m h => by cases h⟩ ops hc hsz
  refine ⟨h1, fun ty c hty htype hn => ?_⟩
  exact h2 ty c hty htype (Or.inr hn) (fun pre hpre => by cases hpre)

/-- The channel `name` of group `g`. -/
def chan (name : String) : ChannelPath := .new "g".toList name.toList

/-- Values of type `u8`. -/
def vals8 (l : List Nat) : List STy.u8.Val := l.map (fun n => BitVec.ofNat 8 n)

/-- A history: two channels in both layouts, a repeated list with a multiple of the values, another
    list and type, a property, the byte orders mixed. -/
def exampleOps : List Op :=
  [.write .little .u16 [chan "a", chan "b"] (vals16 [1, 2, 3, 4]) .contigious,
   .write .little .u16 [chan "a", chan "b"] (vals16 [5, 6, 7, 8, 9, 10, 11, 12]) .interleaved,
   .props .little (.group "g".toList) [("n".toList, .i32 5)],
   .write .big .u8 [chan "c"] (vals8 [1, 2, 3]) .interleaved,
   .write .little .u8 [chan "c"] (vals8 [4, 5, 6, 7, 8, 9]) .contigious,
   .write .big .u16 [chan "b", chan "a"] (vals16 [13, 14]) .contigious]

/-- The hypotheses of C31 hold for it. -/
theorem exampleOps_compatible : Compatible Last.none exampleOps := by
  refine ⟨⟨⟨rfl, ?_, ?_, ?_, ?_⟩, ?_⟩, ⟨⟨rfl, ?_, ?_, ?_, ?_⟩, ?_⟩, trivial, ⟨⟨rfl, ?_, ?_, ?_, ?_⟩, ?_⟩,
    ⟨⟨rfl, ?_, ?_, ?_, ?_⟩, ?_⟩, ⟨⟨rfl, ?_, ?_, ?_, ?_⟩, ?_⟩, trivial⟩
  all_goals first
    | decide +kernel
    | exact Or.inl (by decide +kernel)
    | exact Or.inr ⟨by decide +kernel, 2, by decide +kernel, Or.inr ⟨by decide +kernel, by decide +kernel⟩⟩
    | exact Or.inr ⟨by decide +kernel, 3, by decide +kernel, Or.inr ⟨by decide +kernel, by decide +kernel⟩⟩

/-- What is written, what the sizes are, and one read. -/
theorem exampleOps_written :
    written .u16 (chan "a").path exampleOps = vals16 [1, 2, 5, 7, 9, 11, 14] ∧
    written .u16 (chan "b").path exampleOps = vals16 [3, 4, 6, 8, 10, 12, 13] ∧
    written .u8 (chan "c").path exampleOps = (vals8 [1, 2, 3, 4, 5, 6, 7, 8, 9]) ∧
    (runOps anyAlloc ⟨Index.new, []⟩ exampleOps).bytes.length < 2 ^ 63 ∧
    (runOps anyAlloc ⟨Index.new, []⟩ exampleOps).readChannelFrom (STy.u16.storage anyAlloc) (chan "a") 1
      (vals16 [0, 0, 0, 0, 0, 0, 99]) = .ok (vals16 [2, 5, 7, 9, 11, 14, 99]) := by
  refine ⟨?_, ?_, ?_, ?_, ?_⟩ <;> decide +kernel

/-- The file after a history of calls on a new file. -/
def session (ops : List Op) : TdmsFile := runOps anyAlloc ⟨Index.new, []⟩ ops

/-- All calls of the history return `Ok`. -/
def allOk (ops : List Op) : Bool :=
  (List.range ops.length).all fun i =>
    match ops[i]? with
    | some op => (op.run anyAlloc (session (ops.take i))).1 = .ok ()
    | none => true

/-- Write `u16` values to channels of group `g`. -/
def writeU16 (channels : List String) (vals : List Nat) (layout : DataLayout := .contigious) : Op :=
  .write .little .u16 (channels.map chan) (vals16 vals) layout

/-- Read `u16` values. -/
def TdmsFile.u16s (t : TdmsFile) (channel : String) (n : Nat) : R (List STy.u16.Val) :=
  t.readChannel (STy.u16.storage anyAlloc) (chan channel) (vals16 (List.replicate n 0))

/-- C31 is false in full. The list of channels is repeated with another number of values: no error is
    reported, but the last two values are not there. -/
theorem write_then_read_length_counterexample :
    let ops := [writeU16 ["a"] [1, 2, 3], writeU16 ["a"] [4, 5, 6, 7, 8]]
    allOk ops = true ∧ (session ops).channelLength (chan "a") = .ok (some 6) ∧
    (session ops).u16s "a" 8 = .ok (vals16 [1, 2, 3, 4, 5, 6, 0, 0]) := by
  refine ⟨?_, ?_, ?_⟩ <;> decide +kernel

/-- C31 is false in full. A channel is added at the end of the list: no error is reported, but there is
    no such channel, and its values are taken for values of the first one. -/
theorem write_then_read_added_counterexample :
    let ops := [writeU16 ["a"] [1, 2], writeU16 ["a", "b"] [3, 4, 5, 6]]
    allOk ops = true ∧ (session ops).channelLength (chan "b") = .ok none ∧
    (session ops).u16s "a" 6 = .ok (vals16 [1, 2, 3, 4, 5, 6]) := by
  refine ⟨?_, ?_, ?_⟩ <;> decide +kernel

/-- C31 is false in full. A channel is left out at the end of the list: half of the values of `a` are
    taken for values of `b`. -/
theorem write_then_read_dropped_counterexample :
    let ops := [writeU16 ["a", "b"] [1, 2], writeU16 ["a"] [3, 4]]
    allOk ops = true ∧ (session ops).u16s "a" 3 = .ok (vals16 [1, 3, 0]) ∧
    (session ops).u16s "b" 3 = .ok (vals16 [2, 4, 0]) := by
  refine ⟨?_, ?_, ?_⟩ <;> decide +kernel

/-- C31 is false in full. A contiguous table with twice the rows: the values of the two channels are
    mixed up. -/
theorem write_then_read_rows_counterexample :
    let ops := [writeU16 ["a", "b"] [1, 2], writeU16 ["a", "b"] [3, 4, 5, 6]]
    allOk ops = true ∧ (session ops).u16s "a" 3 = .ok (vals16 [1, 3, 5]) ∧
    (session ops).u16s "b" 3 = .ok (vals16 [2, 4, 6]) := by
  refine ⟨?_, ?_, ?_⟩ <;> decide +kernel

/-- C31 is false in full. The same list with another type: the values cannot be read as what they are. -/
theorem write_then_read_type_counterexample :
    let ops := [writeU16 ["a"] [1, 2], .write .little .u8 [chan "a"] (vals8 [3, 4]) .contigious]
    allOk ops = true ∧ (session ops).channelLength (chan "a") = .ok (some 2) ∧
    (session ops).readChannelFrom (STy.u8.storage anyAlloc) (chan "a") 2 (vals8 [0, 0]) = .ok (vals8 [0, 0]) ∧
    (session ops).readChannel (STy.u8.storage anyAlloc) (chan "a") (vals8 [0, 0])
      = R.err (.dataTypeMismatch .u16 .u8) := by
  refine ⟨?_, ?_, ?_, ?_⟩ <;> decide +kernel

/-- **C45** (partial: the file ends where its last segment ends, the channel's old data is regular, and
    the same limits as for C31; `last` describes the channels of the file's last data segment). After
    opening a file and appending to it, a channel has the samples it had when the file was opened,
    followed by the values written to it. -/
theorem append_after_open_partial (al : Alloc) {f : Bytes} {t : TdmsFile} (ht : TdmsFile.new al f = .ok t)
    {segs : List Segment} {stop : Fail} (hp : Parses al f 0 segs stop) (hend : endOf segs = f.length) {last : Last}
    (hl : LastIs al segs last) (ops : List Op) (hc : Compatible last ops)
    (hsz : (runOps al t ops).bytes.length < 2 ^ 63) :
    AllSucceed al t ops ∧
    ∀ (ty : STy) (c : ChannelPath), Format.ordinaryTy ty = true →
      (∀ op ∈ ops, Names c.path op → typeOf op = some ty) →
      (∀ pre ∈ dataPrefixes segs, c.path ∈ active pre → Regular f pre ∧
        ∀ m, layoutOf (entries pre) c.path = some m → m.dataType ∈ (ty.storage al).supported) →
      -- the samples before
      ∀ old : List ty.Val, t.channelLength c = .ok (some old.length) →
        (∀ buf : List ty.Val, buf.length = old.length → t.readChannel (ty.storage al) c buf = .ok old) →
      -- the samples after
      (runOps al t ops).channelLength c = .ok (some (old ++ written ty c.path ops).length) ∧
      ∀ start out, (runOps al t ops).readChannelFrom (ty.storage al) c start out
        = .ok (overlay out ((old ++ written ty c.path ops).drop start)) := by
  obtain ⟨hb, segs', hp', hr⟩ := (open_is_replay al f t).mp ht
  obtain ⟨rfl, _⟩ := hp.unique hp'
  obtain ⟨h1, h2⟩ := append_then_read_partial al ⟨hr, by rw [hb]; exact hend⟩ hl ops hc hsz
  refine ⟨h1, fun ty c hty htype hreg old hlen hold => ?_⟩
  have hlisted : Listed (entries segs) c.path := by
    apply Classical.byContradiction
    intro hn
    have hun := ((replay_refines hr).obj.unlisted _ hn).1
    unfold TdmsFile.channelLength Index.channelLength at hlen
    rw [hun] at hlen
    cases hlen
  have hfs : t.bytes.length < 2 ^ 63 := Nat.lt_of_le_of_lt (runOps_bytes al t ops).length_le hsz
  have hlen' := length_channelSamples (dec := Format.decode ty) hr t.bytes c.path
  have hsum := channel_length_sum hr c hlisted
  rw [hlen] at hsum
  have hcount : old.length = sampleCount segs c.path := by
    unfold sampleCount
    split at hsum
    · exact Option.some.inj (Except.ok.inj hsum)
    · cases hsum
  have hread := read_window_regular_partial al ty hty hr hfs c hlisted (by rw [hb]; exact hreg) 0 old
  have heq : channelSamples (Format.decode ty) t.bytes segs c.path = old := by
    have := hold old rfl
    unfold TdmsFile.readChannel at this
    rw [this, List.drop_zero, overlay_self (by omega)] at hread
    exact (Except.ok.inj hread).symm
  have := h2 ty c hty htype (Or.inl hlisted) (by rw [hb]; exact hreg)
  rw [heq] at this
  exact this

/-- The hypotheses of C45 hold for an opened file and a history of appended calls. -/
def appendedOps : List Op :=
  [.write .little .u8 [chan "a"] (vals8 [7, 8]) .contigious, writeU16 ["b", "c"] [16, 17, 1, 2] .contigious,
   writeU16 ["b", "c"] [18, 3, 19, 4] .interleaved]

theorem appendedOps_compatible :
    endOf (windowFile.map FileSegment.segment) = (fileOf windowFile).length ∧
    LastIs anyAlloc (windowFile.map FileSegment.segment) ⟨["b", "a"].map (fun c => (chan c).path), none⟩ ∧
    Compatible ⟨["b", "a"].map (fun c => (chan c).path), none⟩ appendedOps ∧
    written .u16 (chan "b").path appendedOps = vals16 [16, 17, 18, 19] := by
  refine ⟨by decide +kernel, ⟨by decide +kernel, fun ty m h => by cases h⟩, ?_, by decide +kernel⟩
  refine ⟨⟨⟨rfl, ?_, ?_, ?_, ?_⟩, ?_⟩, ⟨⟨rfl, ?_, ?_, ?_, ?_⟩, ?_⟩, ⟨⟨rfl, ?_, ?_, ?_, ?_⟩, ?_⟩, trivial⟩
  all_goals first
    | decide +kernel
    | exact Or.inl (by decide +kernel)
    | exact Or.inr ⟨by decide +kernel, 2, by decide +kernel, Or.inl (by decide +kernel)⟩

/-- Open `f`, make the calls, and read `n` values of type `u16` of channel `b`. -/
def openAndAppend (f : Bytes) (ops : List Op) (n : Nat) : R (List STy.u16.Val) := do
  let t ← TdmsFile.new anyAlloc f
  (runOps anyAlloc t ops).u16s "b" n

/-- The result for the example. -/
theorem appendedOps_read : openAndAppend (fileOf windowFile) appendedOps 11
    = .ok (vals16 [10, 11, 12, 13, 14, 15, 16, 17, 18, 19, 0]) := by decide +kernel

/-- C45 is false in full. A file with a trailing byte can be opened, but what is appended to it is read
    from the wrong place: one byte before the values written. -/
theorem append_after_trailing_counterexample :
    openAndAppend (fileOf windowFile ++ [0]) [writeU16 ["c"] [1], writeU16 ["b"] [16]] 7
      = .ok (vals16 [10, 11, 12, 13, 14, 15, 4096]) := by decide +kernel

/-- C45 is false in full. A file whose last segment is cut can be opened; then the header of the appended
    segment is taken for the missing data of the old one. -/
theorem append_after_cut_counterexample :
    openAndAppend ((fileOf windowFile).take 223) [writeU16 ["c"] [1]] 6
      = .ok (vals16 [10, 11, 12, 13, 14, 0x5444]) := by decide +kernel

/-! ## C33 -/

theorem getElem?_filterMap_some {β γ : Type} (f : β → Option γ) : ∀ (l : List β) (j : Nat),
    (∀ x ∈ l, (f x).isSome = true) → (l.filterMap f)[j]? = l[j]?.bind f
  | [], j, _ => by simp
  | x :: l, j, h => by
    obtain ⟨y, hy⟩ := Option.isSome_iff_exists.mp (h x List.mem_cons_self)
    rw [List.filterMap_cons, hy]
    cases j with
    | zero => simp [hy]
    | succ j =>
      rw [List.getElem?_cons_succ, List.getElem?_cons_succ]
      exact getElem?_filterMap_some f l j (fun z hz => h z (List.mem_cons_of_mem _ hz))

theorem table_pos {k n i r : Nat} (hi : i < k) (hr : r < n) : i * n + r < k * n := by
  have := Nat.mul_le_mul_right n (Nat.succ_le_of_lt hi)
  rw [Nat.succ_mul] at this
  omega

theorem byRows_some {α : Type} {k n : Nat} {vals : List α} (hk : vals.length = k * n) :
    ∀ j ∈ List.range vals.length, (vals[j % k * (vals.length / k) + j / k]?).isSome = true := by
  intro j hj
  have hj := List.mem_range.mp hj
  have hk0 : 0 < k := Nat.pos_of_ne_zero (fun h => by rw [h, Nat.zero_mul] at hk; omega)
  rw [Option.isSome_iff_exists]
  refine ⟨_, List.getElem?_eq_getElem ?_⟩
  rw [hk, Nat.mul_div_cancel_left _ hk0]
  exact table_pos (Nat.mod_lt _ hk0) (Nat.div_lt_of_lt_mul (by omega))

theorem length_byRows {α : Type} {k n : Nat} {vals : List α} (hk : vals.length = k * n) :
    (byRows k vals).length = vals.length := by
  unfold byRows
  rw [length_filterMap_some _ _ (fun j hj => Option.isSome_iff_exists.mp (byRows_some hk j hj)), List.length_range]

/-- A table has the same columns when it is stored row after row. -/
theorem column_byRows {α : Type} {k i : Nat} {vals : List α} (hk : k ∣ vals.length) (hi : i < k) :
    column .interleaved k i (byRows k vals) = column .contigious k i vals := by
  obtain ⟨n, hn⟩ := hk
  have hk0 : 0 < k := by omega
  have hdiv : vals.length / k = n := by rw [hn, Nat.mul_div_cancel_left _ hk0]
  have hlen := length_byRows hn
  unfold column
  dsimp only
  rw [hlen, hdiv]
  have h1 := map_range_eq_column_contiguous vals k i n hn.symm hi (fun s => vals[i * n + s]?) some
    (fun s v _ h => h)
  have h2 := map_range_eq_column_interleaved (byRows k vals) k i n (by rw [hlen, hn]) hi
    (fun s => vals[i * n + s]?) some (fun s v hs h => by
      unfold byRows at h
      have hj : s * k + i < vals.length := by
        rw [hn, Nat.mul_comm k n]
        exact table_pos hs hi
      rw [getElem?_filterMap_some _ _ _ (byRows_some hn), List.getElem?_range hj, hdiv] at h
      change vals[(s * k + i) % k * n + (s * k + i) / k]? = some v at h
      rw [Nat.add_comm (s * k) i, Nat.add_mul_mod_self_right, Nat.mod_eq_of_lt hi, Nat.add_mul_div_right _ _ hk0,
        Nat.div_eq_of_lt hi, Nat.zero_add] at h
      exact h)
  rw [h1] at h2
  exact ((List.map_inj_right (fun a b h => Option.some.inj h)).mp h2).symm

theorem relayout_spec {ops ops' : List Op} (h : Relayout ops ops') : ∀ last : Last, Compatible last ops →
    Compatible last ops' ∧ (∀ p, (∃ op ∈ ops, Names p op) → ∃ op ∈ ops', Names p op) ∧
    ∀ ty p, (∀ op ∈ ops, Names p op → typeOf op = some ty) →
      (∀ op ∈ ops', Names p op → typeOf op = some ty) ∧ written ty p ops' = written ty p ops := by
  induction h with
  | nil => exact fun last _ => ⟨trivial, fun p h => h, fun ty p h => ⟨h, rfl⟩⟩
  | props _ ih =>
    intro last ⟨_, h2⟩
    obtain ⟨i1, i2, i3⟩ := ih _ h2
    refine ⟨⟨trivial, i1⟩, ?_, ?_⟩
    · rintro p ⟨op, hop, hn⟩
      rcases List.mem_cons.mp hop with rfl | hop
      · exact absurd hn id
      · obtain ⟨op', hop', hn'⟩ := i2 p ⟨op, hop, hn⟩
        exact ⟨op', List.mem_cons_of_mem _ hop', hn'⟩
    · intro ty p hty
      obtain ⟨j1, j2⟩ := i3 ty p (fun op hop => hty op (List.mem_cons_of_mem _ hop))
      refine ⟨?_, j2⟩
      intro op hop hn
      rcases List.mem_cons.mp hop with rfl | hop
      · exact absurd hn id
      · exact j1 op hop hn
  | @same e e' ty channels vals layout ops ops' _ ih =>
    intro last ⟨h1, h2⟩
    obtain ⟨i1, i2, i3⟩ := ih _ h2
    refine ⟨⟨h1, i1⟩, ?_, ?_⟩
    · rintro p ⟨op, hop, hn⟩
      rcases List.mem_cons.mp hop with rfl | hop
      · exact ⟨_, List.mem_cons_self, hn⟩
      · obtain ⟨op', hop', hn'⟩ := i2 p ⟨op, hop, hn⟩
        exact ⟨op', List.mem_cons_of_mem _ hop', hn'⟩
    · intro ty' p hty
      obtain ⟨j1, j2⟩ := i3 ty' p (fun op hop => hty op (List.mem_cons_of_mem _ hop))
      refine ⟨?_, ?_⟩
      · intro op hop hn
        rcases List.mem_cons.mp hop with rfl | hop
        · exact hty (.write e ty channels vals layout) List.mem_cons_self hn
        · exact j1 op hop hn
      · show valuesFor ty' p (.write e ty channels vals layout) ++ written ty' p ops' = _ ++ written ty' p ops
        rw [j2]
  | @rows e e' ty channels vals ops ops' _ ih =>
    intro last ⟨⟨h1, hcase⟩, h2⟩
    obtain ⟨n, hn⟩ := h1.whole
    have hlen := length_byRows hn
    have hafter : last.after (.write e' ty channels (byRows channels.length vals) .interleaved)
        = last.after (.write e ty channels vals .contigious) := by
      unfold Last.after
      dsimp only
      rw [hlen]
    obtain ⟨i1, i2, i3⟩ := ih _ h2
    refine ⟨⟨⟨⟨h1.ordinary, h1.some_channel, h1.distinct, ?_, ?_⟩, ?_⟩, ?_⟩, ?_, ?_⟩
    · intro hh
      rw [hh] at hlen
      exact h1.some_value (List.length_eq_zero_iff.mp hlen.symm)
    · rw [hlen]; exact h1.whole
    · rcases hcase with h | ⟨ha, m, hb, hc⟩
      · exact Or.inl h
      · refine Or.inr ⟨ha, m, hb, ?_⟩
        rw [hlen]
        rcases hc with hc | ⟨hc, _⟩
        · exact Or.inl hc
        · exact Or.inr ⟨hc, Or.inr rfl⟩
    · rw [hafter]; exact i1
    · rintro p ⟨op, hop, hn⟩
      rcases List.mem_cons.mp hop with rfl | hop
      · exact ⟨_, List.mem_cons_self, hn⟩
      · obtain ⟨op', hop', hn'⟩ := i2 p ⟨op, hop, hn⟩
        exact ⟨op', List.mem_cons_of_mem _ hop', hn'⟩
    · intro ty' p hty
      obtain ⟨j1, j2⟩ := i3 ty' p (fun op hop => hty op (List.mem_cons_of_mem _ hop))
      refine ⟨?_, ?_⟩
      · intro op hop hn
        rcases List.mem_cons.mp hop with rfl | hop
        · exact hty (.write e ty channels vals .contigious) List.mem_cons_self hn
        · exact j1 op hop hn
      · show valuesFor ty' p (.write e' ty channels (byRows channels.length vals) .interleaved) ++ written ty' p ops'
          = valuesFor ty' p (.write e ty channels vals .contigious) ++ written ty' p ops
        rw [j2]
        congr 1
        unfold valuesFor
        dsimp only
        by_cases heq : ty = ty'
        · subst heq
          rw [dif_pos rfl, dif_pos rfl]
          cases hidx : (channels.map ChannelPath.path).idxOf? p with
          | none => rfl
          | some i =>
            dsimp only
            apply column_byRows h1.whole
            have := (List.getElem?_eq_some_iff.mp (getElem?_of_idxOf? hidx)).1
            rw [List.length_map] at this
            exact this
        · rw [dif_neg heq, dif_neg heq]

/-- **C33** (partial: same limits as C31). A history and the same history with any of its tables written
    row after row, and with any byte orders, give the same lengths and the same samples. -/
theorem layout_irrelevant_partial (al : Alloc) {t : TdmsFile} (ht : TdmsFile.create al = .ok t) (ops ops' : List Op)
    (hre : Relayout ops ops') (hc : Compatible Last.none ops) (hsz : (runOps al t ops).bytes.length < 2 ^ 63)
    (hsz' : (runOps al t ops').bytes.length < 2 ^ 63) :
    AllSucceed al t ops ∧ AllSucceed al t ops' ∧
    ∀ (ty : STy) (c : ChannelPath), Format.ordinaryTy ty = true →
      (∀ op ∈ ops, Names c.path op → typeOf op = some ty) → (∃ op ∈ ops, Names c.path op) →
      (∃ n, (runOps al t ops).channelLength c = .ok (some n) ∧ (runOps al t ops').channelLength c = .ok (some n)) ∧
      ∀ start out, ∃ res, (runOps al t ops).readChannelFrom (ty.storage al) c start out = .ok res ∧
        (runOps al t ops').readChannelFrom (ty.storage al) c start out = .ok res := by
  obtain ⟨h1, h2, h3⟩ := relayout_spec hre _ hc
  obtain ⟨a1, a2⟩ := write_then_read_partial al ht ops hc hsz
  obtain ⟨b1, b2⟩ := write_then_read_partial al ht ops' h1 hsz'
  refine ⟨a1, b1, fun ty c hty htype hn => ?_⟩
  obtain ⟨j1, j2⟩ := h3 ty c.path htype
  obtain ⟨c1, c2⟩ := a2 ty c hty htype hn
  obtain ⟨d1, d2⟩ := b2 ty c hty j1 (h2 _ hn)
  rw [j2] at d1 d2
  exact ⟨⟨_, c1, d1⟩, fun start out => ⟨_, c2 start out, d2 start out⟩⟩

/-- The example history with its contiguous tables written row after row. -/
theorem exampleOps_relayout :
    byRows 2 (vals16 [1, 2, 3, 4]) = vals16 [1, 3, 2, 4] ∧
    Relayout exampleOps
      [.write .big .u16 [chan "a", chan "b"] (byRows 2 (vals16 [1, 2, 3, 4])) .interleaved,
       .write .little .u16 [chan "a", chan "b"] (vals16 [5, 6, 7, 8, 9, 10, 11, 12]) .interleaved,
       .props .little (.group "g".toList) [("n".toList, .i32 5)],
       .write .big .u8 [chan "c"] (vals8 [1, 2, 3]) .interleaved,
       .write .little .u8 [chan "c"] (vals8 [4, 5, 6, 7, 8, 9]) .contigious,
       .write .little .u16 [chan "b", chan "a"] (byRows 2 (vals16 [13, 14])) .interleaved] :=
  ⟨by decide +kernel, .rows (.same (.props (.same (.same (.rows .nil)))))⟩

/-- C33 is false in full: a second table with more rows than the first one is stored differently. -/
theorem layout_irrelevant_counterexample :
    (session [writeU16 ["a", "b"] [1, 2], writeU16 ["a", "b"] [3, 4, 5, 6]]).u16s "a" 3 = .ok (vals16 [1, 3, 5]) ∧
    byRows 2 (vals16 [3, 4, 5, 6]) = vals16 [3, 5, 4, 6] ∧
    (session [writeU16 ["a", "b"] [1, 2], writeU16 ["a", "b"] [3, 5, 4, 6] .interleaved]).u16s "a" 3
      = .ok (vals16 [1, 3, 4]) := by
  refine ⟨?_, ?_, ?_⟩ <;> decide +kernel

/-! ## C44 -/

/-- **C44** (partial: all types but extended floats, timestamps and strings). Writing values of a type to
    a channel of a new file makes the channel as long as there are values, and they read back unchanged. -/
theorem storage_type_round_trip_partial (al : Alloc) (ty : STy) (hty : Format.ordinaryTy ty = true)
    (e : Endian) (layout : DataLayout) (c : ChannelPath) (vals : List ty.Val) (hv : vals ≠ []) {t : TdmsFile}
    (ht : TdmsFile.create al = .ok t)
    (hsz : (t.writeChannels (ty.storage al) e [c] vals layout).2.bytes.length < 2 ^ 63) :
    ∃ t', t.writeChannels (ty.storage al) e [c] vals layout = (.ok (), t') ∧
      t'.channelLength c = .ok (some vals.length) ∧
      ∀ buf : List ty.Val, buf.length = vals.length → t'.readChannel (ty.storage al) c buf = .ok vals := by
  have hcomp : Compatible Last.none [.write e ty [c] vals layout] :=
    ⟨⟨⟨hty, by simp, by simp, hv, ⟨vals.length, by simp⟩⟩, Or.inl (Or.inl rfl)⟩, trivial⟩
  have hn : Names c.path (.write e ty [c] vals layout) := ⟨c, List.mem_singleton.mpr rfl, rfl⟩
  obtain ⟨h1, h2⟩ := write_then_read_partial al ht [.write e ty [c] vals layout] hcomp hsz
  have hok := h1 [] _ [] rfl
  have hw : written ty c.path [.write e ty [c] vals layout] = vals := by
    show valuesFor ty c.path _ ++ [] = _
    rw [List.append_nil]
    unfold valuesFor
    dsimp only
    rw [dif_pos rfl]
    have : ([c].map ChannelPath.path).idxOf? c.path = some 0 := by simp [List.idxOf?_cons]
    rw [this]
    unfold column
    cases layout with
    | contigious => simp
    | interleaved =>
      simp only [List.length_singleton, Nat.div_one, Nat.mul_one, Nat.add_zero]
      apply List.ext_getElem?
      intro j
      rw [getElem?_filterMap_some _ _ _ (fun x hx => by
        rw [Option.isSome_iff_exists]
        exact ⟨_, List.getElem?_eq_getElem (List.mem_range.mp hx)⟩)]
      by_cases hj : j < vals.length
      · rw [List.getElem?_range hj]; rfl
      · rw [List.getElem?_eq_none (by simpa using hj), List.getElem?_eq_none (by simpa using hj)]; rfl
  obtain ⟨h3, h4⟩ := h2 ty c hty (fun op hop _ => by rw [List.mem_singleton.mp hop]; rfl)
    ⟨_, List.mem_singleton.mpr rfl, hn⟩
  rw [hw] at h3 h4
  refine ⟨(t.writeChannels (ty.storage al) e [c] vals layout).2, Prod.ext hok rfl, h3, fun buf hbuf => ?_⟩
  have := h4 0 buf
  rw [List.drop_zero, overlay_self hbuf] at this
  exact this

/-- The hypotheses of C44 hold, e.g. for three complex numbers. -/
theorem storage_type_round_trip_example :
    let vals : List STy.complex64.Val := [⟨1#64, 2#64⟩, ⟨3#64, 4#64⟩, ⟨0#64, 0#64⟩]
    vals ≠ [] ∧ Format.ordinaryTy .complex64 = true ∧ TdmsFile.create anyAlloc = .ok ⟨Index.new, []⟩ ∧
    (TdmsFile.writeChannels (STy.complex64.storage anyAlloc) .big ⟨Index.new, []⟩ [chan "z"] vals
      .interleaved).2.bytes.length < 2 ^ 63 := by
  refine ⟨?_, ?_, ?_, ?_⟩ <;> decide +kernel

/-- C44 is false for timestamps: one value is written, the channel has the length 2. -/
theorem storage_type_timestamp_counterexample :
    let t := session [.write .little .timestamp [chan "a"] [5#128] .contigious]
    t.channelLength (chan "a") = .ok (some 2) := by decide +kernel

/-- C44 is false for extended floats: the index expects 16 bytes for a value that takes 10, so the
    second write is looked for in the wrong place. -/
theorem storage_type_extended_counterexample :
    let t := session [.write .little .extended [chan "a"] [5#128] .contigious,
      .write .little .extended [chan "a"] [6#128] .contigious]
    t.channelLength (chan "a") = .ok (some 2) ∧
    t.readChannel (STy.extended.storage anyAlloc) (chan "a") [0#128, 0#128] ≠ .ok [5#128, 6#128] := by
  constructor <;> decide +kernel

/-- C44 is false for strings: the channel is empty. -/
theorem storage_type_string_counterexample :
    let t := session [.write .little .string [chan "a"] [("xy" : String).toList] .contigious]
    t.channelLength (chan "a") = .ok (some 0) ∧
    t.readChannel (STy.string.storage anyAlloc) (chan "a") [([] : Text)] = .ok [([] : Text)] := by
  constructor <;> decide +kernel

end Tedium
