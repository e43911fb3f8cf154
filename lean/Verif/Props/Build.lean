import Verif.Proofs.BuildDivides
import Verif.Proofs.BuildHalts
import Verif.Props.Write
import Verif.Props.Read
import Verif.Props.Open
import Verif.Props.ReadSafety

/-!
# C70, C71, C72: builds without overflow checks

`Build.debug` is the build with overflow checks, which the other modules describe; `Build.release` is the optimised build, in
which sums and products wrap around.
-/

namespace Tedium
open SegSpec PlanSpec

/-! ## C70 -/

/-- The build with overflow checks is the model of the other modules. -/
theorem debug_is_the_model (al : Alloc) (f : Bytes) (t : TdmsFile) :
    Build.debug.new al f = TdmsFile.new al f ∧
    (∀ op : Op, Build.debug.run al t op = op.run al t) ∧
    (∀ c, Build.debug.channelLength t c = t.channelLength c) ∧
    (∀ (ty : STy) c start out,
      Build.debug.readChannelFrom (ty.storage al) t c start out = t.readChannelFrom (ty.storage al) c start out) ∧
    ∀ (ty : STy) cs start outs,
      Build.debug.readChannelsFrom (ty.storage al) t cs start outs = t.readChannelsFrom (ty.storage al) cs start outs :=
  ⟨Build.debug_new al f, Build.debug_run al t, Build.debug_channelLength t,
    fun _ _ _ _ => Build.debug_readChannelFrom _ _ _ _ _, fun _ _ _ _ => Build.debug_readChannelsFrom _ _ _ _ _⟩

/-- **C70, opening.** What opens, and what it opens as, is the same in both builds. -/
theorem builds_agree_open (al : Alloc) (f : Bytes) :
    (∀ t, Build.release.new al f = .ok t ↔ Build.debug.new al f = .ok t) ∧
    (Build.debug.new al f ≠ R.panic .overflow → Build.release.new al f = Build.debug.new al f) := by
  rw [Build.debug_new]
  refine ⟨fun t => release_new_ok, fun h => ?_⟩
  rcases release_new al f with h' | ⟨h1, _⟩
  · exact h'
  · exact absurd h1 h

/-- **C70, writing.** Any calls on any file: if the build with overflow checks does not report an overflow, the optimised build
    returns the same results and leaves the same file and the same index. -/
theorem builds_agree_calls (al : Alloc) : ∀ (ops : List Op) (t : TdmsFile),
    R.panic .overflow ∉ (Build.debug.runAll al t ops).1 →
    Build.release.runAll al t ops = Build.debug.runAll al t ops
  | [], _, _ => rfl
  | op :: ops, t, h => by
    unfold Build.runAll at h ⊢
    dsimp only at h ⊢
    have hrun : Build.release.run al t op = Build.debug.run al t op := by
      rcases run_segment al t op with ⟨e, he⟩ | ⟨s, bytes, _, he⟩
      · rw [he, he]
      · rcases addSegment_unless t.index s with hs | hs
        · refine absurd (List.mem_cons.mpr (Or.inl ?_)) h
          rw [he, Build.debug_addSegment, hs]
          rfl
        · rw [he, he, Build.debug_addSegment, hs]
    rw [hrun, builds_agree_calls al ops _ (fun hm => h (List.mem_cons_of_mem _ hm))]

/-- **C70, reading.** Where the build with overflow checks does not report an overflow, the optimised build gives the same
    answer: for lengths of channels, and for reads of all types, offsets and buffers. -/
theorem builds_agree_reads (al : Alloc) (t : TdmsFile) :
    (∀ c, Build.debug.channelLength t c ≠ R.panic .overflow →
      Build.release.channelLength t c = Build.debug.channelLength t c) ∧
    (∀ (ty : STy) c start out, Build.debug.readChannelFrom (ty.storage al) t c start out ≠ R.panic .overflow →
      Build.release.readChannelFrom (ty.storage al) t c start out = Build.debug.readChannelFrom (ty.storage al) t c start out) ∧
    ∀ (ty : STy) cs start outs, Build.debug.readChannelsFrom (ty.storage al) t cs start outs ≠ R.panic .overflow →
      Build.release.readChannelsFrom (ty.storage al) t cs start outs
        = Build.debug.readChannelsFrom (ty.storage al) t cs start outs := by
  refine ⟨fun c h => ?_, fun ty c start out h => ?_, fun ty cs start outs h => ?_⟩
  · rw [Build.debug_channelLength] at h ⊢
    exact (channelLength_unless t c).resolve_left h
  · rw [Build.debug_readChannelFrom] at h ⊢
    exact (readChannelFrom_unless _ t c start out).resolve_left h
  · rw [Build.debug_readChannelsFrom] at h ⊢
    exact (readChannelsFrom_unless _ t cs start outs).resolve_left h

/-- Read from channels of group `g`, in one of the builds. -/
def readBuild (B : Build) (ty : STy) (f : Bytes) (chs : List String) (start : Nat) (outs : List (List ty.Val)) :
    R (List (List ty.Val)) := do
  let t ← B.new anyAlloc f
  B.readChannelsFrom (ty.storage anyAlloc) t (chs.map chan) start outs

/-- The calls of the other examples cause no overflow, and the file that they write can be read in both builds. -/
theorem builds_agree_example :
    R.panic .overflow ∉ (Build.debug.runAll anyAlloc ⟨Index.new, []⟩ exampleOps).1 ∧
    (Build.release.runAll anyAlloc ⟨Index.new, []⟩ exampleOps).1 = [.ok (), .ok (), .ok (), .ok (), .ok (), .ok ()] ∧
    readBuild .release .u16 (fileOf windowFile) ["b"] 1 [vals16 [0, 0, 0]] = .ok [vals16 [11, 12, 13]] ∧
    readBuild .debug .u16 (fileOf windowFile) ["b"] 1 [vals16 [0, 0, 0]] = .ok [vals16 [11, 12, 13]] := by
  refine ⟨?_, ?_, ?_, ?_⟩ <;> decide +kernel

/-! ## C71 -/

/-- **C71, opening.** In the optimised build opening any byte string returns a file or an error. -/
theorem release_open_answers (al : Alloc) (f : Bytes) :
    (∃ t, Build.release.new al f = .ok t) ∨ ∃ e, Build.release.new al f = R.err e := by
  have hang : Build.release.new al f ≠ .error .hang := by
    intro h
    rcases release_new al f with h' | ⟨_, h' | h'⟩
    · rw [h] at h'
      exact (open_terminates al f).1 h'.symm
    · rw [h] at h'; cases h'
    · rw [h] at h'; cases h'
  have := new_only (P := fun _ => False) Build.release_panics (fun _ s hi => hi.release s) al f hang
  cases h : Build.release.new al f with
  | ok t => exact Or.inl ⟨t, rfl⟩
  | error e =>
    rcases this e h with ⟨x, rfl⟩ | ⟨_, hf, _⟩
    · exact Or.inr ⟨x, rfl⟩
    · exact hf.elim

/-- **C71, what the checks report.** A byte string that makes the build with overflow checks panic is rejected by the
    optimised build, as too large. -/
theorem release_open_rejects (al : Alloc) (f : Bytes) (h : Build.debug.new al f = R.panic .overflow) :
    Build.release.new al f = R.err .segmentAddressOverflow ∨ Build.release.new al f = R.err .chunkSizeOverflow := by
  rw [Build.debug_new] at h
  rcases release_new al f with h' | ⟨_, h'⟩
  · rcases release_open_answers al f with ⟨t, ht⟩ | ⟨e, he⟩
    · rw [ht, h] at h'; cases h'
    · rw [he, h] at h'; cases h'
  · exact h'

/-- **C71, writing.** In the optimised build every call, on every file and after any other calls, returns `Ok` or an error. -/
theorem release_calls_answer (al : Alloc) {t : TdmsFile} (h : Build.release.Session al t) (op : Op) :
    (Build.release.run al t op).1 = .ok () ∨ ∃ e, (Build.release.run al t op).1 = R.err e := by
  have := run_only (P := fun _ => False) Build.release_panics (release_session h).1 al op
  cases hr : (Build.release.run al t op).1 with
  | ok u => exact Or.inl rfl
  | error e =>
    rcases this e hr with ⟨x, rfl⟩ | ⟨_, hf, _⟩
    · exact Or.inr ⟨x, rfl⟩
    · exact hf.elim

/-- **C71, where the checks report an overflow.** The call fails in the optimised build, as too large; what it has written to
    the file is the same. -/
theorem release_calls_reject (al : Alloc) {t : TdmsFile} (h : Build.release.Session al t) (op : Op)
    (hd : (Build.debug.run al t op).1 = R.panic .overflow) :
    ((Build.release.run al t op).1 = R.err .segmentAddressOverflow ∨
      (Build.release.run al t op).1 = R.err .chunkSizeOverflow) ∧
    (Build.release.run al t op).2.bytes = (Build.debug.run al t op).2.bytes := by
  rw [Build.debug_run] at hd ⊢
  rcases release_run (release_session h).1 op with h' | ⟨_, h1, h2⟩
  · rcases release_calls_answer al h op with ho | ⟨e, he⟩
    · rw [h'] at ho; rw [ho] at hd; cases hd
    · rw [h'] at he; rw [he] at hd; cases hd
  · exact ⟨h1, h2⟩

/-- The file that makes `TdmsFile::new` panic in the build with overflow checks is rejected by the optimised build. -/
theorem release_open_example :
    Build.debug.new anyAlloc panicFile = R.panic .overflow ∧
    Build.release.new anyAlloc panicFile = R.err .segmentAddressOverflow := by
  constructor <;> decide +kernel

/-- A segment without raw data that claims to end 30 bytes before 2^64. -/
def farFile : Bytes :=
  tdsmTag ++ ({ containsMetaData := true, containsNewObjectList := true } : ToC).asBytes ++ encNat .little 4 4713
    ++ encNat .little 8 (2 ^ 64 - 58) ++ encNat .little 8 4 ++ encNat .little 4 0

/-- Write three values to a new channel of that file, then read the channel. -/
def farWrite (B : Build) : R (R Unit × R (Option Nat) × R (List STy.u8.Val)) := do
  let t ← B.new anyAlloc farFile
  let r := B.run anyAlloc t (.write .little .u8 [chan "c"] (vals8 [1, 2, 3]) .contigious)
  return (r.1, B.channelLength r.2 (chan "c"), B.readChannelFrom (STy.u8.storage anyAlloc) r.2 (chan "c") 0 (vals8 [0, 0, 0]))

/-- A failed write of the optimised build is not without effects. The address of the data block wraps around: the call fails,
    but the channel has three samples now, and reading them delivers bytes of the header of the file. -/
theorem release_failed_write_counterexample :
    farWrite .release = .ok (R.err .segmentAddressOverflow, .ok (some 3), .ok (vals8 [0, 0, 0x69])) ∧
    farWrite .debug = .ok (R.panic .overflow, .ok (some 0), .ok (vals8 [0, 0, 0])) := by
  constructor <;> decide +kernel

/-! ## C72 -/

/-- **C72, which panics there are.** In every state that a user of the build with overflow checks can get to, reads fail with
    an error, or with one of two panics, overflow and division by zero; all types, channels, offsets and buffers. -/
theorem debug_read_panics (al : Alloc) (ty : STy) {t : TdmsFile} (hs : Session al t) (start : Nat) :
    (∀ (c : ChannelPath) (out : List ty.Val) e, t.readChannelFrom (ty.storage al) c start out = .error e →
      (∃ x, e = .err x) ∨ e = .panic .overflow ∨ e = .panic .divByZero) ∧
    ∀ (cs : List ChannelPath) (outs : List (List ty.Val)) e, t.readChannelsFrom (ty.storage al) cs start outs = .error e →
      (∃ x, e = .err x) ∨ e = .panic .overflow ∨ e = .panic .divByZero := by
  have hS := STy.reads_sat al ty
  have hB : Build.debug.Panics (fun k => k = .overflow ∨ k = .divByZero) := Build.debug_panics (Or.inl rfl)
  have key : ∀ e : Fail, ((∃ x, e = .err x) ∨ ∃ k : PanicKind, (k = .overflow ∨ k = .divByZero) ∧ e = .panic k) →
      (∃ x, e = .err x) ∨ e = .panic .overflow ∨ e = .panic .divByZero := by
    rintro e (h | ⟨k, rfl | rfl, rfl⟩)
    · exact Or.inl h
    · exact Or.inr (Or.inl rfl)
    · exact Or.inr (Or.inr rfl)
  constructor
  · intro c out e he
    rw [← Build.debug_readChannelFrom] at he
    exact key e (readChannelFrom_only hB hS hs.reach.inv c start out (Or.inl (Or.inr rfl)) e he)
  · intro cs outs e he
    rw [← Build.debug_readChannelsFrom] at he
    exact key e (readChannelsFrom_only hB hS hs.reach.inv cs start outs (Or.inl (Or.inr rfl)) e he)

/-- **C72, with a first channel that has values.** If the first channel of every contiguous block in question has values, the
    only panic of the build with overflow checks is the overflow. -/
theorem debug_read_panics_first (al : Alloc) (ty : STy) {t : TdmsFile} (hs : Session al t) (start : Nat)
    (cs : List ChannelPath) (hf : ∀ c ∈ cs, ∀ ls, t.index.getChannelDataPositions c = some ls → FirstAt t ls) :
    (∀ c ∈ cs, ∀ (out : List ty.Val) e, t.readChannelFrom (ty.storage al) c start out = .error e →
      (∃ x, e = .err x) ∨ e = .panic .overflow) ∧
    ∀ (outs : List (List ty.Val)) e, t.readChannelsFrom (ty.storage al) cs start outs = .error e →
      (∃ x, e = .err x) ∨ e = .panic .overflow := by
  have hS := STy.reads_sat al ty
  obtain ⟨hp, hm⟩ := STy.memSize_bounds al ty
  have hB : Build.debug.Panics (fun k => k = .overflow) := Build.debug_panics rfl
  have hd : ∀ c ∈ cs, ∀ ls, t.index.getChannelDataPositions c = some ls → DividesAt Build.debug (ty.storage al) t ls :=
    fun c hc ls hls => divides_debug hp hm (hf c hc ls hls) (hs.sized hls)
  have key : ∀ e : Fail, ((∃ x, e = .err x) ∨ ∃ k : PanicKind, k = .overflow ∧ e = .panic k) →
      (∃ x, e = .err x) ∨ e = .panic .overflow := by
    rintro e (h | ⟨k, rfl, rfl⟩)
    · exact Or.inl h
    · exact Or.inr rfl
  constructor
  · intro c hc out e he
    rw [← Build.debug_readChannelFrom] at he
    exact key e (readChannelFrom_only hB hS hs.reach.inv c start out (Or.inr (hd c hc)) e he)
  · intro outs e he
    rw [← Build.debug_readChannelsFrom] at he
    exact key e (readChannelsFrom_only hB hS hs.reach.inv cs start outs (Or.inr hd) e he)

/-- **C72, the optimised build.** Whatever was opened and written before, also unsuccessfully, a read fails with an error or
    with a division by zero. -/
theorem release_read_panics (al : Alloc) (ty : STy) {t : TdmsFile} (hs : Build.release.Session al t) (start : Nat) :
    (∀ (c : ChannelPath) (out : List ty.Val) e, Build.release.readChannelFrom (ty.storage al) t c start out = .error e →
      (∃ x, e = .err x) ∨ e = .panic .divByZero) ∧
    ∀ (cs : List ChannelPath) (outs : List (List ty.Val)) e,
      Build.release.readChannelsFrom (ty.storage al) t cs start outs = .error e →
      (∃ x, e = .err x) ∨ e = .panic .divByZero := by
  have hS := STy.reads_sat al ty
  have hi := (release_session hs).1
  have key : ∀ e : Fail, ((∃ x, e = .err x) ∨ ∃ k : PanicKind, k = .divByZero ∧ e = .panic k) →
      (∃ x, e = .err x) ∨ e = .panic .divByZero := by
    rintro e (h | ⟨k, rfl, rfl⟩)
    · exact Or.inl h
    · exact Or.inr rfl
  have hB : Build.release.Panics (fun k => k = .divByZero) := Build.release_panics
  constructor
  · intro c out e he
    exact key e (readChannelFrom_only hB hS hi c start out (Or.inl rfl) e he)
  · intro cs outs e he
    exact key e (readChannelsFrom_only hB hS hi cs start outs (Or.inl rfl) e he)

/-- **C72, never a panic** (partial: contiguous blocks whose first channel has values, and types whose values take as many
    bytes in memory as in the file). Reads of the optimised build return `Ok` or an error, whatever was opened and written
    before; no sizes are excluded. -/
theorem release_read_never_panics_partial (al : Alloc) (ty : STy) (hty : Format.ordinaryTy ty = true) {t : TdmsFile}
    (hs : Build.release.Session al t) (start : Nat) (cs : List ChannelPath)
    (hf : ∀ c ∈ cs, ∀ ls, t.index.getChannelDataPositions c = some ls → FirstAt t ls) :
    (∀ c ∈ cs, ∀ (out : List ty.Val), (∃ r, Build.release.readChannelFrom (ty.storage al) t c start out = .ok r) ∨
      ∃ e, Build.release.readChannelFrom (ty.storage al) t c start out = R.err e) ∧
    ∀ (outs : List (List ty.Val)), (∃ r, Build.release.readChannelsFrom (ty.storage al) t cs start outs = .ok r) ∨
      ∃ e, Build.release.readChannelsFrom (ty.storage al) t cs start outs = R.err e := by
  have hS := STy.reads_sat al ty
  obtain ⟨hp, hm⟩ := STy.memSize_bounds al ty
  obtain ⟨hi, hpl⟩ := release_session hs
  have hB : Build.release.Panics (fun _ => False) := Build.release_panics
  have hd : ∀ c ∈ cs, ∀ ls, t.index.getChannelDataPositions c = some ls → DividesAt Build.release (ty.storage al) t ls := by
    intro c hc ls hls
    obtain ⟨h1, h2⟩ := sized_of_inv hi hpl hls
    exact divides_release (STy.fixed al ty hty) hp hm (hf c hc ls hls) h1 h2
  have key : ∀ {α : Type} {x : R α}, R.Only (fun _ => False) x → (∃ r, x = .ok r) ∨ ∃ e, x = R.err e := by
    intro α x hx
    cases x with
    | ok r => exact Or.inl ⟨r, rfl⟩
    | error e =>
      rcases hx e rfl with ⟨y, rfl⟩ | ⟨_, hf, _⟩
      · exact Or.inr ⟨y, rfl⟩
      · exact hf.elim
  exact ⟨fun c hc out => key (readChannelFrom_only hB hS hi c start out (Or.inr (hd c hc))),
    fun outs => key (readChannelsFrom_only hB hS hi cs start outs (Or.inr hd))⟩

/-- **C72, never something else** (partial: types whose values take as many bytes in memory as in the file, and interleaved
    segments whose channels have equally many values). A read of the optimised build gives what the build with overflow checks
    gives; where that one reports an overflow, it returns an error. So what it returns with `Ok` is what the theorems about
    the other build say. -/
theorem release_read_agrees_partial (al : Alloc) (ty : STy) (hty : Format.ordinaryTy ty = true) {t : TdmsFile}
    (hs : Build.release.Session al t) {segs : List Segment} (h : replay Index.new segs = .ok t.index) (start : Nat)
    (cs : List ChannelPath)
    (hev : ∀ c ∈ cs, ∀ pre ∈ dataPrefixes segs, c.path ∈ active pre → EvenRows pre) :
    (∀ c ∈ cs, ∀ (out : List ty.Val),
      Build.release.readChannelFrom (ty.storage al) t c start out = t.readChannelFrom (ty.storage al) c start out ∨
      t.readChannelFrom (ty.storage al) c start out = R.panic .overflow ∧
        ∃ e, Build.release.readChannelFrom (ty.storage al) t c start out = R.err e) ∧
    ∀ (outs : List (List ty.Val)),
      Build.release.readChannelsFrom (ty.storage al) t cs start outs = t.readChannelsFrom (ty.storage al) cs start outs ∨
      t.readChannelsFrom (ty.storage al) cs start outs = R.panic .overflow ∧
        ∃ e, Build.release.readChannelsFrom (ty.storage al) t cs start outs = R.err e := by
  have hS := STy.fixed al ty hty
  have hmono := STy.mono al ty
  have hm := (STy.memSize_bounds al ty).2
  obtain ⟨hi, hpl⟩ := release_session hs
  have hw : ∀ c ∈ cs, ∀ ls, t.index.getChannelDataPositions c = some ls → WithinAt t ls :=
    fun c hc ls hls => within_of_even h hpl (hev c hc) hls
  exact ⟨fun c hc out => readChannelFrom_halts hS hmono hm hi c start out (hw c hc),
    fun outs => readChannelsFrom_halts hS hmono hm hi cs start outs hw⟩

/-- A file with one segment: its channels, the size that it claims for the raw data, and the data that is there. -/
def claimingFile (interleaved : Bool) (chs : List (String × DataType × Nat)) (size : Nat) (data : Bytes) : Bytes :=
  let md : MetaData := { objects := chs.map (fun c =>
    { path := (chan c.1).path, properties := []
      rawDataIndex := .rawData { dataType := c.2.1, numberOfValues := c.2.2 } }) }
  let toc : ToC := { containsMetaData := true, containsRawData := true, containsNewObjectList := true
                     dataIsInterleaved := interleaved }
  tdsmTag ++ toc.asBytes ++ encNat .little 4 4713 ++ encNat .little 8 (md.size + size) ++ encNat .little 8 md.size
    ++ md.write .little ++ data

/-- Timestamps. -/
def stamps (l : List Nat) : List STy.timestamp.Val := l.map (fun n => BitVec.ofNat 128 n)

/-- Two channels of timestamps, the first of which claims 2^60+1 values. -/
def stampFile : Bytes :=
  claimingFile false [("t", .timestamp, 2 ^ 60 + 1), ("u", .timestamp, 1), ("c", .u8, 2 ^ 62)] (2 ^ 63 + 2 ^ 62 + 16)
    (List.replicate 16 1 ++ List.replicate 16 2 ++ List.replicate 16 3)

/-- The condition on the types is needed. The second value of the first channel is delivered as a value of the second channel,
    in the optimised build; the other build panics. -/
theorem release_read_agrees_stamps_counterexample :
    readBuild .release .timestamp stampFile ["t", "u"] 0 [stamps [0], stamps [0]]
      = .ok [stamps [0x01010101010101010101010101010101], stamps [0x02020202020202020202020202020202]] ∧
    readBuild .debug .timestamp stampFile ["t", "u"] 0 [stamps [0], stamps [0]] = R.panic .overflow := by
  constructor <;> decide +kernel

/-- The condition on interleaved segments is needed: `Ok`, where the other build panics. -/
theorem release_read_agrees_rows_counterexample :
    readBuild .release .u8 (claimingFile true [("a", .u8, 2 ^ 63), ("b", .doubleFloat, 1)] (2 ^ 63 + 100) [1, 2, 3])
      ["a"] 2049638230412172402 [vals8 [7]] = .ok [vals8 [7]] ∧
    readBuild .debug .u8 (claimingFile true [("a", .u8, 2 ^ 63), ("b", .doubleFloat, 1)] (2 ^ 63 + 100) [1, 2, 3])
      ["a"] 2049638230412172402 [vals8 [7]] = R.panic .overflow := by
  constructor <;> decide +kernel

/-- Both conditions of `release_read_never_panics_partial` are needed: a size that wraps around to zero, and a first channel
    without values. -/
theorem release_read_never_panics_counterexample :
    readBuild .release .timestamp (claimingFile false [("t", .timestamp, 2 ^ 60)] (2 ^ 63) [1, 2, 3]) ["t"] 0 [stamps [0]]
      = R.panic .divByZero ∧
    readBuild .release .u16 (fileOf [dataSegment .little false [("a", .u8, 0), ("b", .u16, 1)] [1, 0]]) ["b"] 0 [vals16 [0]]
      = R.panic .divByZero := by
  constructor <;> decide +kernel

/-- The length of a channel of group `g` of a file. -/
def lengthBuild (B : Build) (f : Bytes) (ch : String) : R (Option Nat) := do
  let t ← B.new anyAlloc f
  B.channelLength t (chan ch)

/-- The length of a channel that claims 2^63 strings, twice, wraps around. -/
theorem release_length_counterexample :
    lengthBuild .release (fileOf [dataSegment .little false [("a", .u8, 1), ("s", .tdmsString, 2 ^ 63)] [1],
      dataSegment .little false [("a", .u8, 1), ("s", .tdmsString, 2 ^ 63)] [1]]) "s" = .ok (some 0) ∧
    lengthBuild .debug (fileOf [dataSegment .little false [("a", .u8, 1), ("s", .tdmsString, 2 ^ 63)] [1],
      dataSegment .little false [("a", .u8, 1), ("s", .tdmsString, 2 ^ 63)] [1]]) "s" = R.panic .overflow := by
  constructor <;> decide +kernel

/-- The metadata of the second segment of the example. -/
def hugeMeta : MetaData :=
  { objects := [
      { path := (chan "b").path, properties := [], rawDataIndex := .rawData { dataType := .doubleFloat, numberOfValues := 2 ^ 60 } },
      { path := (chan "a").path, properties := [], rawDataIndex := .rawData { dataType := .u8, numberOfValues := 2 ^ 62 } }] }

/-- The segments of the example: two channels interleaved, then the same channels with sizes beyond all files. -/
def hugeSegments : List Segment :=
  [(dataSegment .little true [("a", .u8, 1), ("b", .doubleFloat, 1)] [5, 1, 2, 3, 4, 5, 6, 7, 8]).segment,
   { toc := { containsMetaData := true, containsRawData := true, containsNewObjectList := true }
     nextSegmentOffset := hugeMeta.size + (2 ^ 63 + 2 ^ 62), rawDataOffset := hugeMeta.size, metaData := some hugeMeta }]

/-- A file with these segments. Of the data of the second, eight bytes are there. -/
def hugeFile : Bytes :=
  fileOf [dataSegment .little true [("a", .u8, 1), ("b", .doubleFloat, 1)] [5, 1, 2, 3, 4, 5, 6, 7, 8]] ++
  claimingFile false [("b", .doubleFloat, 2 ^ 60), ("a", .u8, 2 ^ 62)] (2 ^ 63 + 2 ^ 62) [8, 7, 6, 5, 4, 3, 2, 1]

/-- 64-bit values -/
def vals64 (l : List Nat) : List STy.f64.Val := l.map (fun n => BitVec.ofNat 64 n)

/-- The file meets the conditions of the two theorems. What is there can be read in the optimised build; where nothing is, it
    returns an error and the other build panics. -/
theorem release_read_example :
    (∃ t, Build.release.Session anyAlloc t ∧ replay Index.new hugeSegments = .ok t.index ∧
      (∀ pre ∈ dataPrefixes hugeSegments, EvenRows pre) ∧ (dataPrefixes hugeSegments).length = 2 ∧
      ∀ c ls, t.index.getChannelDataPositions c = some ls → FirstAt t ls) ∧
    readBuild .release .u8 hugeFile ["a"] 0 [vals8 [0]] = .ok [vals8 [5]] ∧
    readBuild .release .f64 hugeFile ["b"] 0 [vals64 [0, 0]] = .ok [vals64 [0x0807060504030201, 0x0102030405060708]] ∧
    readBuild .release .u8 hugeFile ["a"] 0 [vals8 [0, 0]] = R.err (.ioError .invalidInput) ∧
    readBuild .debug .u8 hugeFile ["a"] 0 [vals8 [0, 0]] = R.panic .overflow := by
  refine ⟨?_, by decide +kernel, by decide +kernel, by decide +kernel, by decide +kernel⟩
  obtain ⟨t, ht⟩ := exists_ok (x := Build.release.new anyAlloc hugeFile) (by decide +kernel)
  have hix : (Build.release.new anyAlloc hugeFile).map (·.index) = replay Index.new hugeSegments := by decide +kernel
  rw [ht] at hix
  refine ⟨t, .opened ht, hix.symm, ?_, by decide +kernel, ?_⟩
  · have h : ∀ pre ∈ dataPrefixes hugeSegments, (pre.getLast?.any (·.toc.dataIsInterleaved)) = true →
        ∀ m ∈ activeLayouts pre, ∀ m' ∈ activeLayouts pre, m.numberOfValues = m'.numberOfValues := by decide +kernel
    intro pre hpre hint
    refine h pre hpre ?_
    obtain ⟨s, hs, hs'⟩ := hint
    rw [Option.mem_def.mp hs]
    exact hs'
  · have h : ((replay Index.new hugeSegments).toOption.map (fun ix => ix.dataBlocks.all
        (fun b => (b.channels.head?.any (fun m => decide (0 < m.numberOfValues)))))) = some true := by decide +kernel
    rw [← hix] at h
    have h' : t.index.dataBlocks.all (fun b => (b.channels.head?.any (fun m => decide (0 < m.numberOfValues)))) = true :=
      Option.some.inj h
    intro c ls _ l _ _ b hb _
    have := List.all_eq_true.mp h' b (List.mem_of_getElem? hb)
    obtain ⟨m, hm, hm'⟩ := (Option.any_eq_true _ _).mp this
    exact ⟨m, hm, by simpa using hm'⟩

end Tedium
