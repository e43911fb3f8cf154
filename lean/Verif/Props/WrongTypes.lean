import Verif.Props.Write
import Verif.Proofs.Mixed
import Verif.Proofs.EmptyRead

/-! # C39: the wrong type, for channels that are read together and for buffers without room -/

namespace Tedium
open SegSpec

/-- **C39, several channels.** Read channels of fixed-size types together, as in C37, where the type of each channel is one that can
    be read as `ty` in all segments or in none. If a channel that has to give samples is of another type, the read fails with
    `DataTypeMismatch(stored, requested)` for one of these channels; if there is none, the read gives every channel its samples, and
    channels of another type, of which nothing is wanted, keep their buffers. -/
theorem wrong_type_together (al : Alloc) (ty : STy) (hty : Format.ordinaryTy ty = true) {segs : List Segment} {t : TdmsFile}
    (h : replay Index.new segs = .ok t.index) (hf : t.bytes.length < 2 ^ 63) (start : Nat)
    (cs : List (ChannelPath × List ty.Val)) {supported : List DataType}
    (hl : ∀ c ∈ cs, Listed (entries segs) c.1.path)
    (hread : ∀ c ∈ cs, ReadableFrom supported t.bytes segs c.1.path start)
    (hdist : cs.Pairwise (fun c d => c.1.path ≠ d.1.path))
    (hstep : ∀ c ∈ cs, ∀ d ∈ cs, InStep segs c.1.path d.1.path)
    (hlen : ∀ c ∈ cs, ∀ d ∈ cs, (∃ pre ∈ dataPrefixes segs, c.1.path ∈ active pre ∧ d.1.path ∈ active pre) →
      c.2.length = d.2.length)
    (hone : ∀ c ∈ cs, (∀ pre ∈ dataPrefixes segs, c.1.path ∈ active pre → ∀ m, layoutOf (entries pre) c.1.path = some m →
        m.dataType ∈ (ty.storage al).supported) ∨
      ∀ pre ∈ dataPrefixes segs, c.1.path ∈ active pre → ∀ m, layoutOf (entries pre) c.1.path = some m →
        m.dataType ∉ (ty.storage al).supported) :
    ((∃ c ∈ cs, Refused (ty.storage al) segs start c) →
      ∃ c ∈ cs, Refused (ty.storage al) segs start c ∧ ∃ pre ∈ dataPrefixes segs, c.1.path ∈ active pre ∧
        ∃ m, layoutOf (entries pre) c.1.path = some m ∧
          t.readChannelsFrom (ty.storage al) (cs.map (·.1)) start (cs.map (·.2)) =
            R.err (.dataTypeMismatch m.dataType (ty.storage al).natural)) ∧
    ((∀ c ∈ cs, ¬ Refused (ty.storage al) segs start c) →
      t.readChannelsFrom (ty.storage al) (cs.map (·.1)) start (cs.map (·.2)) =
        .ok (cs.map fun c => overlay c.2 ((channelSamples (Format.decode ty) t.bytes segs c.1.path).drop start)) ∧
      ∀ c ∈ cs, (∀ pre ∈ dataPrefixes segs, c.1.path ∈ active pre → ∀ m, layoutOf (entries pre) c.1.path = some m →
          m.dataType ∉ (ty.storage al).supported) →
        overlay c.2 ((channelSamples (Format.decode ty) t.bytes segs c.1.path).drop start) = c.2) := by
  refine ⟨readChannelsFrom_refused (STy.fixed al ty hty) h hf start cs hl hread hdist hstep hlen hone, fun hno => ⟨?_, ?_⟩⟩
  · refine readChannelsFrom_plain (STy.fixed al ty hty) h hf start cs hl hread hdist hstep hlen
      (fun c hc hne pre hpre hact hst m hm => ?_)
    rcases hone c hc with hyes | hother
    · exact hyes pre hpre hact m hm
    · obtain ⟨B, hB⟩ := List.mem_iff_getElem?.mp hpre
      have hle := sampleCount_prefix_le hB c.1.path
      exact absurd ⟨hne, by omega, hother⟩ (hno c hc)
  · intro c hc hother
    by_cases hne : c.2 = []
    · rw [hne]; simp [overlay]
    · have : ¬ start < sampleCount segs c.1.path := fun hlt => hno c hc ⟨hne, hlt, hother⟩
      rw [List.drop_eq_nil_of_le (by rw [length_channelSamples h]; omega), overlay_nil]

/-- **C39, a buffer without room.** Which type is asked for makes no difference: on every file, from every start, both reads give
    nothing, or both fail with the same error. -/
theorem empty_buffer_any_type {α β : Type} (S : Storage α) (S' : Storage β) (t : TdmsFile) (c : ChannelPath) (start : Nat) :
    (t.readChannelFrom S c start [] = .ok [] ∧ t.readChannelFrom S' c start [] = .ok []) ∨
    ∃ e, t.readChannelFrom S c start [] = .error e ∧ t.readChannelFrom S' c start [] = .error e :=
  empty_read_alike S S' t c start

/-- The hypotheses hold for the two channels of `windowFile`, of bytes and of 16-bit numbers. Reading both as 16-bit numbers fails for
    the bytes, also from a later sample on, but not behind the samples; a buffer without room is accepted for every type. -/
theorem wrong_type_together_example :
    (∃ t, TdmsFile.new anyAlloc (fileOf windowFile) = .ok t ∧
      replay Index.new (windowFile.map FileSegment.segment) = .ok t.index ∧ t.bytes.length < 2 ^ 63 ∧
      (∀ n ∈ ["a", "b"], Listed (entries (windowFile.map FileSegment.segment)) (chan n).path ∧
        ∀ start, ReadableFrom [.u8, .u16] t.bytes (windowFile.map FileSegment.segment) (chan n).path start) ∧
      (∀ n ∈ ["a", "b"], ∀ k ∈ ["a", "b"], InStep (windowFile.map FileSegment.segment) (chan n).path (chan k).path) ∧
      (∀ pre ∈ dataPrefixes (windowFile.map FileSegment.segment), ∀ m, layoutOf (entries pre) (chan "a").path = some m →
        m.dataType ∉ (STy.u16.storage anyAlloc).supported) ∧
      (∀ pre ∈ dataPrefixes (windowFile.map FileSegment.segment), ∀ m, layoutOf (entries pre) (chan "b").path = some m →
        m.dataType ∈ (STy.u16.storage anyAlloc).supported) ∧
      sampleCount (windowFile.map FileSegment.segment) (chan "a").path = 6) ∧
    readManyFrom .u16 (fileOf windowFile) ["b", "a"] 0 [vals16 [0], vals16 [0]] = R.err (.dataTypeMismatch .u8 .u16) ∧
    readManyFrom .u16 (fileOf windowFile) ["b", "a"] 5 [vals16 [0], vals16 [0]] = R.err (.dataTypeMismatch .u8 .u16) ∧
    readManyFrom .u16 (fileOf windowFile) ["b", "a"] 6 [vals16 [0], vals16 [0]] = .ok [vals16 [0], vals16 [0]] ∧
    readFrom .u16 (fileOf windowFile) "a" 1 [] = .ok [] := by
  refine ⟨?_, by decide +kernel, by decide +kernel, by decide +kernel, by decide +kernel⟩
  obtain ⟨t, h1, h2, h3, _, h5, _⟩ := windowFile_regular
  refine ⟨t, h1, h2, h3, ?_, by unfold InStep; decide +kernel, ?_, ?_, by decide +kernel⟩
  · intro n hn
    have hl : ∀ n ∈ ["a", "b"], Listed (entries (windowFile.map FileSegment.segment)) (chan n).path := by
      unfold Listed; decide +kernel
    have hm : ∀ n ∈ ["a", "b"], ∀ pre ∈ dataPrefixes (windowFile.map FileSegment.segment),
        ∀ m ∈ layoutOf (entries pre) (chan n).path, m.dataType ∈ [DataType.u8, .u16] := by decide +kernel
    exact ⟨hl n hn, fun start pre hpre hact _ _ => (h5 pre hpre).1.readable h2 hpre hact (fun m => hm n hn pre hpre m) start⟩
  · have hm : ∀ pre ∈ dataPrefixes (windowFile.map FileSegment.segment),
        ∀ m ∈ layoutOf (entries pre) (chan "a").path, m.dataType ∉ (STy.u16.storage anyAlloc).supported := by decide +kernel
    exact fun pre hpre m => hm pre hpre m
  · exact fun pre hpre => (h5 pre hpre).2

end Tedium
