import Verif.Spec.Outcome
import Verif.Proofs.OutcomeFile
import Verif.Props.Delivered

/-!
# C74: how every read of one channel ends

For every file, channel, start and buffer with room: success with which values, which error, or which
panic. No part of the raw data has to be in the file.
-/

namespace Tedium
open PlanSpec SegSpec

/-- **C74.** For every storage type of fixed size, every file, channel, start and buffer with room: the read
    ends with the first fault among the segments that it needs, and without one the buffer gets the values
    of the cells `delivered`. -/
theorem read_outcome (al : Alloc) (ty : STy) (hty : Format.fixedTy ty = true) {segs : List Segment} {t : TdmsFile}
    (h : replay Index.new segs = .ok t.index) (c : ChannelPath) (hl : Listed (entries segs) c.path)
    (hadd : Addressable (ty.storage al).memSize segs c.path) (start : Nat) (out : List ty.Val) (hne : out ≠ []) :
    t.readChannelFrom (ty.storage al) c start out =
      match readFault (ty.storage al).supported (ty.storage al).natural (ty.storage al).memSize t.bytes.length
        c.path start (dataPrefixes segs) out.length with
      | some e => .error e
      | none => .ok (overlay out ((delivered (ty.storage al).memSize segs c.path start).map
          (Cell.value (Format.decode ty) (ty.storage al).memSize t.bytes))) := by
  obtain ⟨h1, h2⟩ := readChannelFrom_outcome (STy.reads_fixed al ty hty).1 (STy.short al ty hty)
    (STy.reads_fixed al ty hty).2.2 h c hl hadd start out hne
  revert h1 h2
  cases readFault (ty.storage al).supported (ty.storage al).natural (ty.storage al).memSize t.bytes.length
    c.path start (dataPrefixes segs) out.length with
  | some e => exact fun h1 _ => h1 e rfl
  | none => exact fun _ h2 => h2 rfl

/-! ## Faults and segments -/

section
variable {supported : List DataType} {natural : DataType} {w size : Nat} {path : Text} {start : Nat}

/-- No fault: no segment has one, among those that are needed. -/
theorem readFault_none_iff : ∀ (pres : List (List Segment)) (room : Nat),
    readFault supported natural w size path start pres room = none ↔
      ∀ B pre, pres[B]? = some pre → ((pres.take B).flatMap fun pre => deliveredIn w pre path start).length < room →
        faultIn supported natural w size pre path start
          (room - ((pres.take B).flatMap fun pre => deliveredIn w pre path start).length) = none
  | [], room => by simp [readFault]
  | p :: ps, room => by
    rw [readFault]
    by_cases h0 : room = 0
    · rw [if_pos h0]
      subst h0
      simp
    rw [if_neg h0]
    cases hf : faultIn supported natural w size p path start room with
    | some e =>
      simp only [reduceCtorEq, false_iff]
      intro h
      have := h 0 p rfl (by simp; omega)
      simp only [List.take_zero, List.flatMap_nil, List.length_nil, Nat.sub_zero] at this
      rw [hf] at this
      cases this
    | none =>
      dsimp only
      rw [readFault_none_iff ps]
      constructor
      · intro h B pre hB hlen
        cases B with
        | zero =>
          simp only [List.getElem?_cons_zero, Option.some.injEq] at hB
          subst hB
          simpa using hf
        | succ B =>
          rw [List.take_succ_cons, List.flatMap_cons, List.length_append] at hlen ⊢
          have := h B pre hB (by omega)
          rw [← Nat.sub_sub]
          exact this
      · intro h B pre hB hlen
        have := h (B + 1) pre hB (by rw [List.take_succ_cons, List.flatMap_cons, List.length_append]; omega)
        rw [List.take_succ_cons, List.flatMap_cons, List.length_append, ← Nat.sub_sub] at this
        exact this

/-- A fault is the fault of a segment. -/
theorem readFault_some : ∀ (pres : List (List Segment)) (room : Nat) {e : Fail},
    readFault supported natural w size path start pres room = some e →
      ∃ pre ∈ pres, ∃ room', faultIn supported natural w size pre path start room' = some e
  | [], room, e, h => by cases h
  | p :: ps, room, e, h => by
    rw [readFault] at h
    by_cases h0 : room = 0
    · rw [if_pos h0] at h; cases h
    rw [if_neg h0] at h
    cases hf : faultIn supported natural w size p path start room with
    | some e' =>
      rw [hf] at h
      cases h
      exact ⟨p, by simp, room, hf⟩
    | none =>
      rw [hf] at h
      obtain ⟨pre, hpre, hx⟩ := readFault_some ps _ h
      exact ⟨pre, by simp [hpre], hx⟩

/-- Without a fault the wanted values are in the file. -/
theorem DataBlock.fault_none_inside {b : DataBlock} {i : Nat} {m : RawDataMeta} {skip room : Nat}
    (h : b.fault supported natural w size i m skip room = none) : Inside w size ((b.delivered i m w skip).take room) := by
  unfold DataBlock.fault at h
  split at h
  · cases h
  · split at h
    · split at h
      · cases h
      · split at h
        · cases h
        · split at h
          · assumption
          · cases h
    · split at h
      · cases h
      · split at h
        · rename_i hin
          intro p hp
          apply hin
          exact List.take_subset_take_left _ (Nat.le_succ room) hp
        · cases h

theorem faultIn_none_inside {pre : List Segment} {room : Nat}
    (h : faultIn supported natural w size pre path start room = none) {c : Cell}
    (hc : c ∈ (deliveredIn w pre path start).take room) : c.2 + w ≤ size := by
  unfold faultIn at h
  unfold deliveredIn at hc
  by_cases hcond : 0 < samplesIn pre path ∧ start < sampleCount pre path
  · rw [if_pos hcond] at h hc
    cases hb : blockOf pre with
    | none => rw [hb] at hc; simp at hc
    | some b =>
      cases hi : (active pre).idxOf? path with
      | none => rw [hb, hi] at hc; simp at hc
      | some i =>
        cases hm : layoutOf (entries pre) path with
        | none => rw [hb, hi, hm] at hc; simp at hc
        | some m =>
          rw [hb, hi, hm] at h hc
          dsimp only at h hc
          rw [← List.map_take] at hc
          obtain ⟨p, hp, rfl⟩ := List.mem_map.mp hc
          exact DataBlock.fault_none_inside h p hp
  · rw [if_neg hcond] at hc
    simp at hc

theorem readFault_none_inside : ∀ (pres : List (List Segment)) (room : Nat),
    readFault supported natural w size path start pres room = none →
      ∀ c ∈ (pres.flatMap fun pre => deliveredIn w pre path start).take room, c.2 + w ≤ size
  | [], room, _, c, hc => by simp at hc
  | p :: ps, room, h, c, hc => by
    rw [readFault] at h
    by_cases h0 : room = 0
    · subst h0; simp at hc
    rw [if_neg h0] at h
    cases hf : faultIn supported natural w size p path start room with
    | some e => rw [hf] at h; cases h
    | none =>
      rw [hf] at h
      rw [List.flatMap_cons, List.take_append, List.mem_append] at hc
      rcases hc with hc | hc
      · exact faultIn_none_inside hf hc
      · exact readFault_none_inside ps _ h c hc

/-- A block inside the file of a supported type can fail by a panic only. -/
theorem DataBlock.fault_inside {b : DataBlock} {i : Nat} {m : RawDataMeta} {skip room : Nat}
    (hch : b.channels[i]? = some m) (hty : m.dataType ∈ supported) (hin : b.start + b.length ≤ size) :
    b.fault supported natural w size i m skip room =
      match b.layout with
      | .contigious =>
        if 2 ^ 64 ≤ (stepChunks b.channels i w).sum then some (.panic .overflow)
        else if (b.channels.map (·.numberOfValues)).headD 0 = 0 then some (.panic .divByZero)
        else none
      | .interleaved =>
        if 2 ^ 63 ≤ skip * (stepWidths b.channels i w).sum then some (.panic .overflow) else none := by
  have hins : ∀ n, Inside w size ((b.delivered i m w skip).take n) := by
    intro n p hp
    have := DataBlock.delivered_inside hch (List.mem_of_mem_take hp)
    omega
  unfold DataBlock.fault
  rw [if_neg (fun h => h hty), if_pos (hins room), if_pos (hins (room + 1))]
  cases b.layout <;> rfl

end

/-! ## Panics -/

/-- The reader of channel number `i` of a block panics when `skip` samples are skipped. -/
def DataBlock.Halts (w : Nat) (b : DataBlock) (i skip : Nat) : Prop :=
  (b.layout = .contigious ∧ (2 ^ 64 ≤ (stepChunks b.channels i w).sum ∨
    (b.channels.map (·.numberOfValues)).headD 0 = 0)) ∨
  (b.layout = .interleaved ∧ 2 ^ 63 ≤ skip * (stepWidths b.channels i w).sum)

/-- **C74, panics.** In a file with all raw data of a channel, of the type that is read, the read panics if and
    only if a segment that it needs has contiguous data with a first channel without values or a chunk of
    `2 ^ 64` bytes or more, or interleaved data with `2 ^ 63` bytes or more to skip. -/
theorem read_panics_iff (al : Alloc) (ty : STy) (hty : Format.fixedTy ty = true) {segs : List Segment} {t : TdmsFile}
    (h : replay Index.new segs = .ok t.index) (c : ChannelPath) (hl : Listed (entries segs) c.path)
    (hadd : Addressable (ty.storage al).memSize segs c.path) (start : Nat) (out : List ty.Val) (hne : out ≠ [])
    (hin : ∀ pre ∈ dataPrefixes segs, 0 < samplesIn pre c.path →
      (∃ m ∈ layoutOf (entries pre) c.path, m.dataType ∈ (ty.storage al).supported) ∧
      ∀ b ∈ blockOf pre, b.start + b.length ≤ t.bytes.length) :
    (∃ k, t.readChannelFrom (ty.storage al) c start out = R.panic k) ↔
      ∃ pre ∈ dataPrefixes segs, 0 < samplesIn pre c.path ∧ start < sampleCount pre c.path ∧
        (delivered (ty.storage al).memSize pre.dropLast c.path start).length < out.length ∧
        ∃ b i, blockOf pre = some b ∧ (active pre).idxOf? c.path = some i ∧
          b.Halts (ty.storage al).memSize i (start - sampleCount pre.dropLast c.path) := by
  have hout := read_outcome al ty hty h c hl hadd start out hne
  generalize hw : (ty.storage al).memSize = w at *
  -- the faults of the segments
  have hseg : ∀ (B : Nat) (pre : List Segment), (dataPrefixes segs)[B]? = some pre → ∀ room : Nat,
      (∀ e, faultIn (ty.storage al).supported (ty.storage al).natural w t.bytes.length pre c.path start room = some e →
        ∃ k, e = .panic k) ∧
      (faultIn (ty.storage al).supported (ty.storage al).natural w t.bytes.length pre c.path start room ≠ none ↔
        0 < samplesIn pre c.path ∧ start < sampleCount pre c.path ∧
        ∃ b i, blockOf pre = some b ∧ (active pre).idxOf? c.path = some i ∧
          b.Halts w i (start - sampleCount pre.dropLast c.path)) := by
    intro B pre hpre room
    unfold faultIn
    by_cases hcond : 0 < samplesIn pre c.path ∧ start < sampleCount pre c.path
    · rw [if_pos hcond]
      obtain ⟨⟨m, hm, hmt⟩, hbin⟩ := hin pre (List.mem_of_getElem? hpre) hcond.1
      have hact := samplesIn_active hcond.1
      obtain ⟨j, hj⟩ := Option.isSome_iff_exists.mp (List.isSome_idxOf?.mpr hact)
      obtain ⟨hm1, _⟩ := layout_at h hpre hj
      obtain ⟨b, hb, _⟩ := (replay_refines h).block hpre
      obtain ⟨s, hs, hbch, _⟩ := blockOf_fields hb
      have hm' : layoutOf (entries pre) c.path = some m := hm
      rw [hb, hj, hm']
      dsimp only
      rw [DataBlock.fault_inside (by rw [hbch, hm1, hm']) hmt (hbin b hb)]
      have hhalt : (∃ b' i, some b = some b' ∧ some j = some i ∧
          b'.Halts w i (start - sampleCount pre.dropLast c.path)) ↔
          b.Halts w j (start - sampleCount pre.dropLast c.path) := by
        constructor
        · rintro ⟨b', i, h1, h2, h3⟩
          cases h1
          cases h2
          exact h3
        · exact fun hx => ⟨b, j, rfl, rfl, hx⟩
      rw [hhalt]
      unfold DataBlock.Halts
      cases hlay : b.layout with
      | contigious =>
        dsimp only
        by_cases h1 : 2 ^ 64 ≤ (stepChunks b.channels j w).sum
        · rw [if_pos h1]
          simp [hcond, h1]
        · rw [if_neg h1]
          by_cases h2 : (b.channels.map (·.numberOfValues)).headD 0 = 0
          · rw [if_pos h2]
            refine ⟨fun e he => ?_, fun _ => ⟨hcond.1, hcond.2, Or.inl ⟨rfl, Or.inr h2⟩⟩, fun _ => by simp⟩
            cases he
            exact ⟨_, rfl⟩
          · rw [if_neg h2]
            refine ⟨fun e he => (by cases he), fun hx => absurd rfl hx, ?_⟩
            rintro ⟨_, _, ⟨_, hx | hx⟩ | ⟨hx, _⟩⟩
            · exact absurd hx h1
            · exact absurd hx h2
            · cases hx
      | interleaved =>
        dsimp only
        by_cases h1 : 2 ^ 63 ≤ (start - sampleCount pre.dropLast c.path) * (stepWidths b.channels j w).sum
        · rw [if_pos h1]
          simp [hcond, h1]
        · rw [if_neg h1]
          refine ⟨fun e he => (by cases he), fun hx => absurd rfl hx, ?_⟩
          rintro ⟨_, _, ⟨hx, _⟩ | ⟨_, hx⟩⟩
          · cases hx
          · exact absurd hx h1
    · rw [if_neg hcond]
      refine ⟨fun e he => (by cases he), fun hx => absurd rfl hx, ?_⟩
      rintro ⟨h1, h2, _⟩
      exact absurd ⟨h1, h2⟩ hcond
  have hne : readFault (ty.storage al).supported (ty.storage al).natural w t.bytes.length c.path start
      (dataPrefixes segs) out.length ≠ none ↔
      ∃ pre ∈ dataPrefixes segs, 0 < samplesIn pre c.path ∧ start < sampleCount pre c.path ∧
        (delivered w pre.dropLast c.path start).length < out.length ∧
        ∃ b i, blockOf pre = some b ∧ (active pre).idxOf? c.path = some i ∧
          b.Halts w i (start - sampleCount pre.dropLast c.path) := by
    rw [Ne, readFault_none_iff]
    constructor
    · intro hx
      refine Classical.byContradiction fun hno => hx ?_
      intro B pre hB hlen
      refine Classical.byContradiction fun hf => hno ?_
      obtain ⟨h1, h2, h3⟩ := (hseg B pre hB _).2.mp hf
      obtain ⟨_, _, _, hd2⟩ := dataPrefixes_take segs B pre hB
      refine ⟨pre, List.mem_of_getElem? hB, h1, h2, ?_, h3⟩
      unfold delivered
      rw [hd2]
      exact hlen
    · rintro ⟨pre, hmem, h1, h2, h3, h4⟩ hx
      obtain ⟨B, hB⟩ := List.mem_iff_getElem?.mp hmem
      obtain ⟨_, _, _, hd2⟩ := dataPrefixes_take segs B pre hB
      unfold delivered at h3
      rw [hd2] at h3
      exact (hseg B pre hB _).2.mpr ⟨h1, h2, h4⟩ (hx B pre hB h3)
  rw [← hne, hout]
  cases hr : readFault (ty.storage al).supported (ty.storage al).natural w t.bytes.length c.path start
      (dataPrefixes segs) out.length with
  | none =>
    dsimp only
    constructor
    · rintro ⟨k, hk⟩; cases hk
    · intro hx; exact absurd rfl hx
  | some e =>
    obtain ⟨pre, hpre, room', hx⟩ := readFault_some _ _ hr
    obtain ⟨B, hB⟩ := List.mem_iff_getElem?.mp hpre
    obtain ⟨k, rfl⟩ := (hseg B pre hB room').1 e hx
    exact ⟨fun _ => by simp, fun _ => ⟨k, rfl⟩⟩

/-! ## Cut files -/

theorem overlay_take {α : Type} (out xs : List α) : overlay out (xs.take out.length) = overlay out xs := by
  unfold overlay
  rw [List.take_take, Nat.min_self, List.length_take]
  congr 1
  rcases Nat.le_total out.length xs.length with h | h
  · rw [Nat.min_eq_left h, List.drop_eq_nil_of_le (Nat.le_refl _), List.drop_eq_nil_of_le h]
  · rw [Nat.min_eq_right h]

/-- **C74, cut files.** What a read of a cut file does, exactly: it fails at the cut or for another fault, and
    otherwise delivers what the file held there before it was cut. -/
theorem cut_read_exact (al : Alloc) (ty : STy) (hty : Format.fixedTy ty = true) {segs : List Segment} {t : TdmsFile}
    (f : Bytes) (n : Nat) (ht : t.bytes = f.take n)
    (h : replay Index.new segs = .ok t.index) (c : ChannelPath) (hl : Listed (entries segs) c.path)
    (hadd : Addressable (ty.storage al).memSize segs c.path) (start : Nat) (out : List ty.Val) (hne : out ≠ []) :
    t.readChannelFrom (ty.storage al) c start out =
      match readFault (ty.storage al).supported (ty.storage al).natural (ty.storage al).memSize (min n f.length)
        c.path start (dataPrefixes segs) out.length with
      | some e => .error e
      | none => .ok (overlay out ((delivered (ty.storage al).memSize segs c.path start).map
          (Cell.value (Format.decode ty) (ty.storage al).memSize f))) := by
  have hlen : t.bytes.length = min n f.length := by rw [ht, List.length_take]
  rw [read_outcome al ty hty h c hl hadd start out hne, hlen]
  cases hr : readFault (ty.storage al).supported (ty.storage al).natural (ty.storage al).memSize (min n f.length)
      c.path start (dataPrefixes segs) out.length with
  | some e => rfl
  | none =>
    dsimp only
    rw [← overlay_take out ((delivered (ty.storage al).memSize segs c.path start).map
        (Cell.value (Format.decode ty) (ty.storage al).memSize t.bytes)),
      ← overlay_take out ((delivered (ty.storage al).memSize segs c.path start).map
        (Cell.value (Format.decode ty) (ty.storage al).memSize f)), ← List.map_take, ← List.map_take]
    congr 2
    apply List.map_congr_left
    intro x hx
    have hin := readFault_none_inside _ _ hr x hx
    unfold Cell.value
    congr 1
    rw [ht, List.drop_take, List.take_take, Nat.min_eq_left (by omega)]

/-! ## Examples -/

theorem addressable_of {w : Nat} {segs : List Segment} {path : Text}
    (h : ∀ pre ∈ dataPrefixes segs, samplesIn pre path < 2 ^ 63 ∧ (∀ b ∈ blockOf pre, b.start + b.length < 2 ^ 63) ∧
      ∀ i ∈ (active pre).idxOf? path, (stepWidths (activeLayouts pre) i w).sum < 2 ^ 63) : Addressable w segs path :=
  fun pre hpre _ => h pre hpre

/-- The hypotheses hold for a file that was cut inside its last value, and the outcomes are as the theorem says:
    reads that end before the last row succeed, a read of the row before the last one fails already, since the
    reader reads one row more than it needs, and a read as another type fails at once. -/
theorem cut_example : ∃ t, TdmsFile.new anyAlloc ((fileOf windowFile).take 224) = .ok t ∧
    t.bytes = (fileOf windowFile).take 224 ∧
    replay Index.new (windowFile.map FileSegment.segment) = .ok t.index ∧
    Listed (entries (windowFile.map FileSegment.segment)) (chan "b").path ∧
    Addressable (STy.u16.storage anyAlloc).memSize (windowFile.map FileSegment.segment) (chan "b").path ∧
    readFault (STy.u16.storage anyAlloc).supported (STy.u16.storage anyAlloc).natural
      (STy.u16.storage anyAlloc).memSize (min 224 (fileOf windowFile).length) (chan "b").path 4
      (dataPrefixes (windowFile.map FileSegment.segment)) 1 = some endOfFile ∧
    t.readChannelFrom (STy.u16.storage anyAlloc) (chan "b") 1 (vals16 [0, 0, 0]) = .ok (vals16 [11, 12, 13]) ∧
    t.readChannelFrom (STy.u16.storage anyAlloc) (chan "b") 4 (vals16 [0]) = .error endOfFile ∧
    t.readChannelFrom (STy.u8.storage anyAlloc) (chan "b") 0 (vals8 [0]) =
      .error (.err (.dataTypeMismatch .u16 .u8)) := by
  obtain ⟨ix, hix⟩ := exists_ok (x := replay Index.new (windowFile.map FileSegment.segment)) (by decide +kernel)
  have hopen : buildIndex anyAlloc ((fileOf windowFile).take 224) =
      replay Index.new (windowFile.map FileSegment.segment) := by decide +kernel
  have hnew : TdmsFile.new anyAlloc ((fileOf windowFile).take 224) = .ok ⟨ix, (fileOf windowFile).take 224⟩ := by
    unfold TdmsFile.new; rw [hopen, hix]; rfl
  have hread1 : readFrom .u16 ((fileOf windowFile).take 224) "b" 1 (vals16 [0, 0, 0]) = .ok (vals16 [11, 12, 13]) := by
    decide +kernel
  have hread2 : readFrom .u16 ((fileOf windowFile).take 224) "b" 4 (vals16 [0]) = .error endOfFile := by
    decide +kernel
  have hread3 : readFrom .u8 ((fileOf windowFile).take 224) "b" 0 (vals8 [0]) =
      .error (.err (.dataTypeMismatch .u16 .u8)) := by
    decide +kernel
  unfold readFrom at hread1 hread2 hread3
  rw [hnew] at hread1 hread2 hread3
  exact ⟨_, hnew, rfl, hix, by unfold Listed; decide +kernel, addressable_of (by decide +kernel), by decide +kernel,
    hread1, hread2, hread3⟩

/-- A file whose first channel has no values in a chunk. -/
def headlessFile : List FileSegment := [dataSegment .little false [("a", .u8, 0), ("b", .u16, 2)] [1, 0, 2, 0]]

/-- The hypotheses of the theorem on panics hold for it, and the read panics. -/
theorem headless_example : ∃ t, TdmsFile.new anyAlloc (fileOf headlessFile) = .ok t ∧
    replay Index.new (headlessFile.map FileSegment.segment) = .ok t.index ∧
    Listed (entries (headlessFile.map FileSegment.segment)) (chan "b").path ∧
    Addressable (STy.u16.storage anyAlloc).memSize (headlessFile.map FileSegment.segment) (chan "b").path ∧
    (∀ pre ∈ dataPrefixes (headlessFile.map FileSegment.segment), 0 < samplesIn pre (chan "b").path →
      (∃ m ∈ layoutOf (entries pre) (chan "b").path, m.dataType ∈ (STy.u16.storage anyAlloc).supported) ∧
      ∀ b ∈ blockOf pre, b.start + b.length ≤ t.bytes.length) ∧
    t.readChannelFrom (STy.u16.storage anyAlloc) (chan "b") 1 (vals16 [0, 0, 0]) = R.panic .divByZero := by
  obtain ⟨ix, hix⟩ := exists_ok (x := replay Index.new (headlessFile.map FileSegment.segment)) (by decide +kernel)
  have hopen : buildIndex anyAlloc (fileOf headlessFile) =
      replay Index.new (headlessFile.map FileSegment.segment) := by decide +kernel
  have hnew : TdmsFile.new anyAlloc (fileOf headlessFile) = .ok ⟨ix, fileOf headlessFile⟩ := by
    unfold TdmsFile.new; rw [hopen, hix]; rfl
  have hread : readFrom .u16 (fileOf headlessFile) "b" 1 (vals16 [0, 0, 0]) = R.panic .divByZero := by
    decide +kernel
  unfold readFrom at hread
  rw [hnew] at hread
  refine ⟨_, hnew, hix, by unfold Listed; decide +kernel, addressable_of (by decide +kernel), ?_, hread⟩
  show ∀ pre ∈ dataPrefixes (headlessFile.map FileSegment.segment), 0 < samplesIn pre (chan "b").path →
      (∃ m ∈ layoutOf (entries pre) (chan "b").path, m.dataType ∈ (STy.u16.storage anyAlloc).supported) ∧
      ∀ b ∈ blockOf pre, b.start + b.length ≤ (fileOf headlessFile).length
  decide +kernel

end Tedium
