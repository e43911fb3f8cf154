import Verif.Spec.JointOutcome
import Verif.Proofs.JointOutcomeFile
import Verif.Props.JointlyAgree
import Verif.Props.Outcome
import Verif.Props.Joint

/-!
# C77: how every read of several channels ends

For every file that opens, also one that was cut, every list of channels, start and list of buffers: success with
which values, which error, or which panic.
-/

namespace Tedium
open PlanSpec SegSpec

theorem STy.memSize_le (al : Alloc) (ty : STy) (h : Format.fixedTy ty = true) : (ty.storage al).memSize ≤ 16 := by
  cases ty <;> first | exact Nat.le_of_ble_eq_true rfl | cases h

/-- **C77.** For every storage type of fixed size, every file, list of channels (also with repetitions), start and list of
    buffers (also empty ones): the read ends with the first fault among the blocks that it gets to, and without one
    the buffers get the values of the cells `storedFrom`. -/
theorem joint_read_outcome (al : Alloc) (ty : STy) (hty : Format.fixedTy ty = true) {segs : List Segment} {t : TdmsFile}
    (h : replay Index.new segs = .ok t.index) (hf : t.bytes.length < 2 ^ 63) (cs : List ChannelPath)
    (hl : ∀ c ∈ cs, Listed (entries segs) c.path) (start : Nat) (outs : List (List ty.Val))
    (hlen : outs.length = cs.length)
    (hadd : JointlyAddressable segs ((cs.map ChannelPath.path).zip (outs.map List.length))) :
    t.readChannelsFrom (ty.storage al) cs start outs =
      match readsFault (ty.storage al).supported (ty.storage al).natural (ty.storage al).memSize t.bytes.length segs
          ((cs.map ChannelPath.path).zip (outs.map List.length)) start with
      | some e => .error e
      | none => .ok (List.zipWith (storeAll (Cell.value (Format.decode ty) (ty.storage al).memSize t.bytes)) outs
          (storedFrom (ty.storage al).memSize segs ((cs.map ChannelPath.path).zip (outs.map List.length)) start)) :=
  readChannelsFrom_outcome (STy.reads_fixed al ty hty).1 (STy.short al ty hty) (STy.memSize_le al ty hty) h hf cs hl
    start outs hlen hadd

/-- **C77, cut files.** What a joint read of a cut file does, exactly: it fails with the first fault, and otherwise
    stores what the file held there before it was cut. -/
theorem cut_joint_read_exact (al : Alloc) (ty : STy) (hty : Format.fixedTy ty = true) {segs : List Segment}
    {t : TdmsFile} (f : Bytes) (n : Nat) (ht : t.bytes = f.take n) (hf : f.length < 2 ^ 63)
    (h : replay Index.new segs = .ok t.index) (cs : List ChannelPath)
    (hl : ∀ c ∈ cs, Listed (entries segs) c.path) (start : Nat) (outs : List (List ty.Val))
    (hlen : outs.length = cs.length)
    (hadd : JointlyAddressable segs ((cs.map ChannelPath.path).zip (outs.map List.length))) :
    t.readChannelsFrom (ty.storage al) cs start outs =
      match readsFault (ty.storage al).supported (ty.storage al).natural (ty.storage al).memSize (min n f.length) segs
          ((cs.map ChannelPath.path).zip (outs.map List.length)) start with
      | some e => .error e
      | none => .ok (List.zipWith (storeAll (Cell.value (Format.decode ty) (ty.storage al).memSize f)) outs
          (storedFrom (ty.storage al).memSize segs ((cs.map ChannelPath.path).zip (outs.map List.length)) start)) := by
  have hl' : t.bytes.length = min n f.length := by rw [ht, List.length_take]
  have hcut := joint_read_outcome al ty hty h (by omega) cs hl start outs hlen hadd
  have hfull := joint_read_outcome al ty hty (t := { t with bytes := f }) h hf cs hl start outs hlen hadd
  rw [hl'] at hcut
  cases hr : readsFault (ty.storage al).supported (ty.storage al).natural (ty.storage al).memSize (min n f.length) segs
      ((cs.map ChannelPath.path).zip (outs.map List.length)) start with
  | some e => rw [hr] at hcut; exact hcut
  | none =>
    rw [hr] at hcut
    have hg : Grows t { t with bytes := f } :=
      ⟨⟨f.drop n, by rw [ht, List.take_append_drop]⟩, [], (List.append_nil _).symm⟩
    have hm := readChannelsFrom_mono (STy.mono al ty) hg (fun _ _ => rfl) hcut
    rw [hfull] at hm
    rw [hcut]
    dsimp only at hm ⊢
    split at hm
    · cases hm
    · exact hm.symm

/-! ## The kinds of failure -/

theorem DataBlock.jointFault_kinds {supported : List DataType} {natural : DataType} {w size : Nat} {b : DataBlock}
    {skipping : Bool} {ts : List Taker} {e : Fail} (h : b.jointFault supported natural w size skipping ts = some e) :
    (∃ d, d ∉ supported ∧ e = .err (.dataTypeMismatch d natural)) ∨ e = endOfFile ∨ e = .panic .overflow ∨
      e = .panic .divByZero := by
  unfold DataBlock.jointFault at h
  split at h
  · rename_i e' hm
    cases h
    obtain ⟨t, _, ht⟩ := List.exists_of_findSome?_eq_some hm
    unfold DataBlock.mismatch at ht
    split at ht
    · rename_i m _
      split at ht
      · cases ht
      · rename_i hn
        cases ht
        exact Or.inl ⟨_, hn, rfl⟩
    · cases ht
  · dsimp only at h
    split at h
    · split at h
      · cases h; simp
      split at h
      · cases h; simp
      split at h
      · cases h; simp
      split at h
      · cases h
      · cases h; simp
    · split at h
      · cases h; simp
      split at h
      · cases h; simp
      split at h
      · cases h
      · cases h; simp

theorem jointFault_kinds {supported : List DataType} {natural : DataType} {w size start : Nat} {bufs : List Buffer}
    {e : Fail} : ∀ (pres : List (List Segment)) (prog : List Nat),
    SegSpec.jointFault supported natural w size start bufs pres prog = some e →
    (∃ d, d ∉ supported ∧ e = .err (.dataTypeMismatch d natural)) ∨ e = endOfFile ∨ e = .panic .overflow ∨
      e = .panic .divByZero := by
  intro pres
  induction pres with
  | nil => intro prog h; cases h
  | cons pre pres ih =>
    intro prog h
    unfold SegSpec.jointFault at h
    split at h
    · exact ih _ h
    · split at h
      · dsimp only at h
        split at h
        · rename_i hb
          cases h
          exact DataBlock.jointFault_kinds hb
        · split at h
          · cases h
          · exact ih _ h
      · exact ih _ h

/-- **C77, the kinds of failure.** A joint read can fail only because of a type that cannot be read as the wanted
    one, because the file is too short, or by one of two panics. -/
theorem joint_read_fails_only (al : Alloc) (ty : STy) (hty : Format.fixedTy ty = true) {segs : List Segment}
    {t : TdmsFile} (h : replay Index.new segs = .ok t.index) (hf : t.bytes.length < 2 ^ 63) (cs : List ChannelPath)
    (hl : ∀ c ∈ cs, Listed (entries segs) c.path) (start : Nat) (outs : List (List ty.Val))
    (hlen : outs.length = cs.length)
    (hadd : JointlyAddressable segs ((cs.map ChannelPath.path).zip (outs.map List.length))) {e : Fail}
    (he : t.readChannelsFrom (ty.storage al) cs start outs = .error e) :
    (∃ d, d ∉ (ty.storage al).supported ∧ e = .err (.dataTypeMismatch d (ty.storage al).natural)) ∨ e = endOfFile ∨
      e = .panic .overflow ∨ e = .panic .divByZero := by
  rw [joint_read_outcome al ty hty h hf cs hl start outs hlen hadd] at he
  split at he
  · rename_i e' hr
    cases he
    exact jointFault_kinds _ _ hr
  · cases he

/-! ## Buffers without room -/

theorem DataBlock.jointFault_none {supported : List DataType} {natural : DataType} {w size : Nat} (b : DataBlock)
    (skipping : Bool) : b.jointFault supported natural w size skipping [] = b.emptyFault skipping := by
  have hc : jointChunks b.channels (([] : List Taker).map (·.chan)) w =
      b.channels.map fun m => m.numberOfValues * m.dataType.size := by
    unfold jointChunks
    apply List.ext_getElem?
    intro k
    simp
  have hw : jointWidths b.channels (([] : List Taker).map (·.chan)) w = b.channels.map fun m => m.dataType.size := by
    unfold jointWidths
    apply List.ext_getElem?
    intro k
    simp
  have hr : b.readChans [] = [] := by unfold DataBlock.readChans; simp
  have hin : Inside w size (b.touched w []) := by
    unfold DataBlock.touched
    rw [hr]
    cases b.layout with
    | contigious => intro p hp; cases hp
    | interleaved =>
      intro p hp
      simp at hp
  have hrow : b.firstRow [] = 0 := by unfold DataBlock.firstRow; rw [hr]; rfl
  unfold DataBlock.jointFault DataBlock.emptyFault
  rw [hc, hw, if_pos hin, hrow]
  dsimp only [List.findSome?_nil]
  cases b.layout with
  | contigious => simp
  | interleaved => simp

/-- **C77, buffers without room.** A read into an empty buffer stores nothing, but can panic: it looks at the first
    segment with samples of the channel at or behind the start, and computes its sizes. -/
theorem empty_read_outcome (al : Alloc) (ty : STy) (hty : Format.fixedTy ty = true) {segs : List Segment} {t : TdmsFile}
    (h : replay Index.new segs = .ok t.index) (hf : t.bytes.length < 2 ^ 63) (c : ChannelPath)
    (hl : Listed (entries segs) c.path) (start : Nat) (hadd : JointlyAddressable segs [(c.path, 0)]) :
    t.readChannelFrom (ty.storage al) c start [] =
      match ((dataPrefixes segs).find? (fun pre => wanted pre start c.path)).bind fun pre =>
          (blockOf pre).bind (fun b => b.emptyFault (decide (sampleCount pre.dropLast c.path < start))) with
      | some e => .error e
      | none => .ok [] := by
  have hj := joint_read_outcome al ty hty h hf [c] (by simpa using hl) start [[]] rfl hadd
  rw [read_channels_single] at hj
  have hblocks : ∀ pre ∈ dataPrefixes segs, ∃ b, blockOf pre = some b := by
    intro pre hpre
    obtain ⟨B, hB⟩ := List.mem_iff_getElem?.mp hpre
    obtain ⟨b, hb, _⟩ := (replay_refines h).block hB
    exact ⟨b, hb⟩
  have hfault : ∀ pres : List (List Segment), (∀ pre ∈ pres, ∃ b, blockOf pre = some b) →
      SegSpec.jointFault (ty.storage al).supported (ty.storage al).natural (ty.storage al).memSize t.bytes.length start
        [(c.path, 0)] pres [0] =
      (pres.find? (fun pre => wanted pre start c.path)).bind fun pre =>
          (blockOf pre).bind (fun b => b.emptyFault (decide (sampleCount pre.dropLast c.path < start))) := by
    intro pres
    induction pres with
    | nil => intro _; rfl
    | cons pre pres ih =>
      intro hall
      obtain ⟨b, hb⟩ := hall pre List.mem_cons_self
      unfold SegSpec.jointFault
      rw [hb, List.find?_cons]
      dsimp only
      cases hw : wanted pre start c.path with
      | false =>
        rw [if_neg (by simp [hw])]
        exact ih (fun p hp => hall p (List.mem_cons_of_mem _ hp))
      | true =>
        rw [if_pos (by simp [hw])]
        have hts : (takers pre start [(c.path, 0)] [0]).filterMap id = [] := by
          simp [takers, takerOf]
        have hsk : skipsSome pre start [(c.path, 0)] = decide (sampleCount pre.dropLast c.path < start) := by
          simp [skipsSome, hw]
        rw [hts, hsk, DataBlock.jointFault_none]
        show _ = (some pre).bind _
        rw [Option.bind_some, hb, Option.bind_some]
        cases b.emptyFault (decide (sampleCount pre.dropLast c.path < start)) with
        | some e => rfl
        | none =>
          dsimp only
          rw [if_pos]
          simp [progressed]
  rw [← hfault _ hblocks]
  replace hj : (t.readChannelFrom (ty.storage al) c start []).map (fun r => [r]) =
      match SegSpec.jointFault (ty.storage al).supported (ty.storage al).natural (ty.storage al).memSize t.bytes.length
        start [(c.path, 0)] (dataPrefixes segs) [0] with
      | some e => .error e
      | none => .ok (List.zipWith (storeAll (Cell.value (Format.decode ty) (ty.storage al).memSize t.bytes)) [[]]
          (storedFrom (ty.storage al).memSize segs [(c.path, 0)] start)) := hj
  cases hr : t.readChannelFrom (ty.storage al) c start [] with
  | error e =>
    rw [hr] at hj
    split at hj
    · rename_i e' he
      cases hj
      rfl
    · cases hj
  | ok res =>
    rw [hr] at hj
    split at hj
    · cases hj
    · have hj := Except.ok.inj hj
      cases hs : storedFrom (ty.storage al).memSize segs [(c.path, 0)] start with
      | nil => rw [hs] at hj; cases hj
      | cons as rest =>
        rw [hs] at hj
        have hres := (List.cons.inj hj).1
        have := length_storeAll (Cell.value (Format.decode ty) (ty.storage al).memSize t.bytes) as []
        rw [← hres] at this
        rw [List.eq_nil_of_length_eq_zero this]

/-! ## Examples -/

theorem jointlyAddressable_of {segs : List Segment} {bufs : List Buffer}
    (h : ∀ pre ∈ dataPrefixes segs, (∀ b ∈ blockOf pre, b.start + b.length < 2 ^ 63 ∧ b.channels.length < 2 ^ 59) ∧
      ∀ x ∈ bufs, samplesIn pre x.1 < 2 ^ 63) : JointlyAddressable segs bufs := h

/-- Four rows of `a` and `b`. -/
def fourRows : List FileSegment :=
  [dataSegment .little true [("a", .u8, 4), ("b", .u8, 4)] [1, 11, 2, 12, 3, 13, 4, 14]]

/-- The hypotheses hold for a file that was cut inside its last row, and the outcomes are as the theorem says: a read
    that stops in the second row succeeds, and one that has to look at the last row fails. -/
theorem joint_cut_example : ∃ t, TdmsFile.new anyAlloc ((fileOf fourRows).take ((fileOf fourRows).length - 1)) = .ok t ∧
    t.bytes = (fileOf fourRows).take ((fileOf fourRows).length - 1) ∧
    replay Index.new (fourRows.map FileSegment.segment) = .ok t.index ∧
    (∀ c ∈ [chan "a", chan "b"], Listed (entries (fourRows.map FileSegment.segment)) c.path) ∧
    JointlyAddressable (fourRows.map FileSegment.segment) [((chan "a").path, 3), ((chan "b").path, 1)] ∧
    t.readChannelsFrom (STy.u8.storage anyAlloc) [chan "a", chan "b"] 1 [vals8 [99], vals8 [99]] =
      .ok [vals8 [2], vals8 [12]] ∧
    t.readChannelsFrom (STy.u8.storage anyAlloc) [chan "a", chan "b"] 0 [vals8 [99, 99, 99], vals8 [99]] =
      .error endOfFile ∧
    t.readChannelsFrom (STy.u16.storage anyAlloc) [chan "a", chan "b"] 0 [vals16 [99, 99, 99], vals16 [99]] =
      .error (.err (.dataTypeMismatch .u8 .u16)) := by
  obtain ⟨ix, hix⟩ := exists_ok (x := replay Index.new (fourRows.map FileSegment.segment)) (by decide +kernel)
  have hopen : buildIndex anyAlloc ((fileOf fourRows).take ((fileOf fourRows).length - 1)) =
      replay Index.new (fourRows.map FileSegment.segment) := by decide +kernel
  have hnew : TdmsFile.new anyAlloc ((fileOf fourRows).take ((fileOf fourRows).length - 1)) =
      .ok ⟨ix, (fileOf fourRows).take ((fileOf fourRows).length - 1)⟩ := by
    unfold TdmsFile.new; rw [hopen, hix]; rfl
  have h1 : readManyFrom .u8 ((fileOf fourRows).take ((fileOf fourRows).length - 1)) ["a", "b"] 1 [vals8 [99], vals8 [99]] =
      .ok [vals8 [2], vals8 [12]] := by decide +kernel
  have h2 : readManyFrom .u8 ((fileOf fourRows).take ((fileOf fourRows).length - 1)) ["a", "b"] 0
      [vals8 [99, 99, 99], vals8 [99]] = .error endOfFile := by decide +kernel
  have h3 : readManyFrom .u16 ((fileOf fourRows).take ((fileOf fourRows).length - 1)) ["a", "b"] 0
      [vals16 [99, 99, 99], vals16 [99]] = .error (.err (.dataTypeMismatch .u8 .u16)) := by decide +kernel
  unfold readManyFrom at h1 h2 h3
  rw [hnew] at h1 h2 h3
  exact ⟨_, hnew, rfl, hix, by unfold Listed; decide +kernel, jointlyAddressable_of (by decide +kernel), h1, h2, h3⟩

/-- A joint read can fail where the reads of its channels succeed: in interleaved data every channel is read in
    every row, whether there is room for its value or not. -/
theorem joint_read_needs_more_counterexample :
    readManyFrom .u8 ((fileOf fourRows).take ((fileOf fourRows).length - 1)) ["a", "b"] 0 [vals8 [99, 99, 99], vals8 [99]] =
      .error endOfFile ∧
    readFrom .u8 ((fileOf fourRows).take ((fileOf fourRows).length - 1)) "a" 0 (vals8 [99, 99, 99]) = .ok (vals8 [1, 2, 3]) ∧
    readFrom .u8 ((fileOf fourRows).take ((fileOf fourRows).length - 1)) "b" 0 (vals8 [99]) = .ok (vals8 [11]) := by
  refine ⟨?_, ?_, ?_⟩ <;> decide +kernel

/-- A read into an empty buffer can panic, and need not when samples are skipped. The hypotheses of the theorem hold. -/
theorem empty_read_example : ∃ t, TdmsFile.new anyAlloc (fileOf headlessFile) = .ok t ∧
    replay Index.new (headlessFile.map FileSegment.segment) = .ok t.index ∧
    Listed (entries (headlessFile.map FileSegment.segment)) (chan "b").path ∧
    JointlyAddressable (headlessFile.map FileSegment.segment) [((chan "b").path, 0)] ∧
    t.readChannelFrom (STy.u16.storage anyAlloc) (chan "b") 0 (vals16 []) = R.panic .divByZero ∧
    t.readChannelFrom (STy.u16.storage anyAlloc) (chan "b") 1 (vals16 []) = .ok (vals16 []) := by
  obtain ⟨ix, hix⟩ := exists_ok (x := replay Index.new (headlessFile.map FileSegment.segment)) (by decide +kernel)
  have hopen : buildIndex anyAlloc (fileOf headlessFile) =
      replay Index.new (headlessFile.map FileSegment.segment) := by decide +kernel
  have hnew : TdmsFile.new anyAlloc (fileOf headlessFile) = .ok ⟨ix, fileOf headlessFile⟩ := by
    unfold TdmsFile.new; rw [hopen, hix]; rfl
  have h1 : readFrom .u16 (fileOf headlessFile) "b" 0 (vals16 []) = R.panic .divByZero := by decide +kernel
  have h2 : readFrom .u16 (fileOf headlessFile) "b" 1 (vals16 []) = .ok (vals16 []) := by decide +kernel
  unfold readFrom at h1 h2
  rw [hnew] at h1 h2
  exact ⟨_, hnew, hix, by unfold Listed; decide +kernel, jointlyAddressable_of (by decide +kernel), h1, h2⟩

end Tedium
