import Verif.Props.Reopen
import Verif.Props.Buffers
import Verif.Props.Faults

/-! # Opening a file after a crash (C53) -/

namespace Tedium
open SegSpec WriteSpec ReadSpec Faults

theorem prefix_of_le {α : Type} {a b c : List α} (ha : a <+: c) (hb : b <+: c) (h : a.length ≤ b.length) : a <+: b :=
  List.prefix_of_prefix_length_le ha hb h

theorem call_grows (al : Alloc) {t : TdmsFile} {op : Op} {fs : List FileSegment} {s : FileSegment}
    (h : Holds fs t) (h' : Holds (fs ++ [s]) (op.run al t).2) : (op.run al t).2.bytes = t.bytes ++ s.encode := by
  rw [h'.bytes, h.bytes, List.flatMap_append]
  simp

theorem takenForMetadata_le (last : Last) (op : Op) : takenForMetadata last op ≤ 4 := by
  unfold takenForMetadata
  split
  · exact Nat.zero_le _
  · split <;> decide

/-- The opened file when the calls were cut after `disk`. -/
theorem recover (al : Alloc) (hal : Generous al) (disk : Bytes) : ∀ (ops : List Op) (fs : List FileSegment) (t : TdmsFile)
    (last : Last), Holds fs t → Session al t → last.channels = t.index.activeObjects.map (·.path) →
    AllSucceed al t ops → (∀ op ∈ ops, Distinct op) → (∀ op ∈ ops, OpFits op) → Described al last ops →
    (runOps al t ops).bytes.length < 2 ^ 64 → t.bytes <+: disk → disk <+: (runOps al t ops).bytes →
    ∃ k, k ≤ ops.length ∧
      (∀ j, j ≤ ops.length → ((runOps al t (ops.take j)).bytes <+: disk ↔ j ≤ k)) ∧
      (disk.length < (runOps al t (ops.take k)).bytes.length + 4 →
        TdmsFile.new al disk = .ok ⟨(runOps al t (ops.take k)).index, disk⟩) ∧
      (TdmsFile.new al disk = .ok ⟨(runOps al t (ops.take k)).index, disk⟩ ∨
        TdmsFile.new al disk = R.err (.ioError .unexpectedEof) ∨
        TdmsFile.new al disk = .ok ⟨(runOps al t (ops.take (k + 1))).index, disk⟩) ∧
      (∀ op, ops[k]? = some op →
        (runOps al t (ops.take k)).bytes.length + 28 + dataBytes al op ≤ (runOps al t (ops.take (k + 1))).bytes.length ∧
        TdmsFile.new al disk =
          if disk.length < (runOps al t (ops.take k)).bytes.length + 4 then .ok ⟨(runOps al t (ops.take k)).index, disk⟩
          else if disk.length + dataBytes al op <
              (runOps al t (ops.take (k + 1))).bytes.length + takenForMetadata ((ops.take k).foldl Last.after last) op then
            R.err (.ioError .unexpectedEof)
          else .ok ⟨(runOps al t (ops.take (k + 1))).index, disk⟩) := by
  intro ops
  induction ops with
  | nil =>
    intro fs t last h _ _ _ _ _ _ _ h1 h2
    obtain rfl : disk = t.bytes := (List.IsPrefix.eq_of_length_le h2 h1.length_le)
    refine ⟨0, Nat.le_refl _, ?_, fun _ => h.new al hal, Or.inl (h.new al hal), fun op ho => by cases ho⟩
    intro j hj
    obtain rfl : j = 0 := Nat.le_zero.mp hj
    exact ⟨fun _ => Nat.le_refl _, fun _ => List.prefix_rfl⟩
  | cons op ops ih =>
    intro fs t last h hs hl hall hdist hfit hdesc hsz h1 h2
    rw [allSucceed_cons] at hall
    rw [runOps_cons] at hsz h2
    have hsz1 : (op.run al t).2.bytes.length < 2 ^ 64 :=
      Nat.lt_of_le_of_lt (runOps_bytes al _ ops).length_le hsz
    obtain ⟨hd1, hd2⟩ := described_cons hdesc
    obtain ⟨s, hr, hdata⟩ := h.call al op hl hall.1 (hfit op List.mem_cons_self) hd1 hsz1
    by_cases hlen : (op.run al t).2.bytes.length ≤ disk.length
    · have hp : (op.run al t).2.bytes <+: disk := prefix_of_le (runOps_bytes al _ ops) h2 hlen
      obtain ⟨k, hk, hj, ha, hb, hc⟩ := ih (fs ++ [s]) _ (last.after op) hr (.call op hs)
        (last_after_active al hs hl op (hdist op List.mem_cons_self) hall.1)
        hall.2 (fun o ho => hdist o (List.mem_cons_of_mem _ ho)) (fun o ho => hfit o (List.mem_cons_of_mem _ ho)) hd2 hsz
        hp h2
      refine ⟨k + 1, Nat.succ_le_succ hk, ?_, ha, hb, hc⟩
      intro j hjl
      cases j with
      | zero => exact ⟨fun _ => Nat.zero_le _, fun _ => h1⟩
      | succ j =>
        refine (hj j (Nat.le_of_succ_le_succ hjl)).trans ?_
        omega
    · refine ⟨0, Nat.zero_le _, ?_, ?_⟩
      · intro j hjl
        cases j with
        | zero => exact ⟨fun _ => Nat.le_refl _, fun _ => h1⟩
        | succ j =>
          refine ⟨fun hp => ?_, fun hp => by omega⟩
          have : (op.run al t).2.bytes <+: (runOps al t ((op :: ops).take (j + 1))).bytes := runOps_bytes al _ (ops.take j)
          exact absurd (this.trans hp).length_le hlen
      · have hg := call_grows al h hr
        obtain ⟨x, hx⟩ := h1
        have hxp : x <+: s.encode := by
          have hd : disk <+: (op.run al t).2.bytes := prefix_of_le h2 (runOps_bytes al _ ops) (by omega)
          rw [hg, ← hx] at hd
          exact (List.prefix_append_right_inj _).mp hd
        have hxl : x = s.encode.take x.length := List.prefix_iff_eq_take.mp hxp
        have hlt : x.length < s.encode.length := by
          rw [hg, ← hx, List.length_append, List.length_append] at hlen
          omega
        have hcut := open_truncated_partial al hal fs s [] h.fits (hr.fits s (by simp)) x.length hlt
        have hfile : ((fs ++ s :: []).flatMap FileSegment.encode).take ((fs.flatMap FileSegment.encode).length + x.length)
            = disk := by
          rw [← hx, h.bytes, List.flatMap_append, List.take_length_add_append]
          congr 1
          simp only [List.flatMap_cons, List.flatMap_nil, List.append_nil]
          exact hxl.symm
        rw [hfile, h.index, hr.index] at hcut
        have hdl : disk.length = t.bytes.length + x.length := by rw [← hx, List.length_append]
        have hnew : TdmsFile.new al disk = if x.length < 4 then .ok ⟨t.index, disk⟩
            else if x.length < 28 + s.metaData.size then R.err (.ioError .unexpectedEof)
            else .ok ⟨(op.run al t).2.index, disk⟩ := by
          unfold TdmsFile.new
          rw [hcut]
          split
          · rfl
          · split <;> rfl
        show (disk.length < t.bytes.length + 4 → TdmsFile.new al disk = .ok ⟨t.index, disk⟩) ∧
          (TdmsFile.new al disk = .ok ⟨t.index, disk⟩ ∨ TdmsFile.new al disk = R.err (.ioError .unexpectedEof) ∨
            TdmsFile.new al disk = .ok ⟨(op.run al t).2.index, disk⟩) ∧
          (∀ op', some op = some op' →
            t.bytes.length + 28 + dataBytes al op' ≤ (op.run al t).2.bytes.length ∧
            TdmsFile.new al disk =
            if disk.length < t.bytes.length + 4 then .ok ⟨t.index, disk⟩
            else if disk.length + dataBytes al op' < (op.run al t).2.bytes.length + takenForMetadata last op' then
              R.err (.ioError .unexpectedEof)
            else .ok ⟨(op.run al t).2.index, disk⟩)
        rw [hnew]
        refine ⟨?_, ?_, ?_⟩
        · intro hh
          rw [if_pos (by omega)]
        · split
          · exact Or.inl rfl
          · split
            · exact Or.inr (Or.inl rfl)
            · exact Or.inr (Or.inr rfl)
        · intro op' ho
          cases ho
          have he : s.encode.length = 28 + s.metaData.size + s.rest.length := by
            unfold FileSegment.encode
            rw [List.length_append, FileSegment.length_head]
          have e1 : (x.length < 4) = (disk.length < t.bytes.length + 4) := propext ⟨fun _ => by omega, fun _ => by omega⟩
          have e2 : (x.length < 28 + s.metaData.size) = (disk.length + dataBytes al op < (op.run al t).2.bytes.length
              + takenForMetadata last op) := by
            rw [hg, List.length_append]
            exact propext ⟨fun _ => by omega, fun _ => by omega⟩
          have h4 : takenForMetadata last op ≤ s.metaData.size :=
            Nat.le_trans (takenForMetadata_le last op) (by unfold MetaData.size; omega)
          refine ⟨?_, by simp only [e1, e2]⟩
          rw [hg, List.length_append]
          omega

/-- **C53** (partial, with the limits of C32: no extended floats and strings in channels, and a data write that
    repeats the channel list, or only adds or drops channels at its end, must start with four zero bytes).
    Start with a file of segments that opens, make any calls that succeed, and lose everything behind any
    point of the bytes that they wrote. Some number `k` of calls is complete on disk. If fewer than four
    bytes follow them, opening gives exactly their objects, properties and data blocks. Otherwise opening gives
    these, or fails with `UnexpectedEof`, or has the next call as well; and the last one is what happens when
    its header and four bytes of its data are there. -/
theorem crash_recovery_partial (al : Alloc) (hal : Generous al) (fs : List FileSegment) (hfs : ∀ s ∈ fs, s.Fits)
    {t : TdmsFile} (hopen : TdmsFile.new al (fs.flatMap FileSegment.encode) = .ok t) (ops : List Op)
    (hall : AllSucceed al t ops) (hdist : ∀ op ∈ ops, Distinct op) (hfit : ∀ op ∈ ops, OpFits op)
    (hdesc : Described al ⟨t.index.activeObjects.map (·.path), none⟩ ops)
    (hsz : (runOps al t ops).bytes.length < 2 ^ 64) (disk : Bytes) (h1 : t.bytes <+: disk)
    (h2 : disk <+: (runOps al t ops).bytes) :
    ∃ k, k ≤ ops.length ∧
      (∀ j, j ≤ ops.length → ((runOps al t (ops.take j)).bytes <+: disk ↔ j ≤ k)) ∧
      (disk.length < (runOps al t (ops.take k)).bytes.length + 4 →
        TdmsFile.new al disk = .ok ⟨(runOps al t (ops.take k)).index, disk⟩) ∧
      (TdmsFile.new al disk = .ok ⟨(runOps al t (ops.take k)).index, disk⟩ ∨
        TdmsFile.new al disk = R.err (.ioError .unexpectedEof) ∨
        TdmsFile.new al disk = .ok ⟨(runOps al t (ops.take (k + 1))).index, disk⟩) ∧
      (∀ op, ops[k]? = some op →
        (runOps al t (ops.take (k + 1))).bytes.length + 4 ≤ disk.length + dataBytes al op →
        TdmsFile.new al disk = .ok ⟨(runOps al t (ops.take (k + 1))).index, disk⟩) := by
  obtain ⟨k, hk, hiff, hlow, hcases, hex⟩ := recover al hal disk ops fs t ⟨t.index.activeObjects.map (·.path), none⟩
    (Holds.of_opened al hal hfs hopen) (.opened hopen) rfl hall hdist hfit hdesc hsz h1 h2
  refine ⟨k, hk, hiff, hlow, hcases, fun op ho hlen => ?_⟩
  have h4 := takenForMetadata_le ((ops.take k).foldl Last.after ⟨t.index.activeObjects.map (·.path), none⟩) op
  obtain ⟨hgap, hnew⟩ := hex op ho
  rw [hnew, if_neg (by omega), if_neg (by omega)]

/-- **C53, exactly** (for the same histories). `k` calls are complete on disk, and `op` is the one behind them. What
    opening does depends only on how many bytes of `op` there are. Fewer than four: the file has the `k` calls. From
    there up to the end of the header and the metadata (and of the first four bytes of the values if the channel
    list is repeated): opening fails with `UnexpectedEof`. From there on: the file has `op` as well. -/
theorem crash_outcome_exact (al : Alloc) (hal : Generous al) (fs : List FileSegment) (hfs : ∀ s ∈ fs, s.Fits)
    {t : TdmsFile} (hopen : TdmsFile.new al (fs.flatMap FileSegment.encode) = .ok t) (ops : List Op)
    (hall : AllSucceed al t ops) (hdist : ∀ op ∈ ops, Distinct op) (hfit : ∀ op ∈ ops, OpFits op)
    (hdesc : Described al ⟨t.index.activeObjects.map (·.path), none⟩ ops)
    (hsz : (runOps al t ops).bytes.length < 2 ^ 64) (disk : Bytes) (h1 : t.bytes <+: disk)
    (h2 : disk <+: (runOps al t ops).bytes) :
    ∃ k, k ≤ ops.length ∧
      (∀ j, j ≤ ops.length → ((runOps al t (ops.take j)).bytes <+: disk ↔ j ≤ k)) ∧
      (k = ops.length → TdmsFile.new al disk = .ok (runOps al t ops)) ∧
      ∀ op, ops[k]? = some op →
        let last := (ops.take k).foldl Last.after ⟨t.index.activeObjects.map (·.path), none⟩
        let start := (runOps al t (ops.take k)).bytes.length
        let values := (runOps al t (ops.take (k + 1))).bytes.length - dataBytes al op
        let described := values + takenForMetadata last op
        start + 28 ≤ values ∧
        TdmsFile.new al disk =
          if disk.length < start + 4 then .ok ⟨(runOps al t (ops.take k)).index, disk⟩
          else if disk.length < described then R.err (.ioError .unexpectedEof)
          else .ok ⟨(runOps al t (ops.take (k + 1))).index, disk⟩ := by
  obtain ⟨k, hk, hiff, hlow, _, hex⟩ := recover al hal disk ops fs t ⟨t.index.activeObjects.map (·.path), none⟩
    (Holds.of_opened al hal hfs hopen) (.opened hopen) rfl hall hdist hfit hdesc hsz h1 h2
  refine ⟨k, hk, hiff, ?_, ?_⟩
  · rintro rfl
    have hd := (hiff ops.length (Nat.le_refl _)).mpr (Nat.le_refl _)
    rw [List.take_length] at hd hlow
    obtain rfl := List.IsPrefix.eq_of_length_le h2 hd.length_le
    exact hlow (Nat.lt_add_of_pos_right (by decide))
  · intro op ho last start values described
    obtain ⟨hgap, hnew⟩ := hex op ho
    have hv : values = (runOps al t (ops.take (k + 1))).bytes.length - dataBytes al op := rfl
    have hd : described = values + takenForMetadata last op := rfl
    have hst : start = (runOps al t (ops.take k)).bytes.length := rfl
    refine ⟨by omega, ?_⟩
    have e : (disk.length < described) = (disk.length + dataBytes al op <
        (runOps al t (ops.take (k + 1))).bytes.length + takenForMetadata last op) :=
      propext ⟨fun _ => by omega, fun _ => by omega⟩
    rw [hnew]
    simp only [e]
    rfl


/-- **C53, data** (partial, as above). If the first `j` calls are complete on disk, the file that is opened
    after the crash delivers every sample that they wrote: whatever filled a buffer after these calls
    fills it now. -/
theorem crash_keeps_reads_partial (al : Alloc) (hal : Generous al) (fs : List FileSegment) (hfs : ∀ s ∈ fs, s.Fits)
    {t : TdmsFile} (hopen : TdmsFile.new al (fs.flatMap FileSegment.encode) = .ok t) (ops : List Op)
    (hall : AllSucceed al t ops) (hdist : ∀ op ∈ ops, Distinct op) (hfit : ∀ op ∈ ops, OpFits op)
    (hdesc : Described al ⟨t.index.activeObjects.map (·.path), none⟩ ops)
    (hsz : (runOps al t ops).bytes.length < 2 ^ 64) (disk : Bytes) (h1 : t.bytes <+: disk)
    (h2 : disk <+: (runOps al t ops).bytes) {found : TdmsFile} (hfound : TdmsFile.new al disk = .ok found)
    {j : Nat} (hj : j ≤ ops.length) (hdone : (runOps al t (ops.take j)).bytes <+: disk)
    (ty : STy) (c : ChannelPath) {start n : Nat} (hn : 0 < n) {vals : List ty.Val}
    (hread : Delivers (ty.storage al) (runOps al t (ops.take j)) c start n vals) (hfull : vals.length = n) :
    Delivers (ty.storage al) found c start n vals := by
  obtain ⟨k, hk, hiff, _, hcases, _⟩ :=
    crash_recovery_partial al hal fs hfs hopen ops hall hdist hfit hdesc hsz disk h1 h2
  have hjk := (hiff j hj).mp hdone
  have hix : ∃ m, found = ⟨(runOps al t (ops.take j ++ m)).index, disk⟩ := by
    have take_split : ∀ i, j ≤ i → ∃ m, ops.take i = ops.take j ++ m := by
      intro i hi
      refine ⟨(ops.take i).drop j, ?_⟩
      conv => lhs; rw [← List.take_append_drop j (ops.take i)]
      rw [List.take_take, Nat.min_eq_left hi]
    rw [hfound] at hcases
    rcases hcases with h | h | h
    · obtain ⟨m, hm⟩ := take_split k hjk
      rw [hm] at h
      exact ⟨m, Except.ok.inj h⟩
    · cases h
    · obtain ⟨m, hm⟩ := take_split (k + 1) (Nat.le_succ_of_le hjk)
      rw [hm] at h
      exact ⟨m, Except.ok.inj h⟩
  obtain ⟨m, rfl⟩ := hix
  rw [runOps_append]
  generalize runOps al t (ops.take j) = d at *
  obtain ⟨ls, vs, hc, hx⟩ := read_exec (by omega) (hread.2 vals hfull)
  rw [hfull] at hx
  obtain rfl := delivers_unique hread (exec_delivers hn hc hx)
  obtain ⟨⟨_, hblocks⟩, hl⟩ := later al m d
  obtain ⟨more, hm⟩ := hl c ls hc
  obtain ⟨x, hx'⟩ := hdone
  have hg : Grows d ⟨(runOps al d m).index, disk⟩ := ⟨⟨x, hx'.symm⟩, hblocks⟩
  have hm' : (⟨(runOps al d m).index, disk⟩ : TdmsFile).index.getChannelDataPositions c = some (ls ++ more) := hm
  exact exec_delivers hn hm' (execOne_full (STy.mono al ty) hg ls more hn hx (by omega))

/-- **C53, synced data.** The calls go through a buffered writer. If the first `j` calls
    were written and then synced, they are complete on disk at every later moment. -/
theorem synced_calls_on_disk (al : Alloc) (t : TdmsFile) (ops : List Op) (j : Nat) (before after : List BufEvent)
    (hj : t.bytes ++ eventBytes before = (runOps al t (ops.take j)).bytes) :
    (runOps al t (ops.take j)).bytes <+: ((BufW.new t.bytes).run (before ++ .sync :: after)).disk := by
  have happ : ∀ (evs evs' : List BufEvent) (b : BufW), b.run (evs ++ evs') = (b.run evs).run evs' := by
    intro evs
    induction evs with
    | nil => intros; rfl
    | cons ev evs ih => intro evs' b; exact ih evs' _
  have h := (sync_and_crash al t (ops.take j) before hj).1
  have heq : (BufW.new t.bytes).run (before ++ .sync :: after)
      = ((BufW.new t.bytes).run (before ++ [.sync])).run after := by
    rw [← happ, List.append_assoc]
    rfl
  rw [heq, ← h]
  exact (bufw_run after _).2

/-- **C53, synced data, on a stream that can fail.** Calls of which no write fails, a `sync` that
    returns `Ok`, and then any calls, which may fail: at this and every later moment the file has all the bytes of
    the calls before the `sync`, also when the writer has been dropped. -/
theorem sync_is_durable (al : Alloc) {split : Bytes → List Bytes} (hs : ∀ b, (split b).flatten = b) (t : TdmsFile)
    (capacity : Nat) (script : List WriteOutcome) (calls : List Call)
    (hno : NoWriteFails al split (t.writer capacity script) calls)
    (hsync : (run al split (after al split (t.writer capacity script) calls) .sync).1 = .ok ()) (later : List Call) :
    let w := after al split (t.writer capacity script) (calls ++ .sync :: later)
    (runOps al t (writes calls)).bytes <+: w.out.stream.disk ∧ (runOps al t (writes calls)).bytes <+: w.drop.bytes := by
  intro w
  have h := ((fault_free_writes al hs t capacity script calls hno).2.2.2.2 hsync).1
  have hw : w = after al split (run al split (after al split (t.writer capacity script) calls) .sync).2 later := by
    show after al split _ (calls ++ .sync :: later) = _
    unfold after
    rw [List.foldl_append]
    rfl
  rw [← h, hw]
  exact ⟨faults_append_only_disk al split later _, faults_append_only al split later _⟩

/-- A stream that fails in the middle of the second call, after a `sync`: what was synced is there. -/
theorem sync_is_durable_example :
    let script := [.accept 16, .accept 16, .accept 16, .accept 16, .accept 8, .accept 16, .accept 12,
      .fail (.other 28), .fail (.other 28)]
    NoWriteFails anyAlloc byByte (faultyWriter script) [.op (writeU16 ["a"] [1, 2])] ∧
    (run anyAlloc byByte (faultySession script [.op (writeU16 ["a"] [1, 2])]) .sync).1 = .ok () ∧
    (run anyAlloc byByte (faultySession script [.op (writeU16 ["a"] [1, 2]), .sync]) (.op (writeU16 ["b"] [3]))).1
      = R.err (.ioError (.other 28)) ∧
    (session [writeU16 ["a"] [1, 2]]).bytes.length = 72 ∧
    (faultySession script [.op (writeU16 ["a"] [1, 2]), .sync, .op (writeU16 ["b"] [3])]).drop.bytes.take 72
      = (session [writeU16 ["a"] [1, 2]]).bytes := by
  refine ⟨?_, ?_, ?_, ?_, ?_⟩
  · rw [noWriteFails_cons]
    have key : ∀ r : R Unit, r = .ok () → ¬ IsIoError r := by
      rintro r rfl ⟨_, h⟩; cases h
    refine ⟨fun _ _ => key _ ?_, ?_⟩
    · decide +kernel
    · intro pre op post h; cases pre <;> cases h
  all_goals decide +kernel

/-- The hypotheses hold for the history `reopenOps`, cut inside the fourth of its five calls: after three bytes
    of it, after sixteen (inside the header), and when the last two samples are lost. What the first
    call wrote is delivered after the last of these cuts. -/
theorem crash_example :
    let cut := fun n => (session reopenOps).bytes.take n
    (session (reopenOps.take 3)).bytes.length = 244 ∧ (session (reopenOps.take 4)).bytes.length = 278 ∧
    TdmsFile.new anyAlloc (cut 247) = .ok ⟨(session (reopenOps.take 3)).index, cut 247⟩ ∧
    TdmsFile.new anyAlloc (cut 260) = R.err (.ioError .unexpectedEof) ∧
    TdmsFile.new anyAlloc (cut 276) = .ok ⟨(session (reopenOps.take 4)).index, cut 276⟩ ∧
    Delivers (STy.u16.storage anyAlloc) ⟨(session (reopenOps.take 4)).index, cut 276⟩ (chan "b") 0 2 (vals16 [3, 4]) := by
  intro cut
  obtain ⟨h1, h2, h3, h4, _, _⟩ := reopenOps_reopens
  have hopen : TdmsFile.new anyAlloc (([] : List FileSegment).flatMap FileSegment.encode) = .ok ⟨Index.new, []⟩ := rfl
  have hnone : ∀ s ∈ ([] : List FileSegment), s.Fits := fun _ h => by cases h
  have hsz : (session reopenOps).bytes.length < 2 ^ 64 := by decide +kernel
  have hcut : ∀ n, ([] : Bytes) <+: cut n ∧ cut n <+: (session reopenOps).bytes :=
    fun n => ⟨List.nil_prefix, List.take_prefix _ _⟩
  have hnew : TdmsFile.new anyAlloc (cut 276) = .ok ⟨(session (reopenOps.take 4)).index, cut 276⟩ := by
    obtain ⟨k, hk, hiff, _, _, hc⟩ := crash_recovery_partial anyAlloc (fun _ => rfl) [] hnone hopen reopenOps h1 h2 h3 h4
      hsz (cut 276) (hcut 276).1 (hcut 276).2
    have hk3 : k = 3 := by
      have a := (hiff 3 (by decide)).mp (show (session (reopenOps.take 3)).bytes <+: cut 276 by decide +kernel)
      have b := mt (hiff 4 (by decide)).mpr
        (fun hh => absurd hh (show ¬ (session (reopenOps.take 4)).bytes <+: cut 276 by decide +kernel))
      omega
    subst hk3
    exact hc _ rfl (show (session (reopenOps.take 4)).bytes.length + 4 ≤ (cut 276).length + _ by decide +kernel)
  refine ⟨by decide +kernel, by decide +kernel, by decide +kernel, by decide +kernel, hnew, ?_⟩
  have hdone : (runOps anyAlloc ⟨Index.new, []⟩ (reopenOps.take 1)).bytes <+: cut 276 :=
    (show (session (reopenOps.take 1)).bytes <+: cut 276 by decide +kernel)
  exact crash_keeps_reads_partial anyAlloc (fun _ => rfl) [] hnone hopen reopenOps h1 h2 h3 h4 hsz (cut 276)
    (hcut 276).1 (hcut 276).2 hnew (j := 1) (by decide) hdone .u16 (chan "b") (by decide)
    (delivers_of_two_reads (a := BitVec.ofNat 16 8) (b := BitVec.ofNat 16 9)
      (show BitVec.ofNat 16 8 ≠ BitVec.ofNat 16 9 by decide) (by decide) (by decide +kernel) (by decide +kernel))
    (by decide)

/-- The limits of `crash_outcome_exact` in the same history, for the fourth call: its values begin at byte 272, four of
    their bytes are read as metadata, and the outcome changes at 248 and at 276 and nowhere else. -/
theorem crash_outcome_example :
    let cut := fun n => (session reopenOps).bytes.take n
    let last := (reopenOps.take 3).foldl Last.after ⟨[], none⟩
    (reopenOps[3]?).map (fun op => ((session (reopenOps.take 4)).bytes.length - dataBytes anyAlloc op,
      takenForMetadata last op)) = some (272, 4) ∧
    ∀ n, 244 ≤ n → n < 278 → TdmsFile.new anyAlloc (cut n) =
      if n < 248 then .ok ⟨(session (reopenOps.take 3)).index, cut n⟩
      else if n < 276 then R.err (.ioError .unexpectedEof)
      else .ok ⟨(session (reopenOps.take 4)).index, cut n⟩ := by
  intro cut last
  have hplace : (reopenOps[3]?).map (fun op => ((session (reopenOps.take 4)).bytes.length - dataBytes anyAlloc op,
      takenForMetadata last op)) = some (272, 4) := by decide +kernel
  refine ⟨hplace, fun n hn hn' => ?_⟩
  obtain ⟨h1, h2, h3, h4, _, _⟩ := reopenOps_reopens
  have hopen : TdmsFile.new anyAlloc (([] : List FileSegment).flatMap FileSegment.encode) = .ok ⟨Index.new, []⟩ := rfl
  have hnone : ∀ s ∈ ([] : List FileSegment), s.Fits := fun _ h => by cases h
  have hsz : (session reopenOps).bytes.length < 2 ^ 64 := by decide +kernel
  obtain ⟨k, hk, hiff, _, hc⟩ := crash_outcome_exact anyAlloc (fun _ => rfl) [] hnone hopen reopenOps h1 h2 h3 h4
    hsz (cut n) List.nil_prefix (List.take_prefix _ _)
  have hl3 : (session (reopenOps.take 3)).bytes.length = 244 := by decide +kernel
  have hl4 : (session (reopenOps.take 4)).bytes.length = 278 := by decide +kernel
  have hl : 278 ≤ (session reopenOps).bytes.length := by decide +kernel
  have hcl : (cut n).length = n := by
    show ((session reopenOps).bytes.take n).length = n
    rw [List.length_take]
    omega
  have h3p : (session (reopenOps.take 3)).bytes <+: cut n := by
    have h := List.take_prefix_take_left (l := (session reopenOps).bytes) hn
    have e : (session reopenOps).bytes.take 244 = (session (reopenOps.take 3)).bytes := by decide +kernel
    rw [e] at h
    exact h
  have hk3 : k = 3 := by
    have a := (hiff 3 (by decide)).mp h3p
    have b := mt (hiff 4 (by decide)).mpr (fun hh => by
      have hle : (session (reopenOps.take 4)).bytes.length ≤ (cut n).length := hh.length_le
      omega)
    omega
  subst hk3
  obtain ⟨op, ho⟩ : ∃ op, reopenOps[3]? = some op := ⟨_, rfl⟩
  rw [ho] at hplace
  have hp := Option.some.inj hplace
  have e2 : (session (reopenOps.take 4)).bytes.length - dataBytes anyAlloc op = 272 := congrArg Prod.fst hp
  have e3 : takenForMetadata last op = 4 := congrArg Prod.snd hp
  have h := (hc op ho).2
  rw [hcl] at h
  have key : ∀ (a b : Nat) (x y z : R TdmsFile), a = 248 → b = 276 →
      (if n < a then x else if n < b then y else z) = if n < 248 then x else if n < 276 then y else z := by
    rintro _ _ x y z rfl rfl
    rfl
  have e1 : (session (reopenOps.take 3)).bytes.length + 4 = 248 := by rw [hl3]
  have e4 : (session (reopenOps.take 4)).bytes.length - dataBytes anyAlloc op + takenForMetadata last op = 276 := by
    rw [e2, e3]
  exact h.trans (key _ _ _ _ _ e1 e4)

/-- The full statement, that after a crash the file opens and has what was synced, is false: if the crash
    leaves a part of the header of a call in the file, the file cannot be opened at all, and all the
    data of the earlier calls, complete on disk, is out of reach. -/
theorem crash_counterexample :
    let ops := [writeU16 ["a"] [1, 2], writeU16 ["b"] [3]]
    let t := session (ops.take 1)
    let disk := ((BufW.new []).run [.write t.bytes, .sync, .write ((session ops).bytes.drop t.bytes.length), .spill 20]).disk
    t.bytes <+: disk ∧ disk <+: (session ops).bytes ∧ allOk ops = true ∧
    t.u16s "a" 2 = .ok (vals16 [1, 2]) ∧
    TdmsFile.new anyAlloc t.bytes = .ok t ∧
    TdmsFile.new anyAlloc disk = R.err (.ioError .unexpectedEof) := by
  refine ⟨?_, ?_, ?_, ?_, ?_, ?_⟩ <;> decide +kernel

end Tedium
