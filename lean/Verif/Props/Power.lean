import Verif.Props.Crash
import Verif.Spec.Power

/-! # What a power failure leaves (C78) -/

namespace Tedium
open SegSpec WriteSpec ReadSpec Faults

theorem medium_writer (al : Alloc) (split : Bytes → List Bytes) (steps : List PowerStep) : ∀ m : Medium,
    (Power.after al split m steps).writer = after al split m.writer (Power.calls steps) := by
  induction steps with
  | nil => intro m; rfl
  | cons s steps ih =>
    intro m
    refine (ih _).trans ?_
    cases s with
    | writeBack n => rfl
    | call c =>
      cases c with
      | op op => rfl
      | sync =>
        show after al split (m.sync).2.writer _ = after al split (m.writer.sync).2 _
        unfold Medium.sync
        rcases m.writer.sync with ⟨r | ⟨⟩, w⟩
        · rfl
        · dsimp only
          rcases m.flushes with _ | ⟨_ | _ | _, _⟩ <;> rfl

/-- What each step does to the bytes that are kept. -/
theorem medium_step (al : Alloc) (split : Bytes → List Bytes) (m : Medium) (s : PowerStep)
    (h : m.kept ≤ m.writer.out.stream.disk.length) :
    m.kept ≤ (Power.step al split m s).kept ∧
    (Power.step al split m s).kept ≤ (Power.step al split m s).writer.out.stream.disk.length := by
  have hgrow := medium_writer al split [s] m
  have hpre : m.writer.out.stream.disk.length ≤ (Power.step al split m s).writer.out.stream.disk.length := by
    have hg : (Power.step al split m s).writer = after al split m.writer (Power.calls [s]) := hgrow
    rw [hg]
    exact (faults_append_only_disk al split _ _).length_le
  cases s with
  | writeBack n =>
    show m.kept ≤ min (m.kept + n) m.writer.out.stream.disk.length ∧ min _ _ ≤ _
    exact ⟨by omega, by show min (m.kept + n) m.writer.out.stream.disk.length ≤ m.writer.out.stream.disk.length; omega⟩
  | call c =>
    cases c with
    | op op => exact ⟨Nat.le_refl _, Nat.le_trans h hpre⟩
    | sync =>
      revert hpre
      show m.writer.out.stream.disk.length ≤ m.sync.2.writer.out.stream.disk.length →
        m.kept ≤ m.sync.2.kept ∧ m.sync.2.kept ≤ m.sync.2.writer.out.stream.disk.length
      unfold Medium.sync
      rcases m.writer.sync with ⟨r | ⟨⟩, w⟩
      · exact fun hp => ⟨Nat.le_refl _, Nat.le_trans h hp⟩
      · dsimp only
        rcases m.flushes with _ | ⟨_ | _ | _, _⟩ <;> dsimp only <;> intro hp
        · exact ⟨Nat.le_refl _, Nat.le_trans h hp⟩
        · exact ⟨Nat.le_refl _, Nat.le_trans h hp⟩
        · exact ⟨Nat.le_trans h hp, Nat.le_refl _⟩
        · exact ⟨Nat.le_refl _, Nat.le_trans h hp⟩

theorem medium_after (al : Alloc) (split : Bytes → List Bytes) (steps : List PowerStep) : ∀ m : Medium,
    m.kept ≤ m.writer.out.stream.disk.length →
    m.kept ≤ (Power.after al split m steps).kept ∧
    (Power.after al split m steps).kept ≤ (Power.after al split m steps).writer.out.stream.disk.length := by
  induction steps with
  | nil => intro m h; exact ⟨Nat.le_refl _, h⟩
  | cons s steps ih =>
    intro m h
    obtain ⟨h1, h2⟩ := medium_step al split m s h
    obtain ⟨h3, h4⟩ := ih _ h2
    exact ⟨Nat.le_trans h1 h3, h4⟩

theorem power_after_append (al : Alloc) (split : Bytes → List Bytes) (m : Medium) (a b : List PowerStep) :
    Power.after al split m (a ++ b) = Power.after al split (Power.after al split m a) b := by
  unfold Power.after
  rw [List.foldl_append]

theorem power_calls_append (a b : List PowerStep) : Power.calls (a ++ b) = Power.calls a ++ Power.calls b := by
  induction a with
  | nil => rfl
  | cons s a ih =>
    cases s with
    | call c => exact congrArg (c :: ·) ih
    | writeBack n => exact ih

/-- What is left only grows. -/
theorem left_grows (al : Alloc) (split : Bytes → List Bytes) (steps : List PowerStep) (m : Medium)
    (h : m.kept ≤ m.writer.out.stream.disk.length) : m.left <+: (Power.after al split m steps).left := by
  obtain ⟨h1, h2⟩ := medium_after al split steps m h
  have hd : m.writer.out.stream.disk <+: (Power.after al split m steps).writer.out.stream.disk :=
    (medium_writer al split steps m) ▸ faults_append_only_disk al split _ _
  have ha : m.left <+: (Power.after al split m steps).writer.out.stream.disk := (List.take_prefix _ _).trans hd
  refine prefix_of_le ha (List.take_prefix _ _) ?_
  unfold Medium.left
  rw [List.length_take, List.length_take]
  omega

/-! ## C78 -/

/-- **C78, what is left.** Calls of which no write fails (a `sync` may), in any order with the system's own writing
    back: a power failure leaves the bytes from before the session and a prefix of what the calls wrote. What it leaves
    never shrinks. -/
theorem power_failure_prefix (al : Alloc) {split : Bytes → List Bytes} (hs : ∀ b, (split b).flatten = b) (t : TdmsFile)
    (capacity : Nat) (script : List WriteOutcome) (flushes : List FlushOutcome) (steps : List PowerStep)
    (hno : NoWriteFails al split (t.writer capacity script) (Power.calls steps)) :
    let m := Power.after al split (t.medium capacity script flushes) steps
    t.bytes <+: m.left ∧ m.left <+: (runOps al t (writes (Power.calls steps))).bytes ∧
    ∀ later, m.left <+: (Power.after al split m later).left := by
  intro m
  have h0 : (t.medium capacity script flushes).kept
      ≤ (t.medium capacity script flushes).writer.out.stream.disk.length := Nat.le_refl _
  have hleft : (t.medium capacity script flushes).left = t.bytes := List.take_length
  refine ⟨hleft ▸ left_grows al split steps _ h0, ?_, fun later => left_grows al split later _ (medium_after al split steps _ h0).2⟩
  have hw : m.writer = after al split (t.writer capacity script) (Power.calls steps) := medium_writer al split steps _
  have := ((fault_free_writes al hs t capacity script (Power.calls steps) hno).2.2.1).2
  rw [← hw] at this
  exact (List.take_prefix _ _).trans this

/-- What `sync` returns: the error of `write` if the stream does not take the bytes, otherwise what the stream's own `flush`
    returns. The writer is the same in all cases. -/
theorem sync_result (m : Medium) :
    m.sync.2.writer = m.writer.sync.2 ∧
    (m.sync.1 = .ok () ↔ m.writer.sync.1 = .ok () ∧ ∀ kind, m.flushes.head? ≠ some (.fail kind)) ∧
    (∀ kind, m.writer.sync.1 = .ok () → m.flushes.head? = some (.fail kind) → m.sync.1 = R.err (.ioError kind)) ∧
    (m.writer.sync.1 ≠ .ok () → m.sync.1 = m.writer.sync.1) := by
  unfold Medium.sync
  rcases m.writer.sync with ⟨r | ⟨⟩, w⟩
  · exact ⟨rfl, ⟨fun h => (by cases h), fun h => (by cases h.1)⟩, fun _ h => (by cases h), fun _ => rfl⟩
  · dsimp only
    rcases m.flushes with _ | ⟨_ | _ | k, _⟩
    · exact ⟨rfl, ⟨fun _ => ⟨rfl, fun _ h => (by cases h)⟩, fun _ => rfl⟩, fun _ _ h => (by cases h), fun h => absurd rfl h⟩
    · exact ⟨rfl, ⟨fun _ => ⟨rfl, fun _ h => (by cases h)⟩, fun _ => rfl⟩, fun _ _ h => (by cases h), fun h => absurd rfl h⟩
    · exact ⟨rfl, ⟨fun _ => ⟨rfl, fun _ h => (by cases h)⟩, fun _ => rfl⟩, fun _ _ h => (by cases h), fun h => absurd rfl h⟩
    · exact ⟨rfl, ⟨fun h => (by cases h), fun h => absurd rfl (h.2 k)⟩, fun _ _ h => (by cases h; rfl), fun h => absurd rfl h⟩

/-- **C78, exactly.** Calls of which no write fails, the system's own writing back, and then a `sync` that returns `Ok`.
    All bytes of the calls before the `sync` survive every power failure from now on, whatever is called later and
    however it fails, exactly when the stream's own `flush` put them on the medium, or the system had already done
    so by itself. -/
theorem sync_survives_iff (al : Alloc) {split : Bytes → List Bytes} (hs : ∀ b, (split b).flatten = b) (t : TdmsFile)
    (capacity : Nat) (script : List WriteOutcome) (flushes : List FlushOutcome) (steps : List PowerStep)
    (hno : NoWriteFails al split (t.writer capacity script) (Power.calls steps))
    (hsync : ((Power.after al split (t.medium capacity script flushes) steps).call al split .sync).1 = .ok ()) :
    (∀ later, (runOps al t (writes (Power.calls steps))).bytes <+:
      (Power.after al split (t.medium capacity script flushes) (steps ++ .call .sync :: later)).left) ↔
    (Power.after al split (t.medium capacity script flushes) steps).flushes.head? = some .persists ∨
    (Power.after al split (t.medium capacity script flushes) steps).left
      = (runOps al t (writes (Power.calls steps))).bytes := by
  have h0 : (t.medium capacity script flushes).kept
      ≤ (t.medium capacity script flushes).writer.out.stream.disk.length := Nat.le_refl _
  have hk := (medium_after al split steps _ h0).2
  have hpre := (power_failure_prefix al hs t capacity script flushes steps hno).2.1
  have hw : (Power.after al split (t.medium capacity script flushes) steps).writer
      = after al split (t.writer capacity script) (Power.calls steps) := medium_writer al split steps _
  have hff := (fault_free_writes al hs t capacity script (Power.calls steps) hno).2.2.2.2
  have hlater : ∀ later, Power.after al split (t.medium capacity script flushes) (steps ++ .call .sync :: later)
      = Power.after al split ((Power.after al split (t.medium capacity script flushes) steps).sync).2 later :=
    fun later => power_after_append al split _ steps _
  rw [← hw] at hff
  revert hsync hk hpre hff hlater
  generalize Power.after al split (t.medium capacity script flushes) steps = m
  generalize (runOps al t (writes (Power.calls steps))).bytes = all
  intro hsync hk hpre hff hlater
  simp only [hlater]
  have hok : m.sync.1 = .ok () := hsync
  obtain ⟨sw, si, _, _⟩ := sync_result m
  have hwok := (si.1 hok).1
  have hdisk : m.sync.2.writer.out.stream.disk = all := sw ▸ (hff hwok).1
  have hk' : m.sync.2.kept ≤ m.sync.2.writer.out.stream.disk.length := (medium_step al split m (.call .sync) hk).2
  have hm : m.writer.out.stream.disk <+: all := by
    have := faults_append_only_disk al split [.sync] m.writer
    rw [← (hff hwok).1]
    exact this
  -- what is kept right after the `sync`
  have hkept : m.sync.2.left = all ↔ (m.flushes.head? = some .persists ∨ m.left = all) := by
    have key : m.sync.2.kept = if m.flushes.head? = some .persists then m.sync.2.writer.out.stream.disk.length
        else m.kept := by
      revert hok
      unfold Medium.sync
      rcases m.writer.sync with ⟨r | ⟨⟩, w⟩
      · exact fun h => by cases h
      · dsimp only
        rcases m.flushes with _ | ⟨_ | _ | k, _⟩
        · exact fun _ => rfl
        · exact fun _ => rfl
        · exact fun _ => rfl
        · exact fun h => by cases h
    unfold Medium.left
    rw [key, hdisk]
    by_cases hp : m.flushes.head? = some .persists
    · rw [if_pos hp, List.take_length]
      exact ⟨fun _ => .inl hp, fun _ => rfl⟩
    · rw [if_neg hp]
      have htake : List.take m.kept all = List.take m.kept m.writer.out.stream.disk := by
        obtain ⟨x, hx⟩ := hm
        rw [← hx, List.take_append_of_le_length hk]
      rw [htake]
      exact ⟨.inr, fun h => h.resolve_left hp⟩
  rw [← hkept]
  constructor
  · intro h
    have h1 : all <+: m.sync.2.left := h []
    have h2 : m.sync.2.left <+: all := hdisk ▸ List.take_prefix _ _
    exact h2.eq_of_length (Nat.le_antisymm h2.length_le h1.length_le)
  · intro h later
    exact h ▸ left_grows al split later _ hk'

/-- **C78** (partial: for a stream whose `flush` puts what it has accepted on the medium, which is not so for a file).
    After a `sync` that returns `Ok` everything that was written before survives every power failure. -/
theorem sync_survives_power_failure_partial (al : Alloc) {split : Bytes → List Bytes} (hs : ∀ b, (split b).flatten = b)
    (t : TdmsFile) (capacity : Nat) (script : List WriteOutcome) (flushes : List FlushOutcome) (steps : List PowerStep)
    (hno : NoWriteFails al split (t.writer capacity script) (Power.calls steps))
    (hsync : ((Power.after al split (t.medium capacity script flushes) steps).call al split .sync).1 = .ok ())
    (hflush : (Power.after al split (t.medium capacity script flushes) steps).flushes.head? = some .persists)
    (later : List PowerStep) :
    (runOps al t (writes (Power.calls steps))).bytes <+:
      (Power.after al split (t.medium capacity script flushes) (steps ++ .call .sync :: later)).left :=
  (sync_survives_iff al hs t capacity script flushes steps hno hsync).2 (.inl hflush) later

/-- **C78, files.** On a stream whose `flush` does nothing (`load` and `create` make such a stream) no number of calls,
    `sync` among them, puts a single byte on the medium: if the system writes nothing back by itself then a power
    failure leaves the file as it was before the session. -/
theorem file_session_lost (al : Alloc) (split : Bytes → List Bytes) (t : TdmsFile) (capacity : Nat)
    (script : List WriteOutcome) (flushes : List FlushOutcome) (hfile : ∀ o ∈ flushes, o = .nothing) (cs : List Call) :
    let m := Power.after al split (t.medium capacity script flushes) (cs.map .call)
    m.left = t.bytes ∧ m.drop.1.take m.drop.2 = t.bytes := by
  have hkept : ∀ (cs : List Call) (m : Medium), (∀ o ∈ m.flushes, o = .nothing) →
      (Power.after al split m (cs.map .call)).kept = m.kept := by
    intro cs
    induction cs with
    | nil => intros; rfl
    | cons c cs ih =>
      intro m hm
      have hstep : (Power.step al split m (.call c)).kept = m.kept ∧
          ∀ o ∈ (Power.step al split m (.call c)).flushes, o = .nothing := by
        cases c with
        | op op => exact ⟨rfl, hm⟩
        | sync =>
          show m.sync.2.kept = m.kept ∧ ∀ o ∈ m.sync.2.flushes, o = .nothing
          unfold Medium.sync
          rcases m.writer.sync with ⟨r | ⟨⟩, w⟩
          · exact ⟨rfl, hm⟩
          · dsimp only
            rcases hf : m.flushes with _ | ⟨_ | _ | _, fs⟩
            · exact ⟨rfl, fun o ho => hm o (hf ▸ ho)⟩
            · exact ⟨rfl, fun o ho => hm o (hf ▸ List.mem_cons_of_mem _ ho)⟩
            · have := hm .persists (hf ▸ List.mem_cons_self ..)
              cases this
            · exact ⟨rfl, fun o ho => hm o (hf ▸ List.mem_cons_of_mem _ ho)⟩
      exact (ih _ hstep.2).trans hstep.1
  intro m
  have hk : m.kept = t.bytes.length := hkept cs _ hfile
  have hw : m.writer = after al split (t.writer capacity script) (Power.calls (cs.map .call)) := medium_writer al split _ _
  have h1 : t.bytes <+: m.writer.out.stream.disk := hw ▸ faults_append_only_disk al split _ (t.writer capacity script)
  have h2 : t.bytes <+: m.writer.drop.bytes := hw ▸ faults_append_only al split _ (t.writer capacity script)
  constructor
  · show m.writer.out.stream.disk.take m.kept = t.bytes
    rw [hk]
    exact (List.prefix_iff_eq_take.1 h1).symm
  · show m.writer.drop.bytes.take m.kept = t.bytes
    rw [hk]
    exact (List.prefix_iff_eq_take.1 h2).symm

/-- Dropping the writer puts nothing on the medium, also if the stream's `flush` would. -/
theorem drop_keeps (m : Medium) (h : m.kept ≤ m.writer.out.stream.disk.length) : m.drop.1.take m.drop.2 = m.left := by
  show m.writer.drop.bytes.take m.kept = m.writer.out.stream.disk.take m.kept
  obtain ⟨x, hx⟩ := (drop_outcome m.writer).2.1
  rw [← hx, List.take_append_of_le_length h]

/-- **C78, opening afterwards** (with the limits of C53). A file of segments is opened; calls are made that succeed, one of
    them a `sync` with which the stream puts everything on the medium; then the power fails, at any moment. Of the
    `k` writes that the medium has, all those before the `sync` are part; and opening gives these writes, or has the next
    one as well, or fails with `UnexpectedEof` because the next one is cut inside its header. -/
theorem power_failure_recovery_partial (al : Alloc) (hal : Generous al) {split : Bytes → List Bytes}
    (hs : ∀ b, (split b).flatten = b) (fs : List FileSegment) (hfs : ∀ s ∈ fs, s.Fits) {t : TdmsFile}
    (hopen : TdmsFile.new al (fs.flatMap FileSegment.encode) = .ok t) (capacity : Nat) (script : List WriteOutcome)
    (flushes : List FlushOutcome) (steps later : List PowerStep)
    (hno : NoWriteFails al split (t.writer capacity script) (Power.calls (steps ++ .call .sync :: later)))
    (hsync : ((Power.after al split (t.medium capacity script flushes) steps).call al split .sync).1 = .ok ())
    (hflush : (Power.after al split (t.medium capacity script flushes) steps).flushes.head? = some .persists)
    (hall : AllSucceed al t (writes (Power.calls (steps ++ .call .sync :: later))))
    (hdist : ∀ op ∈ writes (Power.calls (steps ++ .call .sync :: later)), Distinct op)
    (hfit : ∀ op ∈ writes (Power.calls (steps ++ .call .sync :: later)), OpFits op)
    (hdesc : Described al ⟨t.index.activeObjects.map (·.path), none⟩
      (writes (Power.calls (steps ++ .call .sync :: later))))
    (hsz : (runOps al t (writes (Power.calls (steps ++ .call .sync :: later)))).bytes.length < 2 ^ 64) :
    let ops := writes (Power.calls (steps ++ .call .sync :: later))
    let left := (Power.after al split (t.medium capacity script flushes) (steps ++ .call .sync :: later)).left
    ∃ k, (writes (Power.calls steps)).length ≤ k ∧ k ≤ ops.length ∧
      (runOps al t (ops.take k)).bytes <+: left ∧
      (TdmsFile.new al left = .ok ⟨(runOps al t (ops.take k)).index, left⟩ ∨
        TdmsFile.new al left = R.err (.ioError .unexpectedEof) ∨
        TdmsFile.new al left = .ok ⟨(runOps al t (ops.take (k + 1))).index, left⟩) ∧
      (left.length < (runOps al t (ops.take k)).bytes.length + 4 →
        TdmsFile.new al left = .ok ⟨(runOps al t (ops.take k)).index, left⟩) := by
  intro ops left
  obtain ⟨h1, h2, _⟩ := power_failure_prefix al hs t capacity script flushes _ hno
  have hnos : NoWriteFails al split (t.writer capacity script) (Power.calls steps) := by
    rintro a o b hab
    refine hno a o (b ++ Power.calls (.call .sync :: later)) ?_
    rw [power_calls_append, hab, List.append_assoc]
    rfl
  have hsurv := sync_survives_power_failure_partial al hs t capacity script flushes steps hnos hsync hflush later
  obtain ⟨k, hk, hiff, hlow, hcases, _⟩ := crash_recovery_partial al hal fs hfs hopen ops hall hdist hfit hdesc hsz left h1 h2
  have hops : ops = writes (Power.calls steps) ++ writes (Power.calls later) := by
    show writes (Power.calls (steps ++ .call .sync :: later)) = _
    rw [power_calls_append, writes_append]
    rfl
  have htake : ops.take (writes (Power.calls steps)).length = writes (Power.calls steps) := by
    rw [hops, List.take_left]
  refine ⟨k, (hiff _ ?_).1 ?_, hk, (hiff k hk).2 (Nat.le_refl _), hcases, hlow⟩
  · rw [hops, List.length_append]; omega
  · rw [htake]; exact hsurv

/-- A write and a `sync` that both return `Ok`, on a file: the power fails, and the file is empty. -/
theorem sync_power_counterexample :
    let m := TdmsFile.medium ⟨Index.new, []⟩ 8192 [] []
    let m1 := m.call anyAlloc byByte (.op (writeU16 ["a"] [1, 2]))
    let m2 := m1.2.call anyAlloc byByte .sync
    m1.1 = .ok () ∧ m2.1 = .ok () ∧ m2.2.writer.out.stream.disk.length = 72 ∧ m2.2.left = [] ∧
    m2.2.drop.1.take m2.2.drop.2 = [] := by
  refine ⟨?_, ?_, ?_, ?_, ?_⟩ <;> decide +kernel

/-- A stream that refuses the first `flush` and then flushes properly: the second `sync` succeeds; of the write after it
    the system has written ten bytes back when the power fails. Without the second `sync` only these ten would be
    there, of the first write. -/
theorem sync_survives_example :
    let m := TdmsFile.medium ⟨Index.new, []⟩ 16 [] [.fail (.other 5), .persists]
    let steps : List PowerStep := [.call (.op (writeU16 ["a"] [1, 2])), .call .sync]
    let later : List PowerStep := [.call (.op (writeU16 ["b"] [3])), .writeBack 10]
    ((Power.after anyAlloc byByte m (steps.take 1)).call anyAlloc byByte .sync).1 = R.err (.ioError (.other 5)) ∧
    ((Power.after anyAlloc byByte m steps).call anyAlloc byByte .sync).1 = .ok () ∧
    (Power.after anyAlloc byByte m steps).flushes.head? = some .persists ∧
    (Power.after anyAlloc byByte m (steps ++ .call .sync :: later)).left.length = 82 ∧
    (Power.after anyAlloc byByte m (steps ++ later)).left.length = 10 := by
  refine ⟨?_, ?_, ?_, ?_, ?_⟩ <;> decide +kernel

/-- The calls of the last example meet the hypothesis that no write fails. -/
theorem sync_survives_example_hypothesis :
    NoWriteFails anyAlloc byByte (TdmsFile.writer ⟨Index.new, []⟩ 16 [])
      [.op (writeU16 ["a"] [1, 2]), .sync, .sync, .op (writeU16 ["b"] [3])] := by
  have key : ∀ r : R Unit, r = .ok () → ¬ IsIoError r := by
    rintro r rfl ⟨_, h⟩; cases h
  rw [noWriteFails_cons]
  refine ⟨fun _ _ => key _ (by decide +kernel), ?_⟩
  rw [noWriteFails_cons]
  refine ⟨fun _ h => (by cases h), ?_⟩
  rw [noWriteFails_cons]
  refine ⟨fun _ h => (by cases h), ?_⟩
  rw [noWriteFails_cons]
  refine ⟨fun _ h => key _ (by cases h; decide +kernel), ?_⟩
  intro pre op post h
  cases pre <;> cases h

/-- The hypotheses of `power_failure_recovery_partial` hold for the history `reopenOps` with a `sync` behind its second call,
    on a stream whose `flush` puts everything on the medium; the power fails when some of the bytes after that have been
    written back. Opening then gives these calls and no more, if these are two bytes. -/
theorem power_failure_recovery_example :
    let before := (reopenOps.take 2).map (fun op => PowerStep.call (.op op))
    let later := (reopenOps.drop 2).map (fun op => PowerStep.call (.op op)) ++ [PowerStep.writeBack 2]
    let steps := before ++ .call .sync :: later
    let left := (Power.after anyAlloc byByte (TdmsFile.medium ⟨Index.new, []⟩ 16 [] [.persists]) steps).left
    writes (Power.calls steps) = reopenOps ∧
    left.length = (session (reopenOps.take 2)).bytes.length + 2 ∧
    TdmsFile.new anyAlloc left = .ok ⟨(session (reopenOps.take 2)).index, left⟩ := by
  intro before later steps left
  have hops : writes (Power.calls steps) = reopenOps := by rfl
  have hlen : left.length = (session (reopenOps.take 2)).bytes.length + 2 := by decide +kernel
  refine ⟨hops, hlen, ?_⟩
  obtain ⟨h1, h2, h3, h4, _, _⟩ := reopenOps_reopens
  have hsz : (session reopenOps).bytes.length < 2 ^ 64 := by decide +kernel
  have hno := (sound_stream anyAlloc byByte_flatten (Session.opened (al := anyAlloc) (t := ⟨Index.new, []⟩) (f := []) rfl)
    16 [] (fun _ h => by cases h) (Power.calls steps)).1
  obtain ⟨k, hk, hk', hp, _, hlow⟩ := power_failure_recovery_partial anyAlloc (fun _ => rfl) byByte_flatten []
    (fun _ h => by cases h) (t := ⟨Index.new, []⟩) rfl 16 [] [.persists] before later hno (by decide +kernel) (by decide +kernel)
    h1 h2 h3 h4 hsz
  have hk2 : k = 2 := by
    have ha : 2 ≤ k := hk
    have hb : k ≤ 5 := hk'
    have hc : (session (reopenOps.take k)).bytes.length ≤ left.length := hp.length_le
    have h3' : ¬ (session (reopenOps.take 3)).bytes.length ≤ left.length := by decide +kernel
    have h4' : ¬ (session (reopenOps.take 4)).bytes.length ≤ left.length := by decide +kernel
    have h5' : ¬ (session (reopenOps.take 5)).bytes.length ≤ left.length := by decide +kernel
    rcases (show k = 2 ∨ k = 3 ∨ k = 4 ∨ k = 5 by omega) with rfl | rfl | rfl | rfl
    · rfl
    · exact absurd hc h3'
    · exact absurd hc h4'
    · exact absurd hc h5'
  subst hk2
  exact hlow (show left.length < (session (reopenOps.take 2)).bytes.length + 4 by omega)

end Tedium
