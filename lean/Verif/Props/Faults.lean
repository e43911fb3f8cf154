import Verif.Proofs.Stream
import Verif.Props.Append

/-! # Writing to a stream that can fail (C48, C49) -/

namespace Tedium
open SegSpec WriteSpec Faults

theorem no_ioError {al : Alloc} {t : TdmsFile} (ht : Session al t) (op : Op) : ¬ IsIoError (op.run al t).1 := by
  rintro ⟨kind, hk⟩
  have key : ∀ s : Segment, (t.index.addSegment s).1.map (fun _ => ()) ≠ R.err (.ioError kind) := by
    intro s h
    rcases (ht.reach.inv.addSegment s).2 with ⟨n, hn, _⟩ | ⟨er, he, hse, _⟩
    · rw [hn] at h; cases h
    · rw [he] at h
      injection h with h
      subst h
      cases hse with | raw _ hr => cases hr
  cases op with
  | props e path properties => exact key (propertySegment e path properties).1 hk
  | write e ty chs vals layout =>
    change (t.writeChannels (ty.storage al) e chs vals layout).1 = _ at hk
    unfold TdmsFile.writeChannels at hk
    split at hk
    · cases hk
    · split at hk
      · cases hk
      · exact key _ hk

theorem noWriteFails_cons {al : Alloc} {split : Bytes → List Bytes} {w : FileWriter} {c : Call} {calls : List Call} :
    NoWriteFails al split w (c :: calls) ↔
    (∀ op, c = .op op → ¬ IsIoError (run al split w c).1) ∧ NoWriteFails al split (run al split w c).2 calls := by
  constructor
  · intro h
    refine ⟨?_, ?_⟩
    · rintro op rfl; exact h [] op calls rfl
    · rintro pre op post rfl; exact h (c :: pre) op post rfl
  · rintro ⟨h1, h2⟩ pre op post heq
    cases pre with
    | nil => cases heq; exact h1 op rfl
    | cons x pre => cases heq; exact h2 pre op post rfl

/-- After calls of which no write failed, the writer agrees with a writer over a perfect stream. -/
theorem agrees_after (al : Alloc) {split : Bytes → List Bytes} (hs : ∀ b, (split b).flatten = b)
    (calls : List Call) : ∀ {t : TdmsFile} {w : FileWriter}, Agrees t w → NoWriteFails al split w calls →
    Agrees (runOps al t (writes calls)) (after al split w calls) ∧
    w.out.stream.disk <+: (after al split w calls).out.stream.disk := by
  induction calls with
  | nil => intro t w h _; exact ⟨h, List.prefix_rfl⟩
  | cons c calls ih =>
    intro t w h hno
    rw [noWriteFails_cons] at hno
    cases c with
    | sync =>
      obtain ⟨h1, h2, _⟩ := sync_outcome h
      obtain ⟨h3, h4⟩ := ih h1 hno.2
      exact ⟨h3, h2.trans h4⟩
    | op op =>
      rcases write_outcome al hs h op with ⟨h1, h2, h3⟩ | ⟨kind, part, h1, h2, _⟩
      · obtain ⟨h4, h5⟩ := ih h3 hno.2
        exact ⟨h4, h1.trans h5⟩
      · exact absurd ⟨kind, h2⟩ (hno.1 op rfl)

theorem agrees_writer (t : TdmsFile) (capacity : Nat) (script : List WriteOutcome) :
    Agrees t (t.writer capacity script) := ⟨rfl, List.append_nil _⟩

/-! ## C48 -/

/-- **C48, successful calls.** A writer is taken from a file, and calls are made, of which no write ends
    with an I/O error (a `sync` may fail; the stream may accept the bytes in any portions and be
    interrupted; the buffer may have any capacity). Then each write returned what it would return on a
    perfect stream; the file shows the objects, properties and lengths that it would show; it has its old
    bytes and a prefix of the new ones; and if `sync` now succeeds it has all of them. -/
theorem fault_free_writes (al : Alloc) {split : Bytes → List Bytes} (hs : ∀ b, (split b).flatten = b)
    (t : TdmsFile) (capacity : Nat) (script : List WriteOutcome) (calls : List Call)
    (hno : NoWriteFails al split (t.writer capacity script) calls) :
    let w := after al split (t.writer capacity script) calls
    let perfect := runOps al t (writes calls)
    (∀ pre op post, calls = pre ++ .op op :: post →
      (run al split (after al split (t.writer capacity script) pre) (.op op)).1
        = (op.run al (runOps al t (writes pre))).1) ∧
    w.index = perfect.index ∧
    (t.bytes <+: w.out.stream.disk ∧ w.out.stream.disk <+: perfect.bytes) ∧
    (t.bytes <+: w.drop.bytes ∧ w.drop.bytes <+: perfect.bytes) ∧
    ((run al split w .sync).1 = .ok () →
      (run al split w .sync).2.out.stream.disk = perfect.bytes ∧ (run al split w .sync).2.drop = perfect) := by
  intro w perfect
  obtain ⟨ha, hd⟩ := agrees_after al hs calls (agrees_writer t capacity script) hno
  have hdisk : w.out.stream.disk <+: perfect.bytes := ha.2 ▸ List.prefix_append _ _
  obtain ⟨d1, d2, d3⟩ := drop_outcome w
  refine ⟨?_, ha.1, ⟨hd, hdisk⟩, ⟨hd.trans d2, ha.2 ▸ d3⟩, fun hok => ?_⟩
  · rintro pre op post rfl
    have hpre : NoWriteFails al split (t.writer capacity script) pre := by
      rintro a o b rfl
      exact hno a o (b ++ .op op :: post) (by simp)
    obtain ⟨hp, _⟩ := agrees_after al hs pre (agrees_writer t capacity script) hpre
    rcases write_outcome al hs hp op with ⟨_, h2, _⟩ | ⟨kind, part, _, h2, _⟩
    · exact h2
    · exact absurd ⟨kind, h2⟩ (hno pre op post rfl)
  · obtain ⟨s1, s2, s3, _⟩ := sync_outcome ha
    have hfull := s3 hok
    refine ⟨hfull, ?_⟩
    obtain ⟨e1, e2, e3⟩ := drop_outcome (run al split w .sync).2
    have hidx : (run al split w .sync).2.drop.index = perfect.index := e1.trans s1.1
    have hbytes : (run al split w .sync).2.drop.bytes = perfect.bytes := by
      have h1 : perfect.bytes <+: (run al split w .sync).2.drop.bytes := by
        have := e2
        rw [show (run al split w .sync).2.out.stream.disk = perfect.bytes from hfull] at this
        exact this
      have h2 : (run al split w .sync).2.drop.bytes <+: perfect.bytes := s1.2 ▸ e3
      exact h2.eq_of_length (Nat.le_antisymm h2.length_le h1.length_le)
    revert hidx hbytes
    generalize (run al split w .sync).2.drop = x
    cases x
    intro h1 h2
    dsimp only at h1 h2
    rw [h1, h2]

/-- On a stream without faults (its calls accept something or are interrupted) no call fails with an I/O
    error. -/
theorem sound_stream (al : Alloc) {split : Bytes → List Bytes} (hs : ∀ b, (split b).flatten = b)
    {t : TdmsFile} (ht : Session al t) (capacity : Nat) (script : List WriteOutcome)
    (hscript : ∀ o ∈ script, o = .interrupted ∨ ∃ n, o = .accept (n + 1)) (calls : List Call) :
    NoWriteFails al split (t.writer capacity script) calls ∧
    (run al split (after al split (t.writer capacity script) calls) .sync).1 = .ok () := by
  have key : ∀ (calls : List Call) {t : TdmsFile} {w : FileWriter}, Session al t → Agrees t w →
      Sound w.out.stream.script →
      NoWriteFails al split w calls ∧ (run al split (after al split w calls) .sync).1 = .ok () := by
    intro calls
    induction calls with
    | nil =>
      intro t w _ _ h
      refine ⟨fun pre op post heq => (by cases pre <;> cases heq), ?_⟩
      have := (flush_sound w.out h).1
      show w.sync.1 = _
      unfold FileWriter.sync
      split
      · rename_i heq; rw [heq] at this; cases this
      · rfl
    | cons c calls ih =>
      intro t w ht ha h
      rw [noWriteFails_cons]
      cases c with
      | sync =>
        have hsync : Sound w.sync.2.out.stream.script := by
          have := (flush_sound w.out h).2
          unfold FileWriter.sync
          split <;> (rename_i heq; rw [heq] at this; exact this)
        obtain ⟨h1, h2⟩ := ih ht (sync_outcome ha).1 hsync
        exact ⟨⟨fun _ hh => (by cases hh), h1⟩, h2⟩
      | op op =>
        have hseg : ∀ s, (w.segment split s).1 = (w.index.addSegment s.1).1.map (fun _ => ()) ∧
            Sound (w.segment split s).2.out.stream.script := by
          intro s
          obtain ⟨p1, p2⟩ := writePieces_sound (split s.2) w.out h
          unfold FileWriter.segment
          split
          · rename_i heq; rw [heq] at p1; cases p1
          · rename_i heq; rw [heq] at p2; exact ⟨rfl, p2⟩
        have hop : Sound (run al split w (.op op)).2.out.stream.script := by
          cases op with
          | props e path properties => exact (hseg _).2
          | write e ty chs vals layout =>
            show Sound (w.writeChannels (ty.storage al) split e chs vals layout).2.out.stream.script
            unfold FileWriter.writeChannels
            split
            · exact h
            · split
              · exact h
              · exact (hseg _).2
        rcases write_outcome al hs ha op with ⟨h1, h2, h3⟩ | ⟨kind, part, h1, h2, h3, h4, h5⟩
        · obtain ⟨i1, i2⟩ := ih (.call op ht) h3 hop
          exact ⟨⟨fun _ _ => h2 ▸ no_ioError ht op, i1⟩, i2⟩
        · exfalso
          have hk : ∀ s, (w.segment split s).1 ≠ R.err (.ioError kind) := by
            intro s hh
            rw [(hseg s).1, ha.1] at hh
            rcases (ht.reach.inv.addSegment s.1).2 with ⟨n, hn, _⟩ | ⟨er, he, hse, _⟩
            · rw [hn] at hh; cases hh
            · rw [he] at hh
              injection hh with hh
              subst hh
              cases hse with | raw _ hr => cases hr
          cases op with
          | props e path properties => exact hk _ h2
          | write e ty chs vals layout =>
            change (w.writeChannels (ty.storage al) split e chs vals layout).1 = _ at h2
            unfold FileWriter.writeChannels at h2
            split at h2
            · cases h2
            · split at h2
              · cases h2
              · exact hk _ h2
  exact key calls ht (agrees_writer t capacity script) hscript

/-- **C48, the failing call.** After calls of which no write failed, a write is made. Either it returns
    what it would return on a perfect stream, and has that effect, or it returns an I/O error. In that
    case the objects, properties and lengths that the file shows are those from before the call; when the
    writer is dropped the file has its old bytes and a prefix of what it would have with the call done;
    and if everything written before had reached the file then what was read before is read now. -/
theorem failing_write (al : Alloc) {split : Bytes → List Bytes} (hs : ∀ b, (split b).flatten = b)
    (t : TdmsFile) (capacity : Nat) (script : List WriteOutcome) (calls : List Call)
    (hno : NoWriteFails al split (t.writer capacity script) calls) (op : Op) :
    let w := after al split (t.writer capacity script) calls
    let before := runOps al t (writes calls)
    let r := run al split w (.op op)
    (r.1 = (op.run al before).1 ∧ r.2.index = (op.run al before).2.index) ∨
    (IsIoError r.1 ∧ r.2.drop.index = before.index ∧
      t.bytes <+: r.2.drop.bytes ∧ r.2.drop.bytes <+: (op.run al before).2.bytes ∧
      (w.out.stream.disk = before.bytes → before.bytes <+: r.2.drop.bytes ∧
        ∀ (ty : STy) c start out res, before.readChannelFrom (ty.storage al) c start out = .ok res →
          r.2.drop.readChannelFrom (ty.storage al) c start out = .ok res)) := by
  intro w before r
  obtain ⟨ha, hd⟩ := agrees_after al hs calls (agrees_writer t capacity script) hno
  rcases write_outcome al hs ha op with ⟨_, h2, h3⟩ | ⟨kind, part, h1, h2, h3, h4, h5⟩
  · exact Or.inl ⟨h2, h3.1⟩
  · obtain ⟨d1, d2, d3⟩ := drop_outcome r.2
    have hidx : r.2.drop.index = before.index := d1.trans h3
    refine Or.inr ⟨⟨kind, h2⟩, hidx, (hd.trans h1).trans d2, (d3.trans (h4 ▸ List.prefix_rfl)).trans h5, fun hw => ?_⟩
    have hp : before.bytes <+: r.2.drop.bytes := hw ▸ h1.trans d2
    refine ⟨hp, fun ty c start out res hr => ?_⟩
    obtain ⟨g, hg⟩ := hp
    exact readChannelFrom_mono (STy.mono al ty) (t' := r.2.drop)
      ⟨⟨g, hg.symm⟩, by rw [hidx]; exact ⟨[], (List.append_nil _).symm⟩⟩ (by rw [hidx]) hr

/-! ## C49 -/

/-- **C49** (partial: only when nothing of the failed call stays behind). After an I/O error that left the
    pending bytes as they were, calls go on as if the failed call had not been made. -/
theorem resume_after_error_partial (al : Alloc) {split : Bytes → List Bytes} (hs : ∀ b, (split b).flatten = b)
    {t : TdmsFile} (ht : Session al t) (capacity : Nat) (script : List WriteOutcome) (calls : List Call)
    (hno : NoWriteFails al split (t.writer capacity script) calls) (op : Op) (later : List Call) :
    let w := after al split (t.writer capacity script) calls
    let r := run al split w (.op op)
    IsIoError r.1 →
    r.2.out.stream.disk ++ r.2.out.buf = w.out.stream.disk ++ w.out.buf →
    NoWriteFails al split r.2 later →
    let w' := after al split r.2 later
    let perfect := runOps al t (writes calls ++ writes later)
    w'.index = perfect.index ∧ t.bytes <+: w'.drop.bytes ∧ w'.drop.bytes <+: perfect.bytes ∧
    ((run al split w' .sync).1 = .ok () → (run al split w' .sync).2.out.stream.disk = perfect.bytes) := by
  intro w r hio hsame hlater w' perfect
  obtain ⟨ha, hd⟩ := agrees_after al hs calls (agrees_writer t capacity script) hno
  rcases write_outcome al hs ha op with ⟨_, h2, _⟩ | ⟨kind, part, h1, h2, h3, h4, h5⟩
  · exact absurd (h2 ▸ hio) (no_ioError (Session.runOps ht _) op)
  · have hr : Agrees (runOps al t (writes calls)) r.2 := ⟨h3, hsame.trans ha.2⟩
    obtain ⟨hb, hd'⟩ := agrees_after al hs later hr hlater
    have hperf : perfect = runOps al (runOps al t (writes calls)) (writes later) := List.foldl_append
    rw [← hperf] at hb
    obtain ⟨d1, d2, d3⟩ := drop_outcome w'
    refine ⟨hb.1, ((hd.trans h1).trans hd').trans d2, hb.2 ▸ d3, fun hok => (sync_outcome hb).2.2.1 hok⟩

/-- Every byte is a `write_all` call of its own. -/
def byByte (bs : Bytes) : List Bytes := bs.map (fun b => [b])

theorem byByte_flatten (bs : Bytes) : (byByte bs).flatten = bs := by
  induction bs with
  | nil => rfl
  | cons b bs ih => exact congrArg (b :: ·) ih

/-- A new file on a stream that does `script`, with a buffer of 16 bytes. -/
def faultyWriter (script : List WriteOutcome) : FileWriter := TdmsFile.writer ⟨Index.new, []⟩ 16 script

/-- The calls. -/
def faultySession (script : List WriteOutcome) (calls : List Call) : FileWriter :=
  after anyAlloc byByte (faultyWriter script) calls

/-- A stream that takes 7 bytes, is interrupted, refuses a `sync` with an error, and accepts the rest: all
    writes succeed, the repeated `sync` succeeds, and everything is in the file. -/
theorem fault_free_writes_example :
    let script := [.accept 7, .interrupted, .accept 9, .accept 16, .accept 16, .accept 16, .fail (.other 5)]
    let calls := [.op (writeU16 ["a"] [1, 2]), .sync, .op (writeU16 ["b"] [3])]
    (run anyAlloc byByte (faultySession script (calls.take 1)) .sync).1 = R.err (.ioError (.other 5)) ∧
    (faultySession script calls).out.stream.disk.length = 128 ∧
    (run anyAlloc byByte (faultySession script calls) .sync).1 = .ok () ∧
    (run anyAlloc byByte (faultySession script calls) .sync).2.drop
      = session [writeU16 ["a"] [1, 2], writeU16 ["b"] [3]] := by
  refine ⟨?_, ?_, ?_, ?_⟩ <;> decide +kernel

/-- The calls of the last example meet the hypothesis of `fault_free_writes`. -/
theorem fault_free_writes_example_hypothesis :
    NoWriteFails anyAlloc byByte
      (faultyWriter [.accept 7, .interrupted, .accept 9, .accept 16, .accept 16, .accept 16, .fail (.other 5)])
      [.op (writeU16 ["a"] [1, 2]), .sync, .op (writeU16 ["b"] [3])] := by
  rw [noWriteFails_cons, noWriteFails_cons, noWriteFails_cons]
  have key : ∀ r : R Unit, r = .ok () → ¬ IsIoError r := by
    rintro r rfl ⟨_, h⟩; cases h
  refine ⟨fun _ _ => key _ ?_, fun _ h => (by cases h), fun _ _ => key _ ?_, ?_⟩
  · decide +kernel
  · decide +kernel
  · intro pre op post h; cases pre <;> cases h

/-- The disk is full after 100 bytes: the second write fails, the file shows the first one only, which
    can be read. -/
theorem failing_write_example :
    let script := [.accept 16, .accept 16, .accept 16, .accept 16, .accept 8, .accept 16, .accept 12,
      .fail (.other 28), .fail (.other 28)]
    let w := faultySession script [.op (writeU16 ["a"] [1, 2]), .sync]
    let r := run anyAlloc byByte w (.op (writeU16 ["b"] [3]))
    w.out.stream.disk = (session [writeU16 ["a"] [1, 2]]).bytes ∧
    r.1 = R.err (.ioError (.other 28)) ∧ r.2.drop.bytes.length = 100 ∧
    r.2.drop.channelLength (chan "b") = .ok none ∧ r.2.drop.u16s "a" 2 = .ok (vals16 [1, 2]) := by
  refine ⟨?_, ?_, ?_, ?_, ?_⟩ <;> decide +kernel

/-- The first flush of the second call fails before any byte of it is accepted, and the bytes of the call
    are still few: nothing stays behind. -/
theorem resume_after_error_example :
    let script := [.accept 16, .accept 16, .accept 16, .accept 16, .fail (.other 28)]
    let w := faultySession script [.op (writeU16 ["a"] [1, 2, 3, 4, 5, 6])]
    let r := run anyAlloc byByte w (.op (writeU16 ["b"] [3]))
    w.out.buf.length = 16 ∧ r.1 = R.err (.ioError (.other 28)) ∧
    r.2.out.stream.disk ++ r.2.out.buf = w.out.stream.disk ++ w.out.buf ∧
    (run anyAlloc byByte r.2 (.op (writeU16 ["c"] [7]))).2.drop
      = session [writeU16 ["a"] [1, 2, 3, 4, 5, 6], writeU16 ["c"] [7]] := by
  refine ⟨?_, ?_, ?_, ?_⟩ <;> decide +kernel

/-- C49 is false in full: the second of three writes fails after a part of its bytes, the third write
    succeeds and so does `sync`, but the index does not know of the bytes of the failed call: the values
    of the third write are not read back, and the file cannot be opened again. -/
theorem resume_after_error_counterexample :
    let script := [.accept 16, .accept 16, .accept 16, .accept 16, .accept 16, .fail (.other 28)]
    let w := faultySession script [.op (writeU16 ["a"] [1, 2])]
    let r := run anyAlloc byByte w (.op (writeU16 ["b"] [3]))
    let r' := run anyAlloc byByte r.2 (.op (writeU16 ["c"] [7]))
    let s := run anyAlloc byByte r'.2 .sync
    r.1 = R.err (.ioError (.other 28)) ∧ r'.1 = .ok () ∧ s.1 = .ok () ∧
    s.2.drop.channelLength (chan "c") = .ok (some 1) ∧ s.2.drop.u16s "c" 1 ≠ .ok (vals16 [7]) ∧
    s.2.drop.u16s "a" 2 = .ok (vals16 [1, 2]) ∧
    (TdmsFile.new anyAlloc s.2.drop.bytes).isOk = false := by
  refine ⟨?_, ?_, ?_, ?_, ?_, ?_, ?_⟩ <;> decide +kernel

/-- An error while the writer is dropped is reported to nobody: the write returned `Ok`, the file shows
    two samples, but they are not there. (With the buffer size of the standard library.) -/
theorem dropped_writer_counterexample :
    let w := (TdmsFile.writer ⟨Index.new, []⟩ 8192 [.fail (.other 28)])
    let r := run anyAlloc byByte w (.op (writeU16 ["a"] [1, 2]))
    r.1 = .ok () ∧ r.2.drop.bytes = [] ∧ r.2.drop.channelLength (chan "a") = .ok (some 2) ∧
    (r.2.drop.u16s "a" 2).isOk = false := by
  refine ⟨?_, ?_, ?_, ?_⟩ <;> decide +kernel

/-- Whatever calls are made and however they fail, the bytes that were in the file stay: while the writer is there. -/
theorem faults_append_only_disk (al : Alloc) (split : Bytes → List Bytes) (calls : List Call) : ∀ (w : FileWriter),
    w.out.stream.disk <+: (after al split w calls).out.stream.disk := by
  induction calls with
  | nil => intro w; exact List.prefix_rfl
  | cons c calls ih =>
    intro w
    refine List.IsPrefix.trans ?_ (ih (run al split w c).2)
    have hseg : ∀ s, w.out.stream.disk <+: (w.segment split s).2.out.stream.disk := by
      intro s
      have := (BufWriter.writePieces_appends (split s.2) w.out).disk
      unfold FileWriter.segment
      split <;> (rename_i heq; rw [heq] at this; exact this)
    cases c with
    | sync =>
      have := w.out.flush_spec.2.1
      show w.out.stream.disk <+: w.sync.2.out.stream.disk
      unfold FileWriter.sync
      split <;> (rename_i heq; rw [heq] at this; exact this)
    | op op =>
      cases op with
      | props e path properties => exact hseg _
      | write e ty chs vals layout =>
        show w.out.stream.disk <+: (w.writeChannels (ty.storage al) split e chs vals layout).2.out.stream.disk
        unfold FileWriter.writeChannels
        split
        · exact List.prefix_rfl
        · split
          · exact List.prefix_rfl
          · exact hseg _

/-- Whatever calls are made and however they fail, the bytes that were in the file stay. -/
theorem faults_append_only (al : Alloc) (split : Bytes → List Bytes) (calls : List Call) (w : FileWriter) :
    w.out.stream.disk <+: (after al split w calls).drop.bytes :=
  (faults_append_only_disk al split calls w).trans (drop_outcome _).2.1

end Tedium
