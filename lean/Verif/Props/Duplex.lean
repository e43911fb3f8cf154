import Verif.Proofs.Duplex
import Verif.Props.Source
import Verif.Props.Faults

/-! # A file on any stream (C85) -/

namespace Tedium
open SegSpec WriteSpec Faults Life

section
variable {σ : Type} (F : Duplex σ) (al : Alloc) {split : Bytes → List Bytes}

/-- A writer that was just made on a file with the index `ix`, on a stream in the state `s`. -/
def freshWriter (ix : Index) (capacity : Nat) (s : σ) : AnyFileWriter σ := ⟨ix, ⟨capacity, [], s, []⟩⟩

/-- **C85, streams are lists.** Whatever a stream does, there are lists of what the stream of `Model/Medium.lean` is to do, with
    which the calls have the same results, the index and the write buffer are the same, and the stream has got the
    same bytes; also when the writer is dropped in the end. So C48, C49, C53 and C78 hold for every stream. -/
theorem any_writer_scripted (split : Bytes → List Bytes) (ix : Index) (capacity : Nat) (s : σ) (calls : List Call) :
    ∃ script flushes, ∀ (base : Bytes) (kept : Nat),
      let m : Medium := ⟨TdmsFile.writer ⟨ix, base⟩ capacity script, kept, flushes⟩
      let w := after F al split (freshWriter ix capacity s) calls
      results F al split (freshWriter ix capacity s) calls = mediumResults al split m calls ∧
      w.index = (mediumAfter al split m calls).writer.index ∧
      w.out.buf = (mediumAfter al split m calls).writer.out.buf ∧
      base ++ w.out.accepted = (mediumAfter al split m calls).writer.out.stream.disk ∧
      base ++ (w.drop F).2 = (mediumAfter al split m calls).writer.drop.bytes := by
  have key : ∀ (calls : List Call) (w : AnyFileWriter σ), ∃ script flushes, ∀ base kept,
      results F al split w calls = mediumResults al split (w.twin base script kept flushes) calls ∧
      (after F al split w calls).index = (mediumAfter al split (w.twin base script kept flushes) calls).writer.index ∧
      (after F al split w calls).out.buf = (mediumAfter al split (w.twin base script kept flushes) calls).writer.out.buf ∧
      base ++ (after F al split w calls).out.accepted
        = (mediumAfter al split (w.twin base script kept flushes) calls).writer.out.stream.disk ∧
      base ++ ((after F al split w calls).drop F).2
        = (mediumAfter al split (w.twin base script kept flushes) calls).writer.drop.bytes := by
    intro calls
    induction calls with
    | nil =>
      intro w
      obtain ⟨pre, hp⟩ := AnyOut.flushBuf_scripted F w.out
      refine ⟨pre, [], fun base kept => ⟨rfl, rfl, rfl, rfl, ?_⟩⟩
      have hp := hp base []
      rw [List.append_nil] at hp
      show _ = (w.out.twin base pre).flush.2.stream.disk
      rw [hp]
      rfl
    | cons c calls ih =>
      intro w
      obtain ⟨pre, fl, hp⟩ := call_scripted F al split w c
      obtain ⟨script, flushes, h⟩ := ih (Life.run F al split w c).2
      refine ⟨pre ++ script, fl ++ flushes, fun base kept => ?_⟩
      have hp := hp base script kept flushes
      have e1 : mediumResults al split (w.twin base (pre ++ script) kept (fl ++ flushes)) (c :: calls)
          = (Life.run F al split w c).1 ::
            mediumResults al split ((Life.run F al split w c).2.twin base script kept flushes) calls := by
        show (Medium.call al split _ c).1 :: mediumResults al split (Medium.call al split _ c).2 calls = _
        rw [hp]
      have e2 : mediumAfter al split (w.twin base (pre ++ script) kept (fl ++ flushes)) (c :: calls)
          = mediumAfter al split ((Life.run F al split w c).2.twin base script kept flushes) calls := by
        show mediumAfter al split (Medium.call al split _ c).2 calls = _
        rw [hp]
      obtain ⟨h1, h2⟩ := h base kept
      rw [e1, e2]
      exact ⟨congrArg (_ :: ·) h1, h2⟩
  obtain ⟨script, flushes, h⟩ := key calls (freshWriter ix capacity s)
  refine ⟨script, flushes, fun base kept => ?_⟩
  have h := h base kept
  rw [show (freshWriter ix capacity s).twin base script kept flushes
    = ⟨TdmsFile.writer ⟨ix, base⟩ capacity script, kept, flushes⟩ from by
      unfold AnyFileWriter.twin AnyOut.twin TdmsFile.writer freshWriter
      rw [List.append_nil]] at h
  exact h

theorem ioFailed_iff (r : R Unit) : ioFailed r = true ↔ ∃ kind, r = R.err (.ioError kind) := by
  constructor
  · intro h
    unfold ioFailed at h
    split at h
    · exact ⟨_, rfl⟩
    · cases h
  · rintro ⟨kind, rfl⟩; rfl

/-- A write that does not depend on the stream does not report an error of the stream. -/
theorem plain_not_io {ix : Index} (hi : Reach ix) (op : Op) : ioFailed (op.run al ⟨ix, []⟩).1 = false := by
  rw [Bool.eq_false_iff]
  intro h
  obtain ⟨kind, hk⟩ := (ioFailed_iff _).mp h
  have key : ∀ s : Segment, (ix.addSegment s).1.map (fun _ => ()) ≠ R.err (.ioError kind) := by
    intro s h
    rcases (hi.inv.addSegment s).2 with ⟨n, hn, _⟩ | ⟨er, he, hse, _⟩
    · rw [hn] at h; cases h
    · rw [he] at h
      injection h with h
      subst h
      cases hse with | raw _ hr => cases hr
  cases op with
  | props e path properties => exact key (propertySegment e path properties).1 hk
  | write e ty chs vals layout =>
    change ((⟨ix, []⟩ : TdmsFile).writeChannels (ty.storage al) e chs vals layout).1 = _ at hk
    unfold TdmsFile.writeChannels at hk
    split at hk
    · cases hk
    · split at hk
      · cases hk
      · exact key _ hk

theorem Op.run_reach {al : Alloc} {t : TdmsFile} (h : Reach t.index) (op : Op) : Reach (op.run al t).2.index := by
  rcases Op.run_index al t op with h' | ⟨s, h'⟩
  · rw [h']; exact h
  · rw [h']; exact .add s h

theorem runOps_index (al : Alloc) : ∀ (ops : List Op) (ix : Index) (b b' : Bytes),
    (runOps al ⟨ix, b⟩ ops).index = (runOps al ⟨ix, b'⟩ ops).index
  | [], _, _, _ => rfl
  | op :: ops, ix, b, b' => by
    show (runOps al (op.run al ⟨ix, b⟩).2 ops).index = (runOps al (op.run al ⟨ix, b'⟩).2 ops).index
    have h := (op_run_bytes al ix b op).2.1.trans (op_run_bytes al ix b' op).2.1.symm
    generalize (op.run al ⟨ix, b⟩).2 = x at h
    generalize (op.run al ⟨ix, b'⟩).2 = y at h
    obtain ⟨i, c⟩ := x
    obtain ⟨j, d⟩ := y
    dsimp only at h
    subst h
    exact runOps_index al ops i c d

/-- The state of the writer after calls: the index. -/
theorem after_index (hs : ∀ b, (split b).flatten = b) : ∀ (calls : List Call) (w : AnyFileWriter σ), Reach w.index →
    (after F al split w calls).index = (runOps al ⟨w.index, []⟩ (done F al split w calls)).index ∧
    Reach (after F al split w calls).index
  | [], w, h => ⟨rfl, h⟩
  | .sync :: calls, w, h => by
    obtain ⟨_, h2, _⟩ := life_sync F w
    obtain ⟨i1, i2⟩ := after_index hs calls (w.sync F).2 (h2 ▸ h)
    rw [h2] at i1
    exact ⟨i1, i2⟩
  | .op op :: calls, w, h => by
    have hr : Reach (op.run al ⟨w.index, []⟩).2.index := Op.run_reach (t := ⟨w.index, []⟩) h op
    rcases (life_write F al hs w op).2 with ⟨h1, h2, _⟩ | ⟨kind, part, h1, h2, _⟩
    · obtain ⟨i1, i2⟩ := after_index hs calls (Life.run F al split w (.op op)).2 (h2 ▸ hr)
      refine ⟨?_, i2⟩
      have hd : done F al split w (.op op :: calls) = op :: done F al split (Life.run F al split w (.op op)).2 calls :=
        if_neg (by rw [h1, plain_not_io al h op]; decide)
      rw [hd]
      refine i1.trans ?_
      rw [h2]
      exact runOps_index al _ _ _ _
    · obtain ⟨i1, i2⟩ := after_index hs calls (Life.run F al split w (.op op)).2 (h2 ▸ h)
      refine ⟨?_, i2⟩
      have hd : done F al split w (.op op :: calls) = done F al split (Life.run F al split w (.op op)).2 calls :=
        if_pos (by rw [h1]; rfl)
      rw [hd, ← h2]
      exact i1

/-- **C85, the calls.** A writer is made on a file that was opened (through any stream; `Reach`: the index is the result of
    segments, added one after the other), and calls are made, however they end. The index is what the writes make of it that
    did not end with an I/O error, on a perfect stream; every write ends with an I/O error, or as on a perfect
    stream after these writes; and a `sync` returns `Ok` or an I/O error. -/
theorem any_writer_calls (hs : ∀ b, (split b).flatten = b) {ix : Index} (hi : Reach ix) (capacity : Nat) (s : σ)
    (calls : List Call) :
    let w := freshWriter ix capacity s
    (after F al split w calls).index = (runOps al ⟨ix, []⟩ (done F al split w calls)).index ∧
    (∀ op, ioFailed (Life.run F al split (after F al split w calls) (.op op)).1 = true ∨
      (Life.run F al split (after F al split w calls) (.op op)).1
        = (op.run al (runOps al ⟨ix, []⟩ (done F al split w calls))).1) ∧
    ((Life.run F al split (after F al split w calls) .sync).1 = .ok () ∨
      ioFailed (Life.run F al split (after F al split w calls) .sync).1 = true) := by
  intro w
  obtain ⟨h1, _⟩ := after_index F al hs calls w hi
  refine ⟨h1, fun op => ?_, ?_⟩
  · rcases (life_write F al hs (after F al split w calls) op).2 with ⟨h2, _⟩ | ⟨kind, part, h2, _⟩
    · right
      rw [h2, h1]
      show _ = (op.run al (runOps al ⟨w.index, []⟩ (done F al split w calls))).1
      generalize runOps al ⟨w.index, []⟩ (done F al split w calls) = t
      obtain ⟨i, b⟩ := t
      exact (op_run_bytes al i b op).1.symm
    · left
      rw [h2]
      rfl
  · rcases (life_sync F (after F al split w calls)).2.2.2 with ⟨h2, _⟩ | ⟨kind, h2⟩
    · exact Or.inl h2
    · exact Or.inr ((ioFailed_iff _).mpr ⟨kind, h2⟩)

theorem after_append (w : AnyFileWriter σ) (a b : List Call) :
    after F al split w (a ++ b) = after F al split (after F al split w a) b := List.foldl_append

/-- The bytes, when no write fails. -/
theorem after_bytes (hs : ∀ b, (split b).flatten = b) : ∀ (calls : List Call) (w : AnyFileWriter σ) (b : Bytes),
    NoWriteFails F al split w calls → w.contents = b →
    (after F al split w calls).contents = (runOps al ⟨w.index, b⟩ (writes calls)).bytes ∧
    w.out.accepted <+: (after F al split w calls).out.accepted
  | [], w, b, _, h => ⟨h, List.prefix_rfl⟩
  | .sync :: calls, w, b, hno, h => by
    obtain ⟨h1, h2, h3, _⟩ := life_sync F w
    obtain ⟨i1, i2⟩ := after_bytes hs calls (w.sync F).2 b
      (fun pre op post hp => hno (.sync :: pre) op post (congrArg (Call.sync :: ·) hp)) (h3.trans h)
    rw [h2] at i1
    exact ⟨i1, h1.trans i2⟩
  | .op op :: calls, w, b, hno, h => by
    obtain ⟨h0, h'⟩ := life_write F al hs w op
    have hfirst := hno [] op calls rfl
    rcases h' with ⟨_, h2, h3⟩ | ⟨kind, part, h1, _⟩
    · obtain ⟨b1, b2, b3⟩ := op_run_bytes al w.index b op
      obtain ⟨i1, i2⟩ := after_bytes hs calls (Life.run F al split w (.op op)).2 (op.run al ⟨w.index, b⟩).2.bytes
        (fun pre o post hp => hno (.op op :: pre) o post (congrArg (Call.op op :: ·) hp)) (by rw [h3, b3, h])
      refine ⟨?_, h0.trans i2⟩
      refine i1.trans ?_
      rw [h2, ← b2]
      rfl
    · rw [show Life.run F al split (after F al split w []) (.op op) = Life.run F al split w (.op op) from rfl, h1] at hfirst
      cases hfirst

/-- **C85, the bytes.** If no write ends with an I/O error, what the stream has accepted is at every moment the beginning of
    what the writes append to a file on a perfect stream; so it is after the writer was dropped; and after a `sync` that
    returns `Ok` it is all of it. -/
theorem any_writer_bytes (hs : ∀ b, (split b).flatten = b) (ix : Index) (capacity : Nat) (s : σ) (calls : List Call)
    (hno : NoWriteFails F al split (freshWriter ix capacity s) calls) :
    let w := after F al split (freshWriter ix capacity s) calls
    let appended := (runOps al ⟨ix, []⟩ (writes calls)).bytes
    w.out.accepted <+: appended ∧ (w.drop F).2 <+: appended ∧
    ((Life.run F al split w .sync).1 = .ok () → (Life.run F al split w .sync).2.out.accepted = appended) := by
  intro w appended
  have h1 : w.contents = appended := (after_bytes F al hs calls (freshWriter ix capacity s) [] hno rfl).1
  refine ⟨h1 ▸ List.prefix_append _ _, h1 ▸ (life_drop F w).2.2, fun hok => ?_⟩
  rcases (life_sync F w).2.2.2 with ⟨_, h2⟩ | ⟨kind, h2⟩
  · exact h2.trans h1
  · rw [show (Life.run F al split w .sync).1 = (w.sync F).1 from rfl, h2] at hok
    cases hok

/-- **C85, the bytes after errors.** However the calls end: what the stream has accepted is made of the bytes of the segments
    that the calls make, in their order; no byte is there twice, or comes from elsewhere. -/
theorem any_writer_sublist (hs : ∀ b, (split b).flatten = b) (ix : Index) (capacity : Nat) (s : σ) (calls : List Call) :
    let w := after F al split (freshWriter ix capacity s) calls
    List.Sublist w.out.accepted (offered F al split (freshWriter ix capacity s) calls) ∧
    List.Sublist (w.drop F).2 (offered F al split (freshWriter ix capacity s) calls) := by
  have key : ∀ (calls : List Call) (w : AnyFileWriter σ),
      List.Sublist (after F al split w calls).contents (w.contents ++ offered F al split w calls) := by
    intro calls
    induction calls with
    | nil => intro w; exact (List.append_nil w.contents).symm ▸ List.Sublist.refl _
    | cons c calls ih =>
      intro w
      refine (ih (Life.run F al split w c).2).trans ?_
      cases c with
      | sync =>
        show List.Sublist ((w.sync F).2.contents ++ _) _
        rw [(life_sync F w).2.2.1]
        exact List.Sublist.refl _
      | op op =>
        show List.Sublist _ (w.contents ++ (segmentBytes al w.index op ++ offered F al split (Life.run F al split w (.op op)).2 calls))
        rw [← List.append_assoc]
        refine List.Sublist.append ?_ (List.Sublist.refl _)
        rcases (life_write F al hs w op).2 with ⟨_, _, h⟩ | ⟨_, _, _, _, h, hp⟩
        · rw [h]; exact List.Sublist.refl _
        · rw [h]; exact List.Sublist.append (List.Sublist.refl _) hp.sublist
  intro w
  have h : List.Sublist w.contents (offered F al split (freshWriter ix capacity s) calls) := key calls (freshWriter ix capacity s)
  exact ⟨(List.sublist_append_left _ _).trans h, (life_drop F w).2.2.sublist.trans h⟩

/-! ## The life of a file -/

/-- The results that are possible: success, an error, or a panic by overflow or division by zero. -/
def CallEnds (r : R Unit) : Prop := r = .ok () ∨ ∃ e, r = .error e ∧ ReadFail e

theorem plain_ends {ix : Index} (hi : Reach ix) (op : Op) : CallEnds (op.run al ⟨ix, []⟩).1 := by
  have key : ∀ s : Segment, CallEnds ((ix.addSegment s).1.map (fun _ => ())) := by
    intro s
    rcases (hi.inv.addSegment s).2 with ⟨n, hn, _⟩ | ⟨er, he, hse, _⟩
    · rw [hn]; exact Or.inl rfl
    · rw [he]
      refine Or.inr ⟨er, rfl, ?_⟩
      cases hse with
      | noPrevious => exact Or.inl ⟨_, rfl⟩
      | address _ => exact Or.inl ⟨_, rfl⟩
      | raw _ hr =>
        cases hr <;> first | exact Or.inl ⟨_, rfl⟩ | exact Or.inr (Or.inl rfl) | exact Or.inr (Or.inr rfl)
  cases op with
  | props e path properties => exact key (propertySegment e path properties).1
  | write e ty chs vals layout =>
    change CallEnds ((⟨ix, []⟩ : TdmsFile).writeChannels (ty.storage al) e chs vals layout).1
    unfold TdmsFile.writeChannels
    split
    · exact Or.inr ⟨_, rfl, Or.inl ⟨_, rfl⟩⟩
    · split
      · exact Or.inr ⟨_, rfl, Or.inl ⟨_, rfl⟩⟩
      · exact key _

theorem results_end (hs : ∀ b, (split b).flatten = b) : ∀ (calls : List Call) (w : AnyFileWriter σ), Reach w.index →
    ∀ r ∈ results F al split w calls, CallEnds r
  | [], _, _, r, hr => by cases hr
  | .sync :: calls, w, h, r, hr => by
    obtain ⟨_, h2, _, h4⟩ := life_sync F w
    rcases List.mem_cons.mp hr with rfl | hr
    · rcases h4 with ⟨h4, _⟩ | ⟨kind, h4⟩
      · exact Or.inl h4
      · exact Or.inr ⟨_, h4, Or.inl ⟨_, rfl⟩⟩
    · exact results_end hs calls (w.sync F).2 (h2 ▸ h) r hr
  | .op op :: calls, w, h, r, hr => by
    rcases (life_write F al hs w op).2 with ⟨h1, h2, _⟩ | ⟨kind, part, h1, h2, _⟩
    · rcases List.mem_cons.mp hr with rfl | hr
      · rw [h1]; exact plain_ends al h op
      · exact results_end hs calls (Life.run F al split w (.op op)).2
          (h2 ▸ Op.run_reach (t := ⟨w.index, []⟩) h op) r hr
    · rcases List.mem_cons.mp hr with rfl | hr
      · exact Or.inr ⟨_, h1, Or.inl ⟨_, rfl⟩⟩
      · exact results_end hs calls (Life.run F al split w (.op op)).2 (h2 ▸ h) r hr

/-- Reads of any index that is the result of segments. -/
theorem reach_read_ends (F : Source σ) (capacity : Nat) (ty : STy) {ix : Index} (h : Reach ix) (s : σ) (start : Nat) :
    (∀ c out, CallEnds (F.readChannelInto al capacity ty ix s c start out).1) ∧
    ∀ cs outs, CallEnds (F.readChannelsInto al capacity ty ix s cs start outs).1 := by
  have hE : ∀ e, ReadFail (.err e) := fun e => Or.inl ⟨e, rfl⟩
  have hm : MildAll ReadFail := ⟨Or.inr (Or.inl rfl), Or.inr (Or.inr rfl)⟩
  constructor
  · intro c out
    rcases readChannelLog_sat hE al ty (F.runner_keeps hE capacity) h.inv c start out s (Or.inl hm) with ⟨⟨⟩, ha, _⟩ | he
    · exact Or.inl ha
    · exact Or.inr he
  · intro cs outs
    rcases readChannelsLog_sat hE al ty (F.runner_keeps hE capacity) h.inv cs start outs s (Or.inl hm) with ⟨⟨⟩, ha, _⟩ | he
    · exact Or.inl ha
    · exact Or.inr he

theorem use_effect (hs : ∀ b, (split b).flatten = b) (capacity : Nat) (t : AnyFile σ) (h : Reach t.index) (u : Use) :
    (∀ r ∈ (use F al split capacity t u).1, CallEnds r) ∧
    (use F al split capacity t u).2.index = (runOps al ⟨t.index, []⟩ (useDone F al split capacity t u)).index ∧
    Reach (use F al split capacity t u).2.index := by
  cases u with
  | readOne ty c start out =>
    refine ⟨fun r hr => ?_, rfl, h⟩
    rw [List.mem_singleton.mp hr]
    exact (reach_read_ends al F.toSource capacity ty h t.str start).1 c out
  | readMany ty cs start outs =>
    refine ⟨fun r hr => ?_, rfl, h⟩
    rw [List.mem_singleton.mp hr]
    exact (reach_read_ends al F.toSource capacity ty h t.str start).2 cs outs
  | write calls =>
    show (∀ r ∈ (match t.writer F capacity with
        | .error (e, t) => ([R.err e], t)
        | .ok w => (results F al split w calls, ((after F al split w calls).drop F).1) : List (R Unit) × AnyFile σ).1, CallEnds r) ∧
      (match t.writer F capacity with
        | .error (e, t) => ([R.err e], t)
        | .ok w => (results F al split w calls, ((after F al split w calls).drop F).1) : List (R Unit) × AnyFile σ).2.index
        = (runOps al ⟨t.index, []⟩ (match t.writer F capacity with
          | .error _ => []
          | .ok w => done F al split w calls)).index ∧
      Reach (match t.writer F capacity with
        | .error (e, t) => ([R.err e], t)
        | .ok w => (results F al split w calls, ((after F al split w calls).drop F).1) : List (R Unit) × AnyFile σ).2.index
    unfold AnyFile.writer
    rcases F.seekEnd t.str with ⟨_ | kind, str⟩
    · obtain ⟨h1, h2⟩ := after_index F al hs calls ⟨t.index, ⟨capacity, [], str, []⟩⟩ h
      exact ⟨results_end F al hs calls _ h, h1, h2⟩
    · refine ⟨fun r hr => ?_, rfl, h⟩
      rw [List.mem_singleton.mp hr]
      exact Or.inr ⟨_, rfl, Or.inl ⟨_, rfl⟩⟩

/-- **C85, a whole life.** A file was opened, through any stream. Then it is used on any stream: reads, and writers on which
    calls are made, in any order and number, while the stream does what it likes, and others do with it what they like. All
    calls end, with success, an error, or a panic by overflow or division by zero. The index, and with it all objects,
    properties, lengths and places of data that the file shows, is in the end what the writes that did not end with an I/O
    error make of it on a perfect stream. -/
theorem any_life (hs : ∀ b, (split b).flatten = b) {τ : Type} {F₀ : Source τ} {capacity₀ : Nat} {s₀ : τ} {ix : Index}
    (ho : (F₀.buildIndex al capacity₀ s₀).1 = .ok ix) (s : σ) (us : Uses σ) :
    (∀ r ∈ liveResults F al split ⟨ix, s⟩ us, CallEnds r) ∧
    (live F al split ⟨ix, s⟩ us).index = (runOps al ⟨ix, []⟩ (liveDone F al split ⟨ix, s⟩ us)).index := by
  have key : ∀ (us : Uses σ) (t : AnyFile σ), Reach t.index →
      (∀ r ∈ liveResults F al split t us, CallEnds r) ∧
      (live F al split t us).index = (runOps al ⟨t.index, []⟩ (liveDone F al split t us)).index := by
    intro us
    induction us with
    | nil => exact fun t h => ⟨fun r hr => (by cases hr), rfl⟩
    | cons x us ih =>
      obtain ⟨capacity, meddle, u⟩ := x
      intro t h
      obtain ⟨h1, h2, h3⟩ := use_effect F al hs capacity { t with str := meddle t.str } h u
      obtain ⟨i1, i2⟩ := ih (use F al split capacity { t with str := meddle t.str } u).2 h3
      refine ⟨fun r hr => ?_, ?_⟩
      · rcases List.mem_append.mp hr with hr | hr
        · exact h1 r hr
        · exact i1 r hr
      · refine i2.trans ?_
        rw [h2]
        show _ = (runOps al ⟨t.index, []⟩ (_ ++ _)).index
        rw [show ∀ a b, runOps al ⟨t.index, []⟩ (a ++ b) = runOps al (runOps al ⟨t.index, []⟩ a) b from fun a b => List.foldl_append]
        generalize runOps al ⟨t.index, []⟩ (useDone F al split capacity { t with str := meddle t.str } u) = y
        obtain ⟨i, b⟩ := y
        exact runOps_index al _ i _ b
  obtain ⟨segs, _, hr⟩ := buildIndex_any_ok ho
  exact key us ⟨ix, s⟩ (Reach.new.replay hr)

theorem runOps_reach {al : Alloc} : ∀ (ops : List Op) {t : TdmsFile}, Reach t.index → Plain t.index →
    Reach (runOps al t ops).index ∧ Plain (runOps al t ops).index
  | [], _, h, hp => ⟨h, hp⟩
  | op :: ops, t, h, hp => by
    refine runOps_reach ops (Op.run_reach h op) ?_
    cases op with
    | write e ty channels vals layout => exact writeChannels_plain _ e hp channels vals layout
    | props e path properties => exact writeProperties_plain e hp path properties

/-- **C85, no panic.** After such a life, reads of channels whose blocks are not absurd (`TameAt`) do not panic, whatever the stream
    does then. -/
theorem any_life_no_panic (hs : ∀ b, (split b).flatten = b) {τ : Type} {F₀ : Source τ} {capacity₀ : Nat} {s₀ : τ} {ix : Index}
    (ho : (F₀.buildIndex al capacity₀ s₀).1 = .ok ix) (s : σ) (us : Uses σ) (ty : STy) (capacity : Nat) (s' : σ) (start : Nat) :
    let ix' := (live F al split ⟨ix, s⟩ us).index
    (∀ c out, (∀ ls, ix'.getChannelDataPositions c = some ls → TameAt ⟨ix', []⟩ ls) →
      OkOrErr (F.toSource.readChannelInto al capacity ty ix' s' c start out).1) ∧
    ∀ cs outs, (∀ c ∈ cs, ∀ ls, ix'.getChannelDataPositions c = some ls → TameAt ⟨ix', []⟩ ls) →
      OkOrErr (F.toSource.readChannelsInto al capacity ty ix' s' cs start outs).1 := by
  intro ix'
  obtain ⟨segs, hp, hr⟩ := buildIndex_any_ok ho
  have hboth := runOps_reach (al := al) (liveDone F al split ⟨ix, s⟩ us) (t := ⟨ix, []⟩) (Reach.new.replay hr) (Plain.new.replay hp hr)
  rw [← (any_life F al hs ho s us).2] at hboth
  have hi : Inv ix' := hboth.1.inv
  have hE : ∀ e, IsErr (.err e) := fun e => ⟨e, rfl⟩
  constructor
  · intro c out hok
    rcases readChannelLog_sat hE al ty (F.toSource.runner_keeps hE capacity) hi c start out s'
      (Or.inr fun ls hls => ⟨hok ls hls, fun _ => sized_of_plain (t := ⟨ix', []⟩) hboth.2 hi hls⟩) with ⟨⟨⟩, ha, _⟩ | ⟨_, he, x, rfl⟩
    · exact Or.inl ⟨_, ha⟩
    · exact Or.inr ⟨x, he⟩
  · intro cs outs hok
    rcases readChannelsLog_sat hE al ty (F.toSource.runner_keeps hE capacity) hi cs start outs s'
      (Or.inr fun c hc ls hls => ⟨hok c hc ls hls, sized_of_plain (t := ⟨ix', []⟩) hboth.2 hi hls⟩) with ⟨⟨⟩, ha, _⟩ | ⟨_, he, x, rfl⟩
    · exact Or.inl ⟨_, ha⟩
    · exact Or.inr ⟨x, he⟩

/-- **C85, streams that keep what they are given.** On these a writer does what it does on a perfect stream: all results are
    the same, no error is added, and when the writer is dropped the index and the contents of the stream are the same. -/
theorem any_writer_keeps (hs : ∀ b, (split b).flatten = b) {AtEnd : σ → Prop} {view : σ → Bytes} (hk : Keeps F AtEnd view)
    (capacity : Nat) {t : AnyFile σ} (hi : Reach t.index) (calls : List Call) :
    (use F al split capacity t (.write calls)).1 = perfectResults al ⟨t.index, view t.str⟩ calls ∧
    (use F al split capacity t (.write calls)).2.index = (runOps al ⟨t.index, view t.str⟩ (writes calls)).index ∧
    view (use F al split capacity t (.write calls)).2.str = (runOps al ⟨t.index, view t.str⟩ (writes calls)).bytes := by
  have key : ∀ (calls : List Call) (w : AnyFileWriter σ) (base b : Bytes), Reach w.index → HasKept AtEnd view base w.out → base ++ w.contents = b →
      results F al split w calls = perfectResults al ⟨w.index, b⟩ calls ∧
      ((after F al split w calls).drop F).1.index = (runOps al ⟨w.index, b⟩ (writes calls)).index ∧
      view ((after F al split w calls).drop F).1.str = (runOps al ⟨w.index, b⟩ (writes calls)).bytes := by
    intro calls
    induction calls with
    | nil =>
      intro w base b hi h hb
      obtain ⟨_, f2, f3⟩ := flushBuf_keeps hk h
      refine ⟨rfl, rfl, f3.2.trans ?_⟩
      have hd := (life_drop F w).2
      have hlen : (w.out.flushBuf F).2.accepted = w.contents := by
        obtain ⟨pre, hp⟩ := AnyOut.flushBuf_scripted F w.out
        have hp := hp [] []
        have f1 := (w.out.twin [] (pre ++ [])).flush_spec.1
        rw [hp] at f1
        have : (w.out.flushBuf F).2.accepted ++ (w.out.flushBuf F).2.buf = w.contents := f1
        rw [f2, List.append_nil] at this
        exact this
      rw [hlen, hb]
      rfl
    | cons c calls ih =>
      intro w base b hi h hb
      cases c with
      | sync =>
        obtain ⟨s1, s2⟩ := sync_keeps hk h
        obtain ⟨_, h2, h3, _⟩ := life_sync F w
        obtain ⟨i1, i2⟩ := ih (w.sync F).2 base b (h2 ▸ hi) s2 (by rw [h3]; exact hb)
        rw [h2] at i1 i2
        refine ⟨?_, i2⟩
        show (w.sync F).1 :: results F al split (w.sync F).2 calls = .ok () :: perfectResults al ⟨w.index, b⟩ calls
        rw [s1, i1]
      | op op =>
        obtain ⟨k1, k2⟩ := op_keeps hk al split h op
        obtain ⟨b1, b2, b3⟩ := op_run_bytes al w.index b op
        have hw : (Life.run F al split w (.op op)).2.index = (op.run al ⟨w.index, []⟩).2.index ∧
            (Life.run F al split w (.op op)).2.contents = w.contents ++ segmentBytes al w.index op := by
          rcases (life_write F al hs w op).2 with ⟨_, h2, h3⟩ | ⟨kind, part, h1, _⟩
          · exact ⟨h2, h3⟩
          · have := plain_not_io al hi op
            rw [← k2, h1] at this
            cases this
        obtain ⟨i1, i2⟩ := ih (Life.run F al split w (.op op)).2 base (op.run al ⟨w.index, b⟩).2.bytes
          (hw.1 ▸ Op.run_reach (t := ⟨w.index, []⟩) hi op) k1 (by
          rw [hw.2, b3, ← hb, List.append_assoc])
        rw [hw.1, ← b2] at i1 i2
        refine ⟨?_, i2⟩
        show (Life.run F al split w (.op op)).1 :: results F al split (Life.run F al split w (.op op)).2 calls
          = (op.run al ⟨w.index, b⟩).1 :: perfectResults al (op.run al ⟨w.index, b⟩).2 calls
        rw [k2, b1, i1]
  obtain ⟨s', he, ha, hv⟩ := hk.seek t.str
  have e : use F al split capacity t (.write calls) = (results F al split ⟨t.index, ⟨capacity, [], s', []⟩⟩ calls,
      ((after F al split ⟨t.index, ⟨capacity, [], s', []⟩⟩ calls).drop F).1) := by
    show (match t.writer F capacity with
      | .error (e, t) => ([R.err e], t)
      | .ok w => (results F al split w calls, ((after F al split w calls).drop F).1) : List (R Unit) × AnyFile σ) = _
    unfold AnyFile.writer
    rw [he]
  rw [e]
  exact key calls ⟨t.index, ⟨capacity, [], s', []⟩⟩ (view t.str) (view t.str) hi
    ⟨ha, hv.trans (List.append_nil _).symm⟩ (List.append_nil _)

/-- **C85, making the writer.** If the stream cannot be moved to its end, there is no writer: that error is the result, and
    nothing is written, whatever calls were to be made. -/
theorem any_writer_seek (split : Bytes → List Bytes) (capacity : Nat) (t : AnyFile σ) {kind : IoKind}
    (h : (F.seekEnd t.str).1 = some kind) (calls : List Call) :
    use F al split capacity t (.write calls) = ([R.err (.ioError kind)], ⟨t.index, (F.seekEnd t.str).2⟩) := by
  show (match t.writer F capacity with
    | .error (e, t) => ([R.err e], t)
    | .ok w => (results F al split w calls, ((after F al split w calls).drop F).1) : List (R Unit) × AnyFile σ) = _
  unfold AnyFile.writer
  generalize F.seekEnd t.str = x at h
  obtain ⟨r, s⟩ := x
  dsimp only at h
  subst h
  rfl

end

/-! ## Examples -/

/-- The stream of a file in memory, at a position: `Cursor<Vec<u8>>` with `read` that gives all there is. -/
def Duplex.cursor : Duplex (Bytes × Nat) where
  read s n := (.ok ((s.1.drop s.2).take n), (s.1, min (s.2 + n) (max s.2 s.1.length)))
  seekStart s position := (none, (s.1, position))
  seekCurrent s offset := if 0 ≤ s.2 + offset then (none, (s.1, (s.2 + offset).toNat)) else (some .invalidInput, s)
  write s bs := (.ok bs.length, (s.1.take s.2 ++ bs ++ s.1.drop (s.2 + bs.length), s.2 + bs.length))
  flush s := (none, s)
  seekEnd s := (none, (s.1, s.1.length))

/-- It keeps what it is given. -/
theorem cursor_keeps : Keeps Duplex.cursor (fun s => s.2 = s.1.length) Prod.fst where
  write s bs h hb := by
    obtain ⟨n, hn⟩ : ∃ n, bs.length = n + 1 := ⟨bs.length - 1, by
      have := List.length_pos_iff.mpr hb; omega⟩
    have hw : s.1.take s.2 ++ bs ++ s.1.drop (s.2 + bs.length) = s.1 ++ bs := by
      rw [h, List.take_length, List.drop_eq_nil_of_le (by omega), List.append_nil]
    refine ⟨n, (s.1 ++ bs, s.2 + bs.length), ?_, ?_, ?_⟩
    · show ((.ok bs.length : Except IoKind Nat), (s.1.take s.2 ++ bs ++ s.1.drop (s.2 + bs.length), s.2 + bs.length)) = _
      rw [hw, hn]
    · show s.2 + bs.length = (s.1 ++ bs).length
      rw [List.length_append, h]
    · show s.1 ++ bs = s.1 ++ bs.take (n + 1)
      rw [← hn, List.take_length]
  flush s h := ⟨s, rfl, h, rfl⟩
  seek s := ⟨(s.1, s.1.length), rfl, rfl, rfl⟩

/-- A stream that fails in every seventh `write`, accepts at most 40 bytes in the others, loses them, and gives zeros when it is
    read. Its state is the number of calls. -/
def Duplex.leaky : Duplex Nat where
  read s n := (.ok (List.replicate n 0), s)
  seekStart s _ := (none, s)
  seekCurrent s _ := (none, s)
  write s _ := if s % 7 = 6 then (.error (.other 28), s + 1) else (.ok 40, s + 1)
  flush s := (none, s)
  seekEnd s := (none, s)

/-- The life of a file on it. The second write fails, the others do not; in the end the file shows what a file shows after the
    other writes. The read gave zeros, the third cell is left. -/
theorem any_life_example :
    let us : Uses Nat := [(16, id, .write [.op (writeU16 ["a"] [1, 2]), .op (writeU16 ["b"] [3, 4, 5]), .op (writeU16 ["c"] [6])]),
      (8192, (· + 1), .readOne .u16 (chan "a") 0 (vals16 [7, 7, 7])),
      (8192, id, .write [.op (writeU16 ["a"] [8]), .sync])]
    liveResults Duplex.leaky anyAlloc byByte ⟨Index.new, 0⟩ us
      = [.ok (), R.err (.ioError (.other 28)), .ok (), .ok (), .ok (), .ok ()] ∧
    (live Duplex.leaky anyAlloc byByte ⟨Index.new, 0⟩ us).index
      = (session [writeU16 ["a"] [1, 2], writeU16 ["c"] [6], writeU16 ["a"] [8]]).index ∧
    (Duplex.leaky.toSource.readChannelInto anyAlloc 8192 .u16 (session [writeU16 ["a"] [1, 2]]).index 1 (chan "a") 0
      (vals16 [7, 7, 7])).2.1 = vals16 [0, 0, 7] := by
  refine ⟨?_, ?_, ?_⟩ <;> decide +kernel

/-- The bytes that it accepted are those of the writes, without those of the second that came after the failure. -/
theorem any_writer_sublist_example :
    let calls := [.op (writeU16 ["a"] [1, 2]), .op (writeU16 ["b"] [3, 4, 5]), .op (writeU16 ["c"] [6])]
    let w := after Duplex.leaky anyAlloc byByte (freshWriter Index.new 16 0) calls
    (offered Duplex.leaky anyAlloc byByte (freshWriter Index.new 16 0) calls).length = 216 ∧
    (w.drop Duplex.leaky).2.length = 182 := by
  refine ⟨?_, ?_⟩ <;> decide +kernel

/-- A cursor gets what a perfect stream gets. -/
theorem any_writer_keeps_example (calls : List Call) :
    (use Duplex.cursor anyAlloc byByte 8192 ⟨Index.new, ([], 0)⟩ (.write calls)).2.str.1
      = (session (writes calls)).bytes :=
  (any_writer_keeps Duplex.cursor anyAlloc byByte_flatten cursor_keeps 8192 (t := ⟨Index.new, ([], 0)⟩) .new calls).2.2

end Tedium
