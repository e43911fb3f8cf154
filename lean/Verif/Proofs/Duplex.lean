import Verif.Spec.Life
import Verif.Proofs.Stream

/-! # Every stream does what some list says -/

namespace Tedium
open Faults

variable {σ : Type} (F : Duplex σ)

theorem Duplex.push_scripted : ∀ (fuel : Nat) (offered : Bytes) (s : σ), offered.length ≤ fuel →
    ∃ pre, ∀ disk tail, Stream.push disk offered (pre ++ tail) =
      ((F.push fuel offered s).1, (F.push fuel offered s).2.2.1, ⟨disk ++ (F.push fuel offered s).2.1, tail⟩)
  | 0, offered, s, h => by
    have : offered = [] := List.length_eq_zero_iff.mp (by omega)
    subst this
    refine ⟨[], fun disk tail => ?_⟩
    show Stream.push disk [] tail = (none, [], ⟨disk ++ [], tail⟩)
    rw [List.append_nil]
    unfold Stream.push
    rfl
  | fuel + 1, [], s, h => by
    refine ⟨[], fun disk tail => ?_⟩
    show Stream.push disk [] tail = (none, [], ⟨disk ++ [], tail⟩)
    rw [List.append_nil]
    unfold Stream.push
    rfl
  | fuel + 1, b :: bs, s, h => by
    unfold Duplex.push
    rcases hx : F.write s (b :: bs) with ⟨x, s'⟩
    cases x with
    | error kind =>
      refine ⟨[.fail kind], fun disk tail => ?_⟩
      show Stream.push disk (b :: bs) (.fail kind :: tail) = _
      rw [List.append_nil]
      rfl
    | ok n =>
      cases n with
      | zero =>
        refine ⟨[.accept 0], fun disk tail => ?_⟩
        show Stream.push disk (b :: bs) (.accept 0 :: tail) = _
        rw [List.append_nil]
        rfl
      | succ n =>
        obtain ⟨pre, hp⟩ := Duplex.push_scripted fuel ((b :: bs).drop (n + 1)) s' (by
          rw [List.length_drop]; simp only [List.length_cons] at h ⊢; omega)
        refine ⟨.accept (n + 1) :: pre, fun disk tail => ?_⟩
        show Stream.push (disk ++ (b :: bs).take (n + 1)) ((b :: bs).drop (n + 1)) (pre ++ tail) = _
        rw [hp, List.append_assoc]

namespace AnyOut

/-- The writer of `Model/Stream.lean` in the same situation: the stream had `base` before. -/
def twin (w : AnyOut σ) (base : Bytes) (script : List WriteOutcome) : BufWriter :=
  ⟨w.capacity, w.buf, ⟨base ++ w.accepted, script⟩⟩

/-- What `x` does to the writer, `f` does to its twin, with some list. -/
def Scripted (w : AnyOut σ) (x : Option IoKind × AnyOut σ) (f : BufWriter → Option IoKind × BufWriter) : Prop :=
  ∃ pre, ∀ base tail, f (w.twin base (pre ++ tail)) = (x.1, x.2.twin base tail)

theorem flushBuf_scripted (w : AnyOut σ) : Scripted w (w.flushBuf F) BufWriter.flush := by
  obtain ⟨pre, hp⟩ := F.push_scripted w.buf.length w.buf w.str (Nat.le_refl _)
  refine ⟨pre, fun base tail => ?_⟩
  show ((Stream.push (base ++ w.accepted) w.buf (pre ++ tail)).1, ({ w.twin base (pre ++ tail) with buf := (Stream.push (base ++ w.accepted) w.buf (pre ++ tail)).2.1, stream := (Stream.push (base ++ w.accepted) w.buf (pre ++ tail)).2.2 } : BufWriter)) = _
  rw [hp, List.append_assoc]
  rfl

theorem writeAll_scripted (w : AnyOut σ) (bs : Bytes) : Scripted w (w.writeAll F bs) (BufWriter.writeAll · bs) := by
  by_cases h1 : bs.length < w.capacity - w.buf.length
  · refine ⟨[], fun base tail => ?_⟩
    have e1 : w.writeAll F bs = (none, { w with buf := w.buf ++ bs }) := if_pos h1
    rw [e1]
    exact if_pos h1
  · -- the second part, on a writer that may have been flushed
    have second : ∀ w' : AnyOut σ, Scripted w'
        (if bs.length ≥ w'.capacity then
          ((F.push bs.length bs w'.str).1, ({ w' with str := (F.push bs.length bs w'.str).2.2.2, accepted := w'.accepted ++ (F.push bs.length bs w'.str).2.1 } : AnyOut σ))
         else (none, { w' with buf := w'.buf ++ bs }))
        (fun v => if bs.length ≥ v.capacity then
          ((Stream.push v.stream.disk bs v.stream.script).1, { v with stream := (Stream.push v.stream.disk bs v.stream.script).2.2 })
         else (none, { v with buf := v.buf ++ bs })) := by
      intro w'
      by_cases h3 : bs.length ≥ w'.capacity
      · obtain ⟨pre, hp⟩ := F.push_scripted bs.length bs w'.str (Nat.le_refl _)
        refine ⟨pre, fun base tail => ?_⟩
        rw [if_pos h3]
        refine (if_pos h3).trans ?_
        show ((Stream.push (base ++ w'.accepted) bs (pre ++ tail)).1, ({ w'.twin base (pre ++ tail) with
          stream := (Stream.push (base ++ w'.accepted) bs (pre ++ tail)).2.2 } : BufWriter)) = _
        rw [hp, List.append_assoc]
        rfl
      · refine ⟨[], fun base tail => ?_⟩
        rw [if_neg h3]
        exact if_neg h3
    by_cases h2 : bs.length > w.capacity - w.buf.length
    · obtain ⟨pre, hp⟩ := flushBuf_scripted F w
      have e1 : w.writeAll F bs = (match w.flushBuf F with
          | (some kind, w) => (some kind, w)
          | (none, w) => if bs.length ≥ w.capacity then
              ((F.push bs.length bs w.str).1, ({ w with str := (F.push bs.length bs w.str).2.2.2, accepted := w.accepted ++ (F.push bs.length bs w.str).2.1 } : AnyOut σ))
            else (none, { w with buf := w.buf ++ bs })) := by
        refine (if_neg h1).trans ?_
        rw [if_pos h2]
        rfl
      have e2 : ∀ base script, (w.twin base script).writeAll bs = (match (w.twin base script).flush with
          | (some kind, v) => (some kind, v)
          | (none, v) => if bs.length ≥ v.capacity then
              ((Stream.push v.stream.disk bs v.stream.script).1, { v with stream := (Stream.push v.stream.disk bs v.stream.script).2.2 })
            else (none, { v with buf := v.buf ++ bs })) := by
        intro base script
        refine (if_neg h1).trans ?_
        rw [show (if bs.length > (w.twin base script).capacity - (w.twin base script).buf.length then (w.twin base script).flush
          else (none, w.twin base script)) = (w.twin base script).flush from if_pos h2]
        rfl
      rw [e1]
      generalize w.flushBuf F = x at hp ⊢
      obtain ⟨r, w'⟩ := x
      cases r with
      | some kind =>
        refine ⟨pre, fun base tail => ?_⟩
        dsimp only
        rw [e2, hp]
      | none =>
        obtain ⟨pre', hp'⟩ := second w'
        refine ⟨pre ++ pre', fun base tail => ?_⟩
        dsimp only
        rw [e2, List.append_assoc, hp]
        exact hp' base tail
    · obtain ⟨pre, hp⟩ := second w
      refine ⟨pre, fun base tail => ?_⟩
      refine Eq.trans ?_ ((hp base tail).trans ?_)
      · refine (if_neg h1).trans ?_
        rw [show (if bs.length > (w.twin base (pre ++ tail)).capacity - (w.twin base (pre ++ tail)).buf.length then
          (w.twin base (pre ++ tail)).flush else (none, w.twin base (pre ++ tail))) = (none, w.twin base (pre ++ tail)) from if_neg h2]
      · rw [show w.writeAll F bs = _ from (if_neg h1).trans (by rw [if_neg h2])]

theorem writePieces_scripted (pieces : List Bytes) : ∀ w : AnyOut σ,
    Scripted w (w.writePieces F pieces) (BufWriter.writePieces · pieces) := by
  induction pieces with
  | nil => exact fun w => ⟨[], fun base tail => rfl⟩
  | cons bs pieces ih =>
    intro w
    obtain ⟨pre, hp⟩ := writeAll_scripted F w bs
    dsimp only at hp
    have e1 : w.writePieces F (bs :: pieces) = (match w.writeAll F bs with
      | (some kind, w) => (some kind, w)
      | (none, w) => w.writePieces F pieces) := rfl
    have e2 : ∀ v : BufWriter, v.writePieces (bs :: pieces) = (match v.writeAll bs with
      | (some kind, v) => (some kind, v)
      | (none, v) => v.writePieces pieces) := fun _ => rfl
    rw [e1]
    generalize w.writeAll F bs = x at hp ⊢
    obtain ⟨r, w'⟩ := x
    cases r with
    | some kind =>
      refine ⟨pre, fun base tail => ?_⟩
      dsimp only
      rw [e2, hp]
    | none =>
      obtain ⟨pre', hp'⟩ := ih w'
      refine ⟨pre ++ pre', fun base tail => ?_⟩
      dsimp only
      rw [e2, List.append_assoc, hp]
      exact hp' base tail

end AnyOut

/-- The writer of `Model/Medium.lean` in the same situation. -/
def AnyFileWriter.twin (w : AnyFileWriter σ) (base : Bytes) (script : List WriteOutcome) (kept : Nat)
    (flushes : List FlushOutcome) : Medium := ⟨⟨w.index, w.out.twin base script⟩, kept, flushes⟩

/-- What `x` does to the writer, `f` does to its twin. -/
def ScriptedWriter (w : AnyFileWriter σ) (x : R Unit × AnyFileWriter σ) (f : FileWriter → R Unit × FileWriter) : Prop :=
  ∃ pre, ∀ base tail, f ⟨w.index, w.out.twin base (pre ++ tail)⟩ = (x.1, ⟨x.2.index, x.2.out.twin base tail⟩)

theorem segment_scripted (split : Bytes → List Bytes) (w : AnyFileWriter σ) (s : Segment × Bytes) :
    ScriptedWriter w (w.segment F split s) (FileWriter.segment split · s) := by
  obtain ⟨pre, hp⟩ := AnyOut.writePieces_scripted F (split s.2) w.out
  refine ⟨pre, fun base tail => ?_⟩
  have hp := hp base tail
  dsimp only at hp
  unfold FileWriter.segment AnyFileWriter.segment
  dsimp only
  rw [hp]
  generalize w.out.writePieces F (split s.2) = x
  obtain ⟨r, w'⟩ := x
  cases r <;> rfl

theorem op_scripted (al : Alloc) (split : Bytes → List Bytes) (w : AnyFileWriter σ) (op : Op) :
    ScriptedWriter w (Life.run F al split w (.op op)) (Faults.run al split · (.op op)) := by
  cases op with
  | props e path properties => exact segment_scripted F split w _
  | write e ty chs vals layout =>
    by_cases h1 : chs.length = 0
    · refine ⟨[], fun base tail => ?_⟩
      have e1 : Life.run F al split w (.op (.write e ty chs vals layout)) = (R.err .noChannels, w) := if_pos h1
      rw [e1]
      exact if_pos h1
    · by_cases h2 : vals.length % chs.length ≠ 0
      · refine ⟨[], fun base tail => ?_⟩
        have e1 : Life.run F al split w (.op (.write e ty chs vals layout))
          = (R.err (.badDataBlockLength vals.length chs.length), w) := (if_neg h1).trans (if_pos h2)
        rw [e1]
        exact (if_neg h1).trans (if_pos h2)
      · obtain ⟨pre, hp⟩ := segment_scripted F split w (writeSegment e
          { containsNewObjectList := !(w.index.checkWriteValues
              ((chs.map ChannelPath.path).zip (TdmsFile.dataStructure (ty.storage al) vals chs.length))).1,
            dataIsInterleaved := layout = .interleaved }
          (if (w.index.checkWriteValues
              ((chs.map ChannelPath.path).zip (TdmsFile.dataStructure (ty.storage al) vals chs.length))).1 then none
            else some { objects := (w.index.checkWriteValues
              ((chs.map ChannelPath.path).zip (TdmsFile.dataStructure (ty.storage al) vals chs.length))).2.map (fun (p, i) =>
                { path := p, properties := [], rawDataIndex := i }) })
          (some (TdmsFile.sliceData (ty.storage al) e vals)))
        refine ⟨pre, fun base tail => ?_⟩
        refine Eq.trans ((if_neg h1).trans (if_neg h2)) ((hp base tail).trans ?_)
        rw [show Life.run F al split w (.op (.write e ty chs vals layout)) = _ from (if_neg h1).trans (if_neg h2)]

theorem call_scripted (al : Alloc) (split : Bytes → List Bytes) (w : AnyFileWriter σ) (c : Call) :
    ∃ pre fl, ∀ base tail kept ftail, (w.twin base (pre ++ tail) kept (fl ++ ftail)).call al split c =
      ((Life.run F al split w c).1, (Life.run F al split w c).2.twin base tail kept ftail) := by
  cases c with
  | op op =>
    obtain ⟨pre, hp⟩ := op_scripted F al split w op
    refine ⟨pre, [], fun base tail kept ftail => ?_⟩
    have hp := hp base tail
    dsimp only at hp
    show ((Faults.run al split ⟨w.index, w.out.twin base (pre ++ tail)⟩ (.op op)).1, ({ (w.twin base (pre ++ tail) kept ftail) with
      writer := (Faults.run al split ⟨w.index, w.out.twin base (pre ++ tail)⟩ (.op op)).2 } : Medium)) = _
    rw [hp]
    rfl
  | sync =>
    obtain ⟨pre, hp⟩ := AnyOut.flushBuf_scripted F w.out
    show ∃ pre fl, ∀ base tail kept ftail, (w.twin base (pre ++ tail) kept (fl ++ ftail)).sync =
      ((w.sync F).1, (w.sync F).2.twin base tail kept ftail)
    have e1 : w.sync F = (match (match w.out.flushBuf F with
        | (some kind, w) => (some kind, w)
        | (none, w) => ((F.flush w.str).1, { w with str := (F.flush w.str).2 }) : Option IoKind × AnyOut σ) with
      | (some kind, out) => (R.err (.ioError kind), { w with out })
      | (none, out) => (.ok (), { w with out })) := rfl
    have e2 : ∀ base script, FileWriter.sync ⟨w.index, w.out.twin base script⟩ = (match (w.out.twin base script).flush with
      | (some kind, out) => (R.err (.ioError kind), ⟨w.index, out⟩)
      | (none, out) => (.ok (), ⟨w.index, out⟩)) := fun _ _ => rfl
    have e3 : ∀ base script kept fl, (w.twin base script kept fl).sync = (match FileWriter.sync ⟨w.index, w.out.twin base script⟩ with
      | (.error e, writer) => (.error e, ⟨writer, kept, fl⟩)
      | (.ok (), writer) =>
        match fl with
        | [] => (.ok (), ⟨writer, kept, fl⟩)
        | .nothing :: flushes => (.ok (), ⟨writer, kept, flushes⟩)
        | .persists :: flushes => (.ok (), ⟨writer, writer.out.stream.disk.length, flushes⟩)
        | .fail kind :: flushes => (R.err (.ioError kind), ⟨writer, kept, flushes⟩)) := fun _ _ _ _ => rfl
    rw [e1]
    generalize w.out.flushBuf F = x at hp ⊢
    obtain ⟨r, w'⟩ := x
    cases r with
    | some kind =>
      refine ⟨pre, [], fun base tail kept ftail => ?_⟩
      rw [e3, e2, hp]
      rfl
    | none =>
      dsimp only
      rcases hf : F.flush w'.str with ⟨rf, s'⟩
      cases rf with
      | some kind =>
        refine ⟨pre, [.fail kind], fun base tail kept ftail => ?_⟩
        rw [e3, e2, hp]
        rfl
      | none =>
        refine ⟨pre, [.nothing], fun base tail kept ftail => ?_⟩
        rw [e3, e2, hp]
        rfl

/-! ## The effect of one call -/

/-- What the stream has accepted and what is still in memory. -/
def AnyFileWriter.contents (w : AnyFileWriter σ) : Bytes := w.out.accepted ++ w.out.buf

/-- The bytes of the file do not matter for a write. -/
theorem op_run_bytes (al : Alloc) (ix : Index) (b : Bytes) (op : Op) :
    (op.run al ⟨ix, b⟩).1 = (op.run al ⟨ix, []⟩).1 ∧ (op.run al ⟨ix, b⟩).2.index = (op.run al ⟨ix, []⟩).2.index ∧
    (op.run al ⟨ix, b⟩).2.bytes = b ++ Life.segmentBytes al ix op := by
  unfold Life.segmentBytes
  cases op with
  | props e path properties => exact ⟨rfl, rfl, rfl⟩
  | write e ty chs vals layout =>
    by_cases h1 : chs.length = 0
    · have : ∀ b, (Op.write e ty chs vals layout).run al ⟨ix, b⟩ = (R.err .noChannels, ⟨ix, b⟩) := fun b => if_pos h1
      rw [this, this]
      exact ⟨rfl, rfl, (List.append_nil _).symm⟩
    · by_cases h2 : vals.length % chs.length ≠ 0
      · have : ∀ b, (Op.write e ty chs vals layout).run al ⟨ix, b⟩
          = (R.err (.badDataBlockLength vals.length chs.length), ⟨ix, b⟩) := fun b => (if_neg h1).trans (if_pos h2)
        rw [this, this]
        exact ⟨rfl, rfl, (List.append_nil _).symm⟩
      · have : ∀ b, (Op.write e ty chs vals layout).run al ⟨ix, b⟩ = _ := fun b => (if_neg h1).trans (if_neg h2)
        rw [this, this]
        exact ⟨rfl, rfl, rfl⟩

/-- A write: as on a perfect stream, or an error of the stream after a part of the bytes. -/
theorem life_write (al : Alloc) {split : Bytes → List Bytes} (hs : ∀ b, (split b).flatten = b) (w : AnyFileWriter σ) (op : Op) :
    w.out.accepted <+: (Life.run F al split w (.op op)).2.out.accepted ∧
    ((Life.run F al split w (.op op)).1 = (op.run al ⟨w.index, []⟩).1 ∧
      (Life.run F al split w (.op op)).2.index = (op.run al ⟨w.index, []⟩).2.index ∧
      (Life.run F al split w (.op op)).2.contents = w.contents ++ Life.segmentBytes al w.index op ∨
     ∃ kind part, (Life.run F al split w (.op op)).1 = R.err (.ioError kind) ∧
      (Life.run F al split w (.op op)).2.index = w.index ∧
      (Life.run F al split w (.op op)).2.contents = w.contents ++ part ∧ part <+: Life.segmentBytes al w.index op) := by
  obtain ⟨pre, hp⟩ := op_scripted F al split w op
  have hp := hp [] []
  dsimp only at hp
  have ha : Agrees ⟨w.index, w.contents⟩ ⟨w.index, w.out.twin [] (pre ++ [])⟩ := ⟨rfl, rfl⟩
  obtain ⟨b1, b2, b3⟩ := op_run_bytes al w.index w.contents op
  have ho := write_outcome al hs ha op
  rw [hp] at ho
  rcases ho with ⟨h1, h2, h3⟩ | ⟨kind, part, h1, h2, h3, h4, h5⟩
  · exact ⟨h1, Or.inl ⟨h2.trans b1, h3.1.trans b2, h3.2.trans b3⟩⟩
  · rw [b3] at h5
    exact ⟨h1, Or.inr ⟨kind, part, h2, h3, h4, (List.prefix_append_right_inj _).mp h5⟩⟩

/-- A sync. -/
theorem life_sync (w : AnyFileWriter σ) :
    w.out.accepted <+: (w.sync F).2.out.accepted ∧ (w.sync F).2.index = w.index ∧ (w.sync F).2.contents = w.contents ∧
    ((w.sync F).1 = .ok () ∧ (w.sync F).2.out.accepted = w.contents ∨ ∃ kind, (w.sync F).1 = R.err (.ioError kind)) := by
  obtain ⟨pre, hp⟩ := AnyOut.flushBuf_scripted F w.out
  have hp := hp [] []
  obtain ⟨f1, f2, f3, _⟩ := (w.out.twin [] (pre ++ [])).flush_spec
  rw [hp] at f1 f2 f3
  have e1 : w.sync F = (match (match w.out.flushBuf F with
      | (some kind, w) => (some kind, w)
      | (none, w) => ((F.flush w.str).1, { w with str := (F.flush w.str).2 }) : Option IoKind × AnyOut σ) with
    | (some kind, out) => (R.err (.ioError kind), { w with out })
    | (none, out) => (.ok (), { w with out })) := rfl
  rw [e1]
  generalize w.out.flushBuf F = x at f1 f2 f3 ⊢
  obtain ⟨r, w'⟩ := x
  cases r with
  | some kind => exact ⟨f2, rfl, f1, Or.inr ⟨kind, rfl⟩⟩
  | none =>
    dsimp only
    have hb : w'.buf = [] := f3 rfl
    rcases hf : F.flush w'.str with ⟨rf, s'⟩
    cases rf with
    | some kind => exact ⟨f2, rfl, f1, Or.inr ⟨kind, rfl⟩⟩
    | none =>
      refine ⟨f2, rfl, f1, Or.inl ⟨rfl, ?_⟩⟩
      have : w'.accepted ++ w'.buf = w.contents := f1
      rw [hb, List.append_nil] at this
      exact this

/-- Dropping the writer. -/
theorem life_drop (w : AnyFileWriter σ) :
    (w.drop F).1.index = w.index ∧ w.out.accepted <+: (w.drop F).2 ∧ (w.drop F).2 <+: w.contents := by
  obtain ⟨pre, hp⟩ := AnyOut.flushBuf_scripted F w.out
  have hp := hp [] []
  obtain ⟨f1, f2, f3, _⟩ := (w.out.twin [] (pre ++ [])).flush_spec
  rw [hp] at f1 f2 f3
  exact ⟨rfl, f2, ⟨_, f1⟩⟩

/-! ## Streams that keep what they are given -/

section
variable {F} {AtEnd : σ → Prop} {view : σ → Bytes} (hk : Life.Keeps F AtEnd view)
include hk

theorem push_keeps : ∀ (fuel : Nat) (offered : Bytes) (s : σ), offered.length ≤ fuel → AtEnd s →
    (F.push fuel offered s).1 = none ∧ (F.push fuel offered s).2.2.1 = [] ∧ AtEnd (F.push fuel offered s).2.2.2 ∧
    view (F.push fuel offered s).2.2.2 = view s ++ (F.push fuel offered s).2.1
  | 0, offered, s, h, hs => by
    have : offered = [] := List.length_eq_zero_iff.mp (by omega)
    subst this
    exact ⟨rfl, rfl, hs, (List.append_nil _).symm⟩
  | fuel + 1, [], s, h, hs => ⟨rfl, rfl, hs, (List.append_nil _).symm⟩
  | fuel + 1, b :: bs, s, h, hs => by
    obtain ⟨n, s', hw, ha, hv⟩ := hk.write s (b :: bs) hs (by simp)
    obtain ⟨i1, i2, i3, i4⟩ := push_keeps fuel ((b :: bs).drop (n + 1)) s' (by
      rw [List.length_drop]; simp only [List.length_cons] at h ⊢; omega) ha
    have e : F.push (fuel + 1) (b :: bs) s = ((F.push fuel ((b :: bs).drop (n + 1)) s').1,
        (b :: bs).take (n + 1) ++ (F.push fuel ((b :: bs).drop (n + 1)) s').2.1,
        (F.push fuel ((b :: bs).drop (n + 1)) s').2.2.1, (F.push fuel ((b :: bs).drop (n + 1)) s').2.2.2) := by
      rw [Duplex.push, hw]
    rw [e]
    exact ⟨i1, i2, i3, by rw [i4, hv, List.append_assoc]⟩

/-- The stream is at its end, and has what the writer handed on. -/
def HasKept (AtEnd : σ → Prop) (view : σ → Bytes) (base : Bytes) (w : AnyOut σ) : Prop :=
  AtEnd w.str ∧ view w.str = base ++ w.accepted

theorem flushBuf_keeps {base : Bytes} {w : AnyOut σ} (h : HasKept AtEnd view base w) :
    (w.flushBuf F).1 = none ∧ (w.flushBuf F).2.buf = [] ∧ HasKept AtEnd view base (w.flushBuf F).2 := by
  obtain ⟨h1, h2, h3, h4⟩ := push_keeps hk w.buf.length w.buf w.str (Nat.le_refl _) h.1
  exact ⟨h1, h2, h3, by
    show view (F.push w.buf.length w.buf w.str).2.2.2 = base ++ (w.accepted ++ _)
    rw [h4, h.2, List.append_assoc]⟩

theorem writeAll_keeps {base : Bytes} {w : AnyOut σ} (h : HasKept AtEnd view base w) (bs : Bytes) :
    (w.writeAll F bs).1 = none ∧ HasKept AtEnd view base (w.writeAll F bs).2 := by
  have second : ∀ w' : AnyOut σ, HasKept AtEnd view base w' →
      (if bs.length ≥ w'.capacity then
          ((F.push bs.length bs w'.str).1, ({ w' with str := (F.push bs.length bs w'.str).2.2.2, accepted := w'.accepted ++ (F.push bs.length bs w'.str).2.1 } : AnyOut σ))
         else (none, { w' with buf := w'.buf ++ bs })).1 = none ∧
      HasKept AtEnd view base (if bs.length ≥ w'.capacity then
          ((F.push bs.length bs w'.str).1, ({ w' with str := (F.push bs.length bs w'.str).2.2.2, accepted := w'.accepted ++ (F.push bs.length bs w'.str).2.1 } : AnyOut σ))
         else (none, { w' with buf := w'.buf ++ bs })).2 := by
    intro w' h'
    split
    · obtain ⟨h1, h2, h3, h4⟩ := push_keeps hk bs.length bs w'.str (Nat.le_refl _) h'.1
      exact ⟨h1, h3, by
        show view (F.push bs.length bs w'.str).2.2.2 = base ++ (w'.accepted ++ _)
        rw [h4, h'.2, List.append_assoc]⟩
    · exact ⟨rfl, h'⟩
  by_cases h1 : bs.length < w.capacity - w.buf.length
  · rw [show w.writeAll F bs = (none, { w with buf := w.buf ++ bs }) from if_pos h1]
    exact ⟨rfl, h⟩
  · by_cases h2 : bs.length > w.capacity - w.buf.length
    · obtain ⟨f1, _, f3⟩ := flushBuf_keeps hk h
      have e1 : w.writeAll F bs = (match w.flushBuf F with
          | (some kind, w) => (some kind, w)
          | (none, w) => if bs.length ≥ w.capacity then
              ((F.push bs.length bs w.str).1, ({ w with str := (F.push bs.length bs w.str).2.2.2, accepted := w.accepted ++ (F.push bs.length bs w.str).2.1 } : AnyOut σ))
            else (none, { w with buf := w.buf ++ bs })) := by
        refine (if_neg h1).trans ?_
        rw [if_pos h2]
        rfl
      rw [e1]
      generalize w.flushBuf F = x at f1 f3 ⊢
      obtain ⟨r, w'⟩ := x
      dsimp only at f1
      subst f1
      exact second w' f3
    · rw [show w.writeAll F bs = _ from (if_neg h1).trans (by rw [if_neg h2])]
      exact second w h

theorem writePieces_keeps (pieces : List Bytes) : ∀ {base : Bytes} {w : AnyOut σ}, HasKept AtEnd view base w →
    (w.writePieces F pieces).1 = none ∧ HasKept AtEnd view base (w.writePieces F pieces).2 := by
  induction pieces with
  | nil => exact fun h => ⟨rfl, h⟩
  | cons bs pieces ih =>
    intro base w h
    obtain ⟨h1, h2⟩ := writeAll_keeps hk h bs
    have e1 : w.writePieces F (bs :: pieces) = (match w.writeAll F bs with
      | (some kind, w) => (some kind, w)
      | (none, w) => w.writePieces F pieces) := rfl
    rw [e1]
    generalize w.writeAll F bs = x at h1 h2 ⊢
    obtain ⟨r, w'⟩ := x
    dsimp only at h1
    subst h1
    exact ih h2

theorem op_keeps (al : Alloc) (split : Bytes → List Bytes) {base : Bytes} {w : AnyFileWriter σ} (h : HasKept AtEnd view base w.out)
    (op : Op) : HasKept AtEnd view base (Life.run F al split w (.op op)).2.out ∧
    ((Life.run F al split w (.op op)).1 = (op.run al ⟨w.index, []⟩).1) := by
  have hseg : ∀ s, (w.segment F split s).1 = (w.index.addSegment s.1).1.map (fun _ => ()) ∧
      HasKept AtEnd view base (w.segment F split s).2.out := by
    intro s
    obtain ⟨h1, h2⟩ := writePieces_keeps hk (split s.2) h
    have e : w.segment F split s = (match w.out.writePieces F (split s.2) with
      | (some kind, out) => (R.err (.ioError kind), { w with out })
      | (none, out) => ((w.index.addSegment s.1).1.map (fun _ => ()), { index := (w.index.addSegment s.1).2, out })) := rfl
    rw [e]
    generalize w.out.writePieces F (split s.2) = x at h1 h2 ⊢
    obtain ⟨r, w'⟩ := x
    dsimp only at h1
    subst h1
    exact ⟨rfl, h2⟩
  cases op with
  | props e path properties => exact ⟨(hseg _).2, (hseg _).1⟩
  | write e ty chs vals layout =>
    by_cases h1 : chs.length = 0
    · rw [show Life.run F al split w (.op (.write e ty chs vals layout)) = (R.err .noChannels, w) from if_pos h1,
        show (Op.write e ty chs vals layout).run al ⟨w.index, []⟩ = (R.err .noChannels, ⟨w.index, []⟩) from if_pos h1]
      exact ⟨h, rfl⟩
    · by_cases h2 : vals.length % chs.length ≠ 0
      · rw [show Life.run F al split w (.op (.write e ty chs vals layout))
            = (R.err (.badDataBlockLength vals.length chs.length), w) from (if_neg h1).trans (if_pos h2),
          show (Op.write e ty chs vals layout).run al ⟨w.index, []⟩
            = (R.err (.badDataBlockLength vals.length chs.length), ⟨w.index, []⟩) from (if_neg h1).trans (if_pos h2)]
        exact ⟨h, rfl⟩
      · rw [show Life.run F al split w (.op (.write e ty chs vals layout)) = _ from (if_neg h1).trans (if_neg h2),
          show (Op.write e ty chs vals layout).run al ⟨w.index, []⟩ = _ from (if_neg h1).trans (if_neg h2)]
        exact ⟨(hseg _).2, (hseg _).1⟩

theorem sync_keeps {base : Bytes} {w : AnyFileWriter σ} (h : HasKept AtEnd view base w.out) :
    (w.sync F).1 = .ok () ∧ HasKept AtEnd view base (w.sync F).2.out := by
  obtain ⟨f1, _, f3⟩ := flushBuf_keeps hk h
  have e1 : w.sync F = (match (match w.out.flushBuf F with
      | (some kind, w) => (some kind, w)
      | (none, w) => ((F.flush w.str).1, { w with str := (F.flush w.str).2 }) : Option IoKind × AnyOut σ) with
    | (some kind, out) => (R.err (.ioError kind), { w with out })
    | (none, out) => (.ok (), { w with out })) := rfl
  rw [e1]
  generalize w.out.flushBuf F = x at f1 f3 ⊢
  obtain ⟨r, w'⟩ := x
  dsimp only at f1
  subst f1
  obtain ⟨s', hf, ha, hv⟩ := hk.flush w'.str f3.1
  dsimp only
  rw [hf]
  exact ⟨rfl, ha, hv.trans f3.2⟩

end

end Tedium
