import Verif.Spec.Faults
import Verif.Proofs.History

/-! # The buffered writer over a fallible stream -/

namespace Tedium

theorem Stream.push_spec (offered : Bytes) (script : List WriteOutcome) : ∀ disk : Bytes,
    ∃ done, offered = done ++ (Stream.push disk offered script).2.1 ∧
      (Stream.push disk offered script).2.2.disk = disk ++ done ∧
      ((Stream.push disk offered script).1 = none → (Stream.push disk offered script).2.1 = []) := by
  induction script generalizing offered with
  | nil =>
    intro disk
    cases offered with
    | nil => exact ⟨[], rfl, (List.append_nil _).symm, fun _ => rfl⟩
    | cons b bs => exact ⟨b :: bs, (List.append_nil _).symm, rfl, fun _ => rfl⟩
  | cons o script ih =>
    intro disk
    cases offered with
    | nil => exact ⟨[], rfl, (List.append_nil _).symm, fun _ => rfl⟩
    | cons b bs =>
      cases o with
      | interrupted => exact ih (b :: bs) disk
      | fail kind => exact ⟨[], rfl, (List.append_nil _).symm, nofun⟩
      | accept n =>
        cases n with
        | zero => exact ⟨[], rfl, (List.append_nil _).symm, nofun⟩
        | succ n =>
          obtain ⟨done, h1, h2, h3⟩ := ih ((b :: bs).drop (n + 1)) (disk ++ (b :: bs).take (n + 1))
          refine ⟨(b :: bs).take (n + 1) ++ done, ?_, ?_, h3⟩
          · refine (List.take_append_drop (n + 1) (b :: bs)).symm.trans ?_
            rw [List.append_assoc]
            exact congrArg _ h1
          · exact h2.trans (List.append_assoc _ _ _)

namespace BufWriter

/-- What the file will hold when the buffer has been passed on. -/
def contents (w : BufWriter) : Bytes := w.stream.disk ++ w.buf

theorem flush_spec (w : BufWriter) :
    w.flush.2.contents = w.contents ∧ w.stream.disk <+: w.flush.2.stream.disk ∧
    (w.flush.1 = none → w.flush.2.buf = []) ∧ w.flush.2.capacity = w.capacity := by
  obtain ⟨done, h1, h2, h3⟩ := Stream.push_spec w.buf w.stream.script w.stream.disk
  refine ⟨?_, ⟨done, h2.symm⟩, h3, rfl⟩
  show (Stream.push w.stream.disk w.buf w.stream.script).2.2.disk ++ (Stream.push w.stream.disk w.buf w.stream.script).2.1
    = w.stream.disk ++ w.buf
  rw [h2, List.append_assoc, ← h1]

/-- The effect of writing `bs`: nothing that was on the stream changes, success appends `bs`, an error
    appends a part of it. -/
structure Appends (w : BufWriter) (bs : Bytes) (r : Option IoKind × BufWriter) : Prop where
  disk : w.stream.disk <+: r.2.stream.disk
  ok : r.1 = none → r.2.contents = w.contents ++ bs
  failed : r.1 ≠ none → ∃ done, done <+: bs ∧ r.2.contents = w.contents ++ done

theorem push_appends (w : BufWriter) (hbuf : w.buf = []) (bs : Bytes) :
    Appends w bs ((Stream.push w.stream.disk bs w.stream.script).1,
      { w with stream := (Stream.push w.stream.disk bs w.stream.script).2.2 }) := by
  obtain ⟨done, h1, h2, h3⟩ := Stream.push_spec bs w.stream.script w.stream.disk
  have hc : ∀ s : Stream, contents { w with stream := s } = s.disk := by
    intro s; show s.disk ++ w.buf = s.disk; rw [hbuf, List.append_nil]
  refine ⟨⟨done, h2.symm⟩, fun h => ?_, fun _ => ⟨done, ⟨_, h1.symm⟩, ?_⟩⟩
  · rw [hc, h2, show w.contents = w.stream.disk from hc w.stream]
    congr 1
    rw [h1, h3 h, List.append_nil]
  · rw [hc, h2, show w.contents = w.stream.disk from hc w.stream]

theorem writeAll_appends (w : BufWriter) (bs : Bytes) : Appends w bs (w.writeAll bs) := by
  have keep : ∀ w' : BufWriter, w.stream.disk <+: w'.stream.disk → w'.contents = w.contents →
      Appends w bs (none, { w' with buf := w'.buf ++ bs }) := by
    intro w' h1 h2
    refine ⟨h1, fun _ => ?_, fun h => absurd rfl h⟩
    rw [← h2]
    exact (List.append_assoc _ _ _).symm
  unfold writeAll
  split
  · exact keep w List.prefix_rfl rfl
  · rename_i hlt
    obtain ⟨f1, f2, f3, f4⟩ := w.flush_spec
    split
    · rename_i kind w' heq
      split at heq
      · rw [Prod.ext_iff] at heq
        refine ⟨heq.2 ▸ f2, nofun, fun _ => ⟨[], List.nil_prefix, ?_⟩⟩
        rw [List.append_nil, ← f1, heq.2]
      · cases heq
    · rename_i w' heq
      have hw : w.stream.disk <+: w'.stream.disk ∧ w'.contents = w.contents ∧
          (bs.length ≥ w'.capacity → w'.buf = [] ∨ bs = []) := by
        split at heq
        · rw [Prod.ext_iff] at heq
          obtain ⟨h1, h2⟩ := heq
          dsimp only at h1 h2
          rw [← h2]
          exact ⟨f2, f1, fun _ => Or.inl (f3 h1)⟩
        · rename_i hgt
          cases heq
          refine ⟨List.prefix_rfl, rfl, fun hcap => ?_⟩
          rcases Nat.eq_zero_or_pos w.buf.length with h0 | h0
          · exact Or.inl (List.length_eq_zero_iff.mp h0)
          · exact Or.inr (List.length_eq_zero_iff.mp (by omega))
      obtain ⟨h1, h2, h3⟩ := hw
      split
      · rename_i hcap
        rcases h3 hcap with hb | hb
        · have := push_appends w' hb bs
          refine ⟨h1.trans this.disk, fun h => h2 ▸ this.ok h, fun h => h2 ▸ this.failed h⟩
        · subst hb
          have hp : ∀ d s, Stream.push d [] s = (none, [], ⟨d, s⟩) := by
            intro d s; cases s <;> rfl
          rw [hp]
          exact ⟨h1, fun _ => (List.append_nil w.contents).symm ▸ h2, fun h => absurd rfl h⟩
      · exact keep w' h1 h2

theorem writePieces_appends (pieces : List Bytes) : ∀ w : BufWriter,
    Appends w pieces.flatten (w.writePieces pieces) := by
  induction pieces with
  | nil => intro w; exact ⟨List.prefix_rfl, fun _ => (List.append_nil _).symm, fun h => absurd rfl h⟩
  | cons bs pieces ih =>
    intro w
    have h := w.writeAll_appends bs
    unfold writePieces
    split
    · rename_i kind w' heq
      rw [heq] at h
      obtain ⟨done, h1, h2⟩ := h.failed nofun
      exact ⟨h.disk, nofun, fun _ => ⟨done, h1.trans (List.prefix_append _ _), h2⟩⟩
    · rename_i w' heq
      rw [heq] at h
      have hc : w'.contents = w.contents ++ bs := h.ok rfl
      have h' := ih w'
      refine ⟨h.disk.trans h'.disk, fun hr => ?_, fun hr => ?_⟩
      · rw [h'.ok hr, hc, List.append_assoc]; rfl
      · obtain ⟨done, h1, h2⟩ := h'.failed hr
        refine ⟨bs ++ done, ?_, ?_⟩
        · obtain ⟨x, hx⟩ := h1
          exact ⟨x, by rw [List.append_assoc, hx]; rfl⟩
        · rw [h2, hc, List.append_assoc]

end BufWriter

namespace Faults

/-- The writer is where a writer over a perfect stream would be. -/
def Agrees (t : TdmsFile) (w : FileWriter) : Prop := w.index = t.index ∧ w.out.contents = t.bytes

/-- The effect of a write: as on a perfect stream, or an I/O error after a part of the bytes. -/
inductive Outcome (t : TdmsFile) (perfect : R Unit × TdmsFile) (w : FileWriter) (r : R Unit × FileWriter) : Prop
  | done : w.out.stream.disk <+: r.2.out.stream.disk → r.1 = perfect.1 → Agrees perfect.2 r.2 → Outcome t perfect w r
  | failed (kind : IoKind) (part : Bytes) : w.out.stream.disk <+: r.2.out.stream.disk →
      r.1 = R.err (.ioError kind) → r.2.index = t.index → r.2.out.contents = t.bytes ++ part →
      t.bytes ++ part <+: perfect.2.bytes → Outcome t perfect w r

theorem segment_outcome {split : Bytes → List Bytes} (hs : ∀ b, (split b).flatten = b) {t : TdmsFile}
    {w : FileWriter} (h : Agrees t w) (s : Segment × Bytes) :
    Outcome t ((t.index.addSegment s.1).1.map (fun _ => ()), ⟨(t.index.addSegment s.1).2, t.bytes ++ s.2⟩) w
      (w.segment split s) := by
  have ha := BufWriter.writePieces_appends (split s.2) w.out
  rw [hs] at ha
  obtain ⟨hi, hb⟩ := h
  unfold FileWriter.segment
  split
  · rename_i kind out heq
    rw [heq] at ha
    obtain ⟨part, h1, h2⟩ := ha.failed nofun
    refine .failed kind part ha.disk rfl hi (hb ▸ h2) ?_
    obtain ⟨x, hx⟩ := h1
    exact ⟨x, by rw [List.append_assoc, hx]⟩
  · rename_i out heq
    rw [heq] at ha
    refine .done ha.disk ?_ ⟨?_, hb ▸ ha.ok rfl⟩
    · rw [hi]
    · rw [← hi]

theorem write_outcome (al : Alloc) {split : Bytes → List Bytes} (hs : ∀ b, (split b).flatten = b) {t : TdmsFile}
    {w : FileWriter} (h : Agrees t w) (op : Op) :
    Outcome t (op.run al t) w (run al split w (.op op)) := by
  cases op with
  | props e path properties =>
    exact segment_outcome hs h (writeSegment e {}
      (some { objects := [{ path := path.path, properties, rawDataIndex := .none }] }) none)
  | write e ty channels vals layout =>
    show Outcome t (t.writeChannels (ty.storage al) e channels vals layout) w
      (w.writeChannels (ty.storage al) split e channels vals layout)
    unfold TdmsFile.writeChannels FileWriter.writeChannels
    split
    · exact .done List.prefix_rfl rfl h
    · split
      · exact .done List.prefix_rfl rfl h
      · have := segment_outcome hs h (writeSegment e
          { containsNewObjectList := !(t.index.checkWriteValues ((channels.map ChannelPath.path).zip
              (TdmsFile.dataStructure (ty.storage al) vals channels.length))).1,
            dataIsInterleaved := layout = .interleaved }
          (if (t.index.checkWriteValues ((channels.map ChannelPath.path).zip
              (TdmsFile.dataStructure (ty.storage al) vals channels.length))).1 then none
           else some { objects := (t.index.checkWriteValues ((channels.map ChannelPath.path).zip
              (TdmsFile.dataStructure (ty.storage al) vals channels.length))).2.map (fun (p, i) =>
                { path := p, properties := [], rawDataIndex := i }) })
          (some (TdmsFile.sliceData (ty.storage al) e vals)))
        dsimp only
        rw [h.1]
        exact this

theorem sync_outcome {t : TdmsFile} {w : FileWriter} (h : Agrees t w) :
    Agrees t w.sync.2 ∧ w.out.stream.disk <+: w.sync.2.out.stream.disk ∧
    (w.sync.1 = .ok () → w.sync.2.out.stream.disk = t.bytes) ∧ (w.sync.1 ≠ .ok () → IsIoError w.sync.1) := by
  obtain ⟨f1, f2, f3, f4⟩ := w.out.flush_spec
  have hb := h.2
  unfold FileWriter.sync
  split
  · rename_i kind out heq
    rw [heq] at f1 f2
    exact ⟨⟨h.1, f1.trans hb⟩, f2, nofun, fun _ => ⟨kind, rfl⟩⟩
  · rename_i out heq
    rw [heq] at f1 f2 f3
    refine ⟨⟨h.1, f1.trans hb⟩, f2, fun _ => ?_, fun h => absurd rfl h⟩
    have := f1.trans hb
    rw [BufWriter.contents, f3 rfl, List.append_nil] at this
    exact this

theorem drop_outcome (w : FileWriter) :
    w.drop.index = w.index ∧ w.out.stream.disk <+: w.drop.bytes ∧ w.drop.bytes <+: w.out.contents := by
  obtain ⟨f1, f2, f3, f4⟩ := w.out.flush_spec
  exact ⟨rfl, f2, ⟨_, f1⟩⟩

theorem after_append (al : Alloc) (split : Bytes → List Bytes) (w : FileWriter) (a b : List Call) :
    after al split w (a ++ b) = after al split (after al split w a) b := List.foldl_append

theorem writes_append (a b : List Call) : writes (a ++ b) = writes a ++ writes b := by
  induction a with
  | nil => rfl
  | cons c a ih => cases c <;> simp [writes, ih]

/-- A stream without faults: its calls accept something or are interrupted. -/
def Sound (script : List WriteOutcome) : Prop := ∀ o ∈ script, o = .interrupted ∨ ∃ n, o = .accept (n + 1)

theorem push_sound (script : List WriteOutcome) (h : Sound script) : ∀ (offered disk : Bytes),
    (Stream.push disk offered script).1 = none ∧ Sound (Stream.push disk offered script).2.2.script := by
  induction script with
  | nil =>
    intro offered disk
    cases offered with
    | nil => exact ⟨rfl, h⟩
    | cons b bs => exact ⟨rfl, h⟩
  | cons o script ih =>
    intro offered disk
    have hs : Sound script := fun o ho => h o (List.mem_cons_of_mem _ ho)
    cases offered with
    | nil => exact ⟨rfl, h⟩
    | cons b bs =>
      rcases h o List.mem_cons_self with rfl | ⟨n, rfl⟩
      · exact ih hs (b :: bs) disk
      · exact ih hs _ _

theorem flush_sound (w : BufWriter) (h : Sound w.stream.script) :
    w.flush.1 = none ∧ Sound w.flush.2.stream.script := push_sound _ h _ _

theorem writeAll_sound (w : BufWriter) (h : Sound w.stream.script) (bs : Bytes) :
    (w.writeAll bs).1 = none ∧ Sound (w.writeAll bs).2.stream.script := by
  unfold BufWriter.writeAll
  split
  · exact ⟨rfl, h⟩
  · obtain ⟨f1, f2⟩ := flush_sound w h
    split
    · rename_i kind w' heq
      split at heq
      · rw [heq] at f1; cases f1
      · cases heq
    · rename_i w' heq
      have hw : Sound w'.stream.script := by
        split at heq
        · rw [heq] at f2; exact f2
        · cases heq; exact h
      split
      · exact push_sound _ hw _ _
      · exact ⟨rfl, hw⟩

theorem writePieces_sound (pieces : List Bytes) : ∀ (w : BufWriter), Sound w.stream.script →
    (w.writePieces pieces).1 = none ∧ Sound (w.writePieces pieces).2.stream.script := by
  induction pieces with
  | nil => intro w h; exact ⟨rfl, h⟩
  | cons bs pieces ih =>
    intro w h
    obtain ⟨h1, h2⟩ := writeAll_sound w h bs
    unfold BufWriter.writePieces
    split
    · rename_i kind w' heq; rw [heq] at h1; cases h1
    · rename_i w' heq; rw [heq] at h2; exact ih w' h2

end Faults
end Tedium
