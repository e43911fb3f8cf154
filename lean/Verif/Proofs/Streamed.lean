import Verif.Spec.Streamed
import Verif.Proofs.Library
import Verif.Props.Handle
import Verif.Props.Faults

/-! # Helper lemmas: programs over a stream -/

namespace Tedium
open SegSpec WriteSpec Faults

namespace Library

theorem segment_sound (split : Bytes → List Bytes) {w : FileWriter} (h : Sound w.out.stream.script) (s : Segment × Bytes) :
    (w.segment split s).1 = (w.index.addSegment s.1).1.map (fun _ => ()) ∧
      Sound (w.segment split s).2.out.stream.script := by
  obtain ⟨p1, p2⟩ := writePieces_sound (split s.2) w.out h
  unfold FileWriter.segment
  split
  · rename_i heq; rw [heq] at p1; cases p1
  · rename_i heq; rw [heq] at p2; exact ⟨rfl, p2⟩

/-- One write over a stream whose writes do not fail. -/
theorem op_sound (al : Alloc) {split : Bytes → List Bytes} (hs : ∀ b, (split b).flatten = b) {t : TdmsFile} {w : FileWriter}
    (ht : Session al t) (ha : Agrees t w) (h : Sound w.out.stream.script) (op : Op) :
    (run al split w (.op op)).1 = (op.run al t).1 ∧ Agrees (op.run al t).2 (run al split w (.op op)).2 ∧
      Sound (run al split w (.op op)).2.out.stream.script := by
  have hop : Sound (run al split w (.op op)).2.out.stream.script := by
    cases op with
    | props e path properties => exact (segment_sound split h _).2
    | write e ty chs vals layout =>
      show Sound (w.writeChannels (ty.storage al) split e chs vals layout).2.out.stream.script
      unfold FileWriter.writeChannels
      split
      · exact h
      · split
        · exact h
        · exact (segment_sound split h _).2
  rcases write_outcome al hs ha op with ⟨h1, h2, h3⟩ | ⟨kind, part, h1, h2, h3, h4, h5⟩
  · exact ⟨h2, h3, hop⟩
  · exfalso
    have hk : ∀ s, (w.segment split s).1 ≠ R.err (.ioError kind) := by
      intro s hh
      rw [(segment_sound split h s).1, ha.1] at hh
      rcases (ht.reach.inv.addSegment s.1).2 with ⟨n, hn, _⟩ | ⟨er, he, hse, _⟩
      · rw [hn] at hh; cases hh
      · rw [he] at hh
        injection hh with hh
        subst hh
        cases hse with | raw _ hr => cases hr
    cases op with
    | props e path properties => exact hk _ h2
    | write e ty chs vals layout =>
      change (w.writeChannels (ty.storage al) split e chs vals layout).1 = _ at h2
      unfold FileWriter.writeChannels at h2
      split at h2
      · cases h2
      · split at h2
        · cases h2
        · exact hk _ h2

theorem sync_sound {t : TdmsFile} {w : FileWriter} (ha : Agrees t w) (h : Sound w.out.stream.script) :
    w.sync.1 = .ok () ∧ Agrees t w.sync.2 ∧ Sound w.sync.2.out.stream.script := by
  obtain ⟨f1, f2⟩ := flush_sound w.out h
  refine ⟨?_, (sync_outcome ha).1, ?_⟩
  · unfold FileWriter.sync
    split
    · rename_i heq; rw [heq] at f1; cases f1
    · rfl
  · unfold FileWriter.sync
    split <;> (rename_i heq; rw [heq] at f2; exact f2)

theorem drop_sound {t : TdmsFile} {w : FileWriter} (ha : Agrees t w) (h : Sound w.out.stream.script) : w.drop = t := by
  obtain ⟨f1, _, f3, _⟩ := w.out.flush_spec
  have hb : w.out.drop = t.bytes := by
    have h1 := f1.trans ha.2
    unfold BufWriter.contents at h1
    rw [f3 (flush_sound w.out h).1, List.append_nil] at h1
    exact h1
  unfold FileWriter.drop
  rw [hb, ha.1]

/-- The programs with `Q` take the file through the states `state` and the store through `store`. -/
structure Course (al : Alloc) (Q : List Command → Prop) (state : List Command → TdmsFile) (store : List Command → Store) : Prop where
  sessions : ∀ past, Session al (state past)
  size : ∀ past rest, Q (past ++ rest) → (state past).bytes.length < 2 ^ 63
  command : ∀ past cmd cmds, Q (past ++ cmd :: cmds) → (store past).Replies al cmd (cmd.run al (state past)).1 ∧
    (cmd.run al (state past)).2 = state (past ++ [cmd]) ∧ (store past).next cmd = store (past ++ [cmd])

theorem new_course (al : Alloc) : Course al (Proper al ⟨Index.new, []⟩) (fun past => runOps al ⟨Index.new, []⟩ (calls past))
    (fun past => storeOf (calls past)) where
  sessions past := (Session.created (al := al) rfl).runOps _
  size past rest h := by
    have := h.size
    rw [calls_append, runOps_append] at this
    exact Nat.lt_of_le_of_lt (runOps_bytes al _ _).length_le this
  command := command_from al

/-- The calls of a session. -/
theorem session_from {al : Alloc} {Q : List Command → Prop} {state : List Command → TdmsFile} {store : List Command → Store}
    (C : Course al Q state store) {split : Bytes → List Bytes} (hs : ∀ b, (split b).flatten = b) :
    ∀ (cs : List Call) (past rest : List Command) (w : FileWriter),
    Q (past ++ ((writes cs).map Command.call ++ rest)) → Agrees (state past) w →
    Sound w.out.stream.script →
    (FileWriter.calls al split w cs).1 = ((store past).session cs).1 ∧
    (FileWriter.calls al split w cs).2.drop = state (past ++ (writes cs).map Command.call) ∧
    ((store past).session cs).2 = store ((past ++ (writes cs).map Command.call))
  | [], past, rest, w, _, ha, h => by
    refine ⟨rfl, ?_, ?_⟩
    · show w.drop = state (past ++ [])
      rw [List.append_nil]
      exact drop_sound ha h
    · show store past = store ((past ++ []))
      rw [List.append_nil]
  | .sync :: cs, past, rest, w, hp, ha, h => by
    obtain ⟨h1, h2, h3⟩ := sync_sound ha h
    obtain ⟨i1, i2, i3⟩ := session_from C hs cs past rest w.sync.2 hp h2 h3
    refine ⟨?_, i2, i3⟩
    show w.sync.1 :: (FileWriter.calls al split w.sync.2 cs).1 = _
    rw [h1, i1]
    rfl
  | .op op :: cs, past, rest, w, hp, ha, h => by
    obtain ⟨h1, h2, h3⟩ := op_sound al hs (C.sessions past) ha h op
    obtain ⟨c1, c2, c3⟩ := C.command past (.call op) ((writes cs).map Command.call ++ rest) hp
    have hst : (op.run al (state past)).2 = state (past ++ [.call op]) := c2
    rw [hst] at h2
    have hp' : Q ((past ++ [.call op]) ++ ((writes cs).map Command.call ++ rest)) := by
      rw [List.append_assoc]; exact hp
    obtain ⟨i1, i2, i3⟩ := session_from C hs cs (past ++ [.call op]) rest (run al split w (.op op)).2 hp' h2 h3
    have hap : past ++ (writes (.op op :: cs)).map Command.call = past ++ [.call op] ++ (writes cs).map Command.call := by
      rw [List.append_assoc]; rfl
    have hnext : ((store past).call op).2 = store ((past ++ [.call op])) := c3
    have hrep : (op.run al (state past)).1.map (fun _ => Reply.done) = ((store past).call op).1 := c1
    rw [hap]
    refine ⟨?_, i2, ?_⟩
    · show (run al split w (.op op)).1 :: (FileWriter.calls al split (run al split w (.op op)).2 cs).1
        = ((store past).call op).1.map (fun _ => ()) :: (((store past).call op).2.session cs).1
      rw [hnext, i1, h1, ← hrep]
      congr 1
      cases (op.run al (state past)).1 <;> rfl
    · show (((store past).call op).2.session cs).2 = _
      rw [hnext]
      exact i3

theorem query_on (al : Alloc) (capacity : Nat) {h : Handle} (hs : StartsFit h.index) (hl : h.dev.bytes.length < 2 ^ 64) (q : Query) :
    (q.runOn al capacity h).2.file = h.file ∧
    ((q.runOn al capacity h).1 = q.run al h.file ∨
      ∃ kind, Reports h.dev.script kind ∧ (q.runOn al capacity h).1 = R.err (.ioError kind)) := by
  cases q with
  | read ty c start out =>
    obtain ⟨h1, used, h2, h3, h4⟩ := h.readChannelFrom_ran al capacity ty hs hl c start out
    refine ⟨?_, ?_⟩
    · show (⟨(h.readChannelFrom al capacity ty c start out).2.index,
        (h.readChannelFrom al capacity ty c start out).2.dev.bytes⟩ : TdmsFile) = ⟨h.index, h.dev.bytes⟩
      rw [h1]
      exact congrArg _ h3
    · rcases h4 with h4 | ⟨k, hk, he⟩
      · exact Or.inl (congrArg (·.map (Reply.samples ty)) h4.2)
      · exact Or.inr ⟨k, ⟨used, _, h2, hk⟩, congrArg (·.map (Reply.samples ty)) he⟩
  | readMany ty cs start =>
    obtain ⟨h1, used, h2, h3, h4⟩ := h.readChannelsFrom_ran al capacity ty hs hl (cs.map (·.1)) start (cs.map (·.2))
    refine ⟨?_, ?_⟩
    · show (⟨(h.readChannelsFrom al capacity ty (cs.map (·.1)) start (cs.map (·.2))).2.index,
        (h.readChannelsFrom al capacity ty (cs.map (·.1)) start (cs.map (·.2))).2.dev.bytes⟩ : TdmsFile) = ⟨h.index, h.dev.bytes⟩
      rw [h1]
      exact congrArg _ h3
    · rcases h4 with h4 | ⟨k, hk, he⟩
      · exact Or.inl (congrArg (·.map (Reply.samplesMany ty)) h4.2)
      · exact Or.inr ⟨k, ⟨used, _, h2, hk⟩, congrArg (·.map (Reply.samplesMany ty)) he⟩
  | property path n => exact ⟨rfl, Or.inl rfl⟩
  | properties path => exact ⟨rfl, Or.inl rfl⟩
  | length c => exact ⟨rfl, Or.inl rfl⟩
  | groups => exact ⟨rfl, Or.inl rfl⟩
  | channels g => exact ⟨rfl, Or.inl rfl⟩

theorem query_index (al : Alloc) (capacity : Nat) {h : Handle} (q : Query)
    (hf : (q.runOn al capacity h).2.file = h.file) : (q.runOn al capacity h).2.index = h.index :=
  congrArg TdmsFile.index hf

theorem new_reliable (al : Alloc) (capacity : Nat) (d : Device) (hl : d.bytes.length < 2 ^ 64) (hn : NoFailure d.script)
    {t : TdmsFile} (ht : TdmsFile.new al d.bytes = .ok t) :
    ∃ h, Handle.new al capacity d = .ok h ∧ h.file = t := by
  have hh := handle_history al (fun b => [b]) capacity d hl hn []
  rw [ht] at hh
  have hb : t.bytes = d.bytes := by
    unfold TdmsFile.new at ht
    cases hx : Tedium.buildIndex al d.bytes with
    | error e => rw [hx] at ht; cases ht
    | ok ix => rw [hx] at ht; cases ht; rfl
  obtain ⟨h, h1, _, h3, h4⟩ := hh (by
    show t.bytes.length < 2 ^ 64
    rw [hb]; exact hl)
  refine ⟨h, h1, ?_⟩
  unfold Handle.file
  rw [show h.index = t.index from h3, show h.dev.bytes = t.bytes from h4]

/-- A program over a stream, whose first commands have been run, goes on as the store says. -/
theorem stream_from {al : Alloc} {Q : List Command → Prop} {state : List Command → TdmsFile} {store : List Command → Store}
    (C : Course al Q state store) {split : Bytes → List Bytes} (hs : ∀ b, (split b).flatten = b) (capacity : Nat) :
    ∀ (steps : List StreamStep) (past : List Command) (h : Handle), h.file = state past → StartsFit h.index →
    (∀ step ∈ steps, step.Reliable) →
    Q (past ++ (streamReplies al split capacity h steps).flatMap effect) →
    StreamBehaves al (store past) (streamReplies al split capacity h steps)
  | [], _, _, _, _, _, _ => trivial
  | ⟨reads, command⟩ :: steps, past, h, hf, hst, hr, hp => by
    have hl : h.dev.bytes.length < 2 ^ 64 := by
      have := C.size _ _ hp
      rw [← hf] at this
      exact Nat.lt_trans this (by decide)
    have hrel : StreamStep.Reliable ⟨reads, command⟩ := hr _ List.mem_cons_self
    have hrest : ∀ step ∈ steps, step.Reliable := fun s h => hr s (List.mem_cons_of_mem _ h)
    have hon : (onStream h reads).file = state past := hf
    unfold streamReplies at hp ⊢
    rw [List.flatMap_cons] at hp
    cases command with
    | session wc writes cs =>
      have hrun : StreamStep.run al split capacity h ⟨reads, .session wc writes cs⟩ =
          (.session ((onStream h reads).session al split wc writes cs).1, ((onStream h reads).session al split wc writes cs).2) := rfl
      have hev : StartsFit ((onStream h reads).session al split wc writes cs).2.index :=
        event_startsFit al split capacity (h := onStream h reads) hst (.write wc writes cs)
      rw [hrun] at hp ⊢
      dsimp only at hp ⊢
      obtain ⟨used, h1, h2⟩ := (onStream h reads).session_spec al split wc writes cs
      rcases h2 with ⟨k, hk, he, hfile⟩ | ⟨_, he, hfile⟩
      · rw [he] at hp ⊢
        refine Or.inl ⟨k, ⟨used, _, h1, hk⟩, rfl, ?_⟩
        exact stream_from C hs capacity steps past _ (hfile.trans hon) hev hrest hp
      · rw [he] at hp ⊢
        have hp1 : Q (past ++ ((Faults.writes cs).map Command.call ++
          (streamReplies al split capacity ((onStream h reads).session al split wc writes cs).2 steps).flatMap effect)) := hp
        obtain ⟨s1, s2, s3⟩ := session_from C hs cs past _ ((onStream h reads).file.writer wc writes) hp1
          (hon ▸ agrees_writer _ wc writes) hrel
        refine Or.inr ⟨?_, ?_⟩
        · rw [s1]
        · rw [s3]
          refine stream_from C hs capacity steps _ _ (hfile.trans s2) hev hrest ?_
          rw [List.append_assoc]; exact hp1
    | ask q =>
      have hrun : StreamStep.run al split capacity h ⟨reads, .ask q⟩ =
          (.ask (q.runOn al capacity (onStream h reads)).1, (q.runOn al capacity (onStream h reads)).2) := rfl
      rw [hrun] at hp ⊢
      dsimp only at hp ⊢
      obtain ⟨q1, q2⟩ := query_on al capacity (h := onStream h reads) hst hl q
      have hp1 : Q (past ++ .ask q ::
        (streamReplies al split capacity (q.runOn al capacity (onStream h reads)).2 steps).flatMap effect) := hp
      obtain ⟨c1, c2, c3⟩ := C.command past (.ask q) _ hp1
      refine ⟨?_, ?_⟩
      · rcases q2 with q2 | ⟨k, hk, he⟩
        · refine Or.inr ?_
          rw [q2, hon]
          exact c1
        · exact Or.inl ⟨k, hk, he⟩
      · have hsame : store past = store ((past ++ [.ask q])) := c3
        have hstate : state past = state (past ++ [.ask q]) := c2
        rw [hsame]
        refine stream_from C hs capacity steps _ _ ((q1.trans hon).trans hstate) ?_ hrest ?_
        · rw [query_index al capacity q q1]; exact hst
        · rw [List.append_assoc]; exact hp1
    | reopen position =>
      have hp1 : Q (past ++ .reopen ::
        (streamReplies al split capacity (StreamStep.run al split capacity h ⟨reads, .reopen position⟩).2 steps).flatMap effect) := by
        have hcmd : effect ((⟨reads, .reopen position⟩ : StreamStep), (StreamStep.run al split capacity h ⟨reads, .reopen position⟩).1)
            = [.reopen] := rfl
        rw [hcmd] at hp
        exact hp
      obtain ⟨c1, c2, c3⟩ := C.command past .reopen _ hp1
      have hnew : TdmsFile.new al h.dev.bytes = .ok (state (past ++ [.reopen])) := by
        have c1' : (Command.reopen.run al (state past)).1 = .ok .done := c1
        have c2' : (Command.reopen.run al (state past)).2 = state (past ++ [.reopen]) := c2
        rw [← hf] at c1' c2'
        unfold Command.run at c1' c2'
        cases hx : TdmsFile.new al h.dev.bytes with
        | error e =>
          rw [show h.file.bytes = h.dev.bytes from rfl, hx] at c1'
          cases c1'
        | ok t =>
          rw [show h.file.bytes = h.dev.bytes from rfl, hx] at c2'
          exact congrArg _ c2'
      obtain ⟨h', n1, n2⟩ := new_reliable al capacity ⟨h.dev.bytes, position, reads⟩ hl hrel hnew
      have hrun : StreamStep.run al split capacity h ⟨reads, .reopen position⟩ = (.reopen (.ok ()), h') := by
        unfold StreamStep.run
        dsimp only
        rw [n1]
      rw [hrun] at hp1 ⊢
      refine ⟨rfl, ?_⟩
      have hsame : store past = store ((past ++ [.reopen])) := c3
      rw [hsame]
      refine stream_from C hs capacity steps _ h' n2 (opened_startsFit n1) hrest ?_
      rw [List.append_assoc]; exact hp1

end Library
end Tedium
