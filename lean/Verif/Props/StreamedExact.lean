import Verif.Props.WatcherOnExact
import Verif.Props.Streamed

/-! # C89: which histories are safe over a stream, exactly -/

namespace Tedium
open SegSpec WriteSpec Library

namespace Library

/-- The calls of one writer, over a stream whose writes do not fail. -/
theorem calls_sound (al : Alloc) {split : Bytes → List Bytes} (hs : ∀ b, (split b).flatten = b) : ∀ (ops : List Op) (t : TdmsFile) (w : FileWriter),
    Session al t → Faults.Agrees t w → Faults.Sound w.out.stream.script →
    (FileWriter.calls al split w (ops.map Call.op)).2.drop = runOps al t ops
  | [], _, _, _, ha, h => drop_sound ha h
  | op :: ops, t, w, ht, ha, h => by
    obtain ⟨_, h2, h3⟩ := op_sound al hs ht ha h op
    exact calls_sound al hs ops (op.run al t).2 _ (ht.runOps [op]) h2 h3

theorem session_ops (s : Store) : ∀ (ops : List Op), (∀ op ∈ ops, Accepted op = true) → (s.session (ops.map Call.op)).2 = ops.foldl Store.after s := by
  intro ops
  induction ops generalizing s with
  | nil => exact fun _ => rfl
  | cons op ops ih =>
    intro ha
    show ((s.call op).2.session (ops.map Call.op)).2 = ops.foldl Store.after (s.after op)
    rw [accepted_call s op (ha op List.mem_cons_self)]
    exact ih _ fun o ho => ha o (List.mem_cons_of_mem _ ho)

theorem writes_ops : ∀ ops : List Op, Faults.writes (ops.map Call.op) = ops
  | [] => rfl
  | op :: ops => congrArg (op :: ·) (writes_ops ops)

/-- A program that makes the calls with one writer, opens the file again and asks, over a stream that does all that is asked of it. -/
def writeAndAsk (ops : List Op) (q : Query) : List StreamStep :=
  [⟨[], .session 0 [] (ops.map Call.op)⟩, ⟨[], .reopen 0⟩, ⟨[], .ask q⟩]

/-- What the library does in this program. -/
theorem writeAndAsk_trace (al : Alloc) {split : Bytes → List Bytes} (hs : ∀ b, (split b).flatten = b) (capacity : Nat) {t : TdmsFile}
    (ht : Session al t) {h : Handle} (hf : h.file = t) (ops : List Op) (c : ChannelPath)
    (hsz : (runOps al t ops).bytes.length < 2 ^ 64) :
    ∃ rs r q, streamReplies al split capacity h (writeAndAsk ops (.length c))
        = [(⟨[], .session 0 [] (ops.map Call.op)⟩, .session (.ok rs)), (⟨[], .reopen 0⟩, .reopen r), (⟨[], .ask (.length c)⟩, .ask q)] ∧
      (r = .ok () → ∃ t', TdmsFile.new al (runOps al t ops).bytes = .ok t' ∧ q = (Query.length c).run al t') := by
  obtain ⟨used, h1, h2⟩ := (onStream h []).session_spec al split 0 [] (ops.map Call.op)
  have hu : used = [] := (List.append_eq_nil_iff.mp h1.symm).1
  rcases h2 with ⟨k, hk, _⟩ | ⟨_, he, hfile⟩
  · subst hu
    exact absurd hk (by
      rintro ⟨before, o, ho, _⟩
      exact absurd ho.symm (by simp))
  have hw : (onStream h []).file = t := hf
  rw [hw] at he hfile
  have hfile := hfile.trans (calls_sound al hs ops t _ ht (agrees_writer t 0 []) nofun)
  generalize ht1 : (onStream h []).session al split 0 [] (ops.map Call.op) = x at he hfile
  obtain ⟨x1, h1'⟩ := x
  dsimp only at he hfile
  subst he
  have hb : h1'.dev.bytes = (runOps al t ops).bytes := congrArg TdmsFile.bytes hfile
  have hh := handle_history al split capacity ⟨h1'.dev.bytes, 0, []⟩ (by rw [hb]; exact hsz) nofun []
  have hstep : StreamStep.run al split capacity h ⟨[], .session 0 [] (ops.map Call.op)⟩
      = (.session (.ok (FileWriter.calls al split (t.writer 0 []) (ops.map Call.op)).1), h1') := by
    unfold StreamStep.run
    dsimp only
    rw [ht1]
  unfold writeAndAsk streamReplies
  rw [hstep]
  dsimp only
  unfold streamReplies
  cases hn : TdmsFile.new al h1'.dev.bytes with
  | error e =>
    rw [hn] at hh
    have hstep2 : StreamStep.run al split capacity h1' ⟨[], .reopen 0⟩ = (.reopen (.error e), h1') := by
      unfold StreamStep.run
      dsimp only
      rw [hh]
    rw [hstep2]
    exact ⟨_, _, _, rfl, fun hr => by cases hr⟩
  | ok t' =>
    rw [hn] at hh
    have hb' : t'.bytes = h1'.dev.bytes := by
      unfold TdmsFile.new at hn
      cases hx : Tedium.buildIndex al h1'.dev.bytes with
      | error e => rw [hx] at hn; cases hn
      | ok ix => rw [hx] at hn; cases hn; rfl
    obtain ⟨h', n1, _, n3, n4⟩ := hh (by
      show t'.bytes.length < 2 ^ 64
      rw [hb', hb]; exact hsz)
    have hf' : h'.file = t' := by
      unfold Handle.file
      rw [show h'.index = t'.index from n3, show h'.dev.bytes = t'.bytes from n4]
    have hstep2 : StreamStep.run al split capacity h1' ⟨[], .reopen 0⟩ = (.reopen (.ok ()), h') := by
      unfold StreamStep.run
      dsimp only
      rw [n1]
    rw [hstep2]
    refine ⟨_, _, _, rfl, fun _ => ⟨t', by rw [← hb]; exact hn, ?_⟩⟩
    show (Query.length c).run al h'.file = _
    rw [hf']

/-- If the store gives the replies in this program, the file can be opened and has the lengths of the store. -/
theorem lengths_of_stream (al : Alloc) {split : Bytes → List Bytes} (hs : ∀ b, (split b).flatten = b) (capacity : Nat) {t : TdmsFile}
    (ht : Session al t) {h : Handle} (hf : h.file = t) {ops : List Op} (ha : ∀ op ∈ ops, Accepted op = true) (c : ChannelPath)
    (hsz : (runOps al t ops).bytes.length < 2 ^ 64) {s : Store}
    (hbeh : calls ((streamReplies al split capacity h (writeAndAsk ops (.length c))).flatMap effect) = ops →
      (∀ cmd ∈ (streamReplies al split capacity h (writeAndAsk ops (.length c))).flatMap effect, cmd.Single) →
      StreamBehaves al s (streamReplies al split capacity h (writeAndAsk ops (.length c)))) :
    ∃ t', TdmsFile.new al (runOps al t ops).bytes = .ok t' ∧
      (ops.foldl Store.after s).Answers al (.length c) ((Query.length c).run al t') := by
  obtain ⟨rs, r, q, htrace, hr⟩ := writeAndAsk_trace al hs capacity ht hf ops c hsz
  rw [htrace] at hbeh
  have heff : ([(⟨[], .session 0 [] (ops.map Call.op)⟩, .session (.ok rs)), (⟨[], .reopen 0⟩, .reopen r),
      (⟨[], .ask (.length c)⟩, .ask q)] : List (StreamStep × StreamReply)).flatMap effect
      = ops.map Command.call ++ [.reopen, .ask (.length c)] := by
    show (Faults.writes (ops.map Call.op)).map Command.call ++ ([.reopen] ++ ([.ask (.length c)] ++ [])) = _
    rw [writes_ops]
    rfl
  have hb := hbeh (by
    rw [heff, Library.calls_append, calls_commands ha]
    exact List.append_nil _) (by
    rw [heff]
    intro cmd hcmd
    rcases List.mem_append.mp hcmd with hcmd | hcmd
    · obtain ⟨op, _, rfl⟩ := List.mem_map.mp hcmd
      trivial
    · rcases List.mem_cons.mp hcmd with rfl | hcmd
      · trivial
      · cases List.mem_singleton.mp hcmd
        trivial)
  rcases hb with ⟨k, _, hk, _⟩ | ⟨_, hre, hans, _⟩
  · cases hk
  · obtain ⟨t', h1, h2⟩ := hr hre
    refine ⟨t', h1, ?_⟩
    rw [session_ops s ops ha, h2] at hans
    rcases hans with ⟨k, ⟨used, rest, hu, hk⟩, _⟩ | hans
    · obtain rfl := (List.append_eq_nil_iff.mp hu.symm).1
      exact absurd hk (by
        rintro ⟨before, o, ho, _⟩
        exact absurd ho.symm (by simp))
    · exact hans

end Library

/-- **C90 over a stream, exactly.** Let a file be given, and a history of calls that write whole tables of its types into it. Every
    program over a stream that makes these calls, up to any point and with any values, in sessions as it likes, gets the replies of
    the store, if and only if every data write differs from the list of channels in force at a position that both lists have. -/
theorem existing_stream_is_store_iff (al : Alloc) {fs : List FileSegment} {t : TdmsFile} {ty : Text → STy} {last : Last}
    (he : Existing al fs t ty last)
    (hplain : ∀ p, (storeIn ty t.bytes (fs.map FileSegment.segment)).objects p → ∃ o : Obj, o.SlashFree ∧ o.toPath.path = p)
    (ops : List Op) (htabs : Tables ops)
    (hfile : ∀ op ∈ ops, ∀ p, Names p op → ∀ c, (storeIn ty t.bytes (fs.map FileSegment.segment)).content p = some c →
      typeOf op = some c.1)
    (htidy : ∀ op ∈ ops, Tidy op) (hfit : ∀ op ∈ ops, OpFits op) (hsz : (runOps al t ops).bytes.length < 2 ^ 63) :
    (∀ split : Bytes → List Bytes, (∀ b, (split b).flatten = b) → ∀ (capacity : Nat) (d : Device),
      d.bytes = fs.flatMap FileSegment.encode → NoFailure d.script → ∀ h, Handle.new al capacity d = .ok h →
      ∀ steps : List StreamStep, (∀ step ∈ steps, step.Reliable) →
      Plays ops ((streamReplies al split capacity h steps).flatMap effect) →
      (∀ cmd ∈ (streamReplies al split capacity h steps).flatMap effect, cmd.Single) →
      StreamBehaves al (storeIn ty t.bytes (fs.map FileSegment.segment)) (streamReplies al split capacity h steps))
      ↔ Changing last ops := by
  have hholds := _root_.Tedium.Holds.of_opened al he.generous he.fits he.opened
  have htsz : t.bytes.length < 2 ^ 64 := by
    have := (runOps_bytes al t ops).length_le
    omega
  constructor
  · intro hall
    refine changing_of_lengths_on he ops htabs hfile hfit hsz fun ops' n hs c => ?_
    obtain ⟨h, n1, n2⟩ := new_reliable al 0 ⟨fs.flatMap FileSegment.encode, 0, []⟩
      (by rw [← hholds.bytes]; exact htsz) nofun (t := t) he.opened
    have hsz' : (runOps al t (ops'.take n)).bytes.length < 2 ^ 64 := by
      have h1 := runOps_take_bytes al t ops' n
      have h2 := (runOps_shape al hs htabs.sized t t rfl rfl).2
      omega
    have hsplit : ∀ b : Bytes, ([b] : List Bytes).flatten = b := fun b => by simp
    refine lengths_of_stream al (split := fun b => [b]) hsplit 0 (.opened he.opened) n2
      (accepted_table fun e ty chs vals layout hm => tables_shape hs htabs.tables e ty chs vals layout (List.mem_of_mem_take hm))
      c hsz' fun hcalls hsingle => ?_
    exact hall _ hsplit 0 ⟨fs.flatMap FileSegment.encode, 0, []⟩ rfl nofun h n1 _ (by
      intro step hstep
      unfold writeAndAsk at hstep
      rcases List.mem_cons.mp hstep with rfl | hstep
      · exact nofun
      · rcases List.mem_cons.mp hstep with rfl | hstep
        · exact fun o ho => absurd (show o ∈ [] from ho) List.not_mem_nil
        · cases List.mem_singleton.mp hstep
          trivial) ⟨ops', n, hs, hcalls⟩ hsingle
  · rintro hch split hsplit capacity d hd hn h hnew steps hrel ⟨ops', n, hs, hcalls⟩ hsingle
    have hch' := changing_take _ _ n (changing_shape hs _ hch)
    refine existing_stream_is_store_partial al hsplit capacity he hd hn hnew steps hrel ⟨?_, ?_, ?_, ?_, fun _ => ⟨?_, ?_⟩, ?_, ?_⟩
    · rw [hcalls]
      exact changing_compatible _ _ (fun e ty chs vals layout hm => tables_shape hs htabs.tables e ty chs vals layout
        (List.mem_of_mem_take hm)) hch'
    · rw [hcalls]
      intro op ho op' ho'
      exact shape_types hs htabs.types op (List.mem_of_mem_take ho) op' (List.mem_of_mem_take ho')
    · rw [hcalls]
      intro op ho
      exact shape_fileTypes hs hfile op (List.mem_of_mem_take ho)
    · rw [hcalls]
      have h1 := runOps_take_bytes al t ops' n
      have h2 := (runOps_shape al hs htabs.sized t t rfl rfl).2
      omega
    · rw [hcalls]
      exact fun op ho => opfits_shape hs hfit op (List.mem_of_mem_take ho)
    · rw [hcalls]
      exact changing_described al _ _ hch'
    · rw [hcalls]
      intro _ _ _
      refine ⟨fun op ho => ?_, hplain⟩
      obtain ⟨o, ho, _, _, h⟩ := shape_mem hs op (List.mem_of_mem_take ho)
      exact h (htidy o ho)
    · intro pre ty cs start post hh
      exact absurd (hsingle (.ask (.readMany ty cs start)) (by rw [hh]; simp)) id

/-- **C89, exactly.** Let a history of calls be given that write whole tables. Every program over a stream that makes these calls on a
    new file, up to any point and with any values, in sessions as it likes, gets the replies of the store, if and only if every data
    write differs from the list of channels in force at a position that both lists have. -/
theorem stream_library_is_store_iff (al : Alloc) (hal : Generous al) (ops : List Op) (htabs : Tables ops)
    (htidy : ∀ op ∈ ops, Tidy op) (hfit : ∀ op ∈ ops, OpFits op) (hsz : (runOps al ⟨Index.new, []⟩ ops).bytes.length < 2 ^ 63) :
    (∀ split : Bytes → List Bytes, (∀ b, (split b).flatten = b) → ∀ (capacity : Nat) (d : Device),
      d.bytes = [] → NoFailure d.script → ∀ h, Handle.new al capacity d = .ok h →
      ∀ steps : List StreamStep, (∀ step ∈ steps, step.Reliable) →
      Plays ops ((streamReplies al split capacity h steps).flatMap effect) →
      (∀ cmd ∈ (streamReplies al split capacity h steps).flatMap effect, cmd.Single) →
      StreamBehaves al Store.empty (streamReplies al split capacity h steps)) ↔ Changing Last.none ops := by
  obtain ⟨he, hstore⟩ := existing_new al hal (fun _ => .i8)
  have hstore' : storeIn (fun _ => .i8) (TdmsFile.bytes ⟨Index.new, []⟩) (([] : List FileSegment).map FileSegment.segment)
      = Store.empty := hstore
  have := existing_stream_is_store_iff al he (by rw [hstore']; exact fun _ h => False.elim h) ops htabs
    (by rw [hstore']; exact fun _ _ _ _ _ h => nomatch h) htidy hfit hsz
  rw [hstore'] at this
  exact this

/-- The hypotheses of both hold: `windowOps` on `windowFile`, and both sides are then true. -/
theorem existing_stream_is_store_iff_example : Existing anyAlloc windowFile windowOpen windowTypes windowLast ∧ Tables windowOps ∧
    (∀ op ∈ windowOps, Tidy op) ∧ (∀ op ∈ windowOps, OpFits op) ∧
    (∀ split : Bytes → List Bytes, (∀ b, (split b).flatten = b) → ∀ (capacity : Nat) (d : Device),
      d.bytes = windowFile.flatMap FileSegment.encode → NoFailure d.script → ∀ h, Handle.new anyAlloc capacity d = .ok h →
      ∀ steps : List StreamStep, (∀ step ∈ steps, step.Reliable) →
      Plays windowOps ((streamReplies anyAlloc split capacity h steps).flatMap effect) →
      (∀ cmd ∈ (streamReplies anyAlloc split capacity h steps).flatMap effect, cmd.Single) →
      StreamBehaves anyAlloc (storeIn windowTypes windowOpen.bytes (windowFile.map FileSegment.segment))
        (streamReplies anyAlloc split capacity h steps)) := by
  obtain ⟨h1, h2, h3, h4, h5, h6, h7, h8⟩ := existing_file_is_store_iff_example
  exact ⟨h1, h3, h5, h6, (existing_stream_is_store_iff anyAlloc h1 h2 windowOps h3 h4 h5 h6 h7).mpr h8⟩

end Tedium
