import Verif.Props.SeveralOn
import Verif.Props.WatcherOnExact
import Verif.Props.StreamedExact

/-! # C93: which histories several handles can share, exactly -/

namespace Tedium
open SegSpec WriteSpec Library

namespace Library

section
variable {al : Alloc} {segs : List Segment} {t : TdmsFile} {s : Store} {last : Last}

theorem deedCalls_call {h : Nat} {op : Op} {deeds : List Deed} (ha : Accepted op = true) :
    deedCalls (.call h op :: deeds) = op :: deedCalls deeds := by
  unfold deedCalls
  rw [List.filterMap_cons_some (b := op) (by dsimp only; rw [if_pos ha])]

theorem deedCalls_refused {h : Nat} {op : Op} {deeds : List Deed} (ha : Accepted op = false) :
    deedCalls (.call h op :: deeds) = deedCalls deeds := by
  unfold deedCalls
  rw [List.filterMap_cons_none (by dsimp only; rw [if_neg (by rw [ha]; decide)])]

/-- A program whose calls are sound and whose questions can be asked is orderly if the handles are fresh. -/
theorem orderly_of_careful : ∀ (deeds : List Deed) (ops : List Op) (fresh : Nat → Prop), SoundOn al t s last (ops ++ deedCalls deeds) →
    (∀ h q, Deed.ask h q ∈ deeds → AskableOn segs s (ops ++ deedCalls deeds) q) → Careful fresh deeds →
    OrderlyOn al segs t s last ops fresh deeds
  | [], _, _, _, _, _ => trivial
  | .call h op :: deeds, ops, fresh, hs, hq, hc => by
    constructor
    · intro ha
      rw [deedCalls_call ha, List.append_cons] at hs hq
      exact ⟨hs.left, (hc.1 ha).1, orderly_of_careful deeds _ _ hs (fun h q hm => hq h q (List.mem_cons_of_mem _ hm)) (hc.1 ha).2⟩
    · intro ha
      rw [deedCalls_refused ha] at hs hq
      exact orderly_of_careful deeds _ _ hs (fun h q hm => hq h q (List.mem_cons_of_mem _ hm)) (hc.2 ha)
  | .ask h q :: deeds, ops, fresh, hs, hq, hc => by
    have hk : deedCalls (.ask h q :: deeds) = deedCalls deeds := rfl
    rw [hk] at hs hq
    refine ⟨?_, orderly_of_careful deeds _ _ hs (fun h q hm => hq h q (List.mem_cons_of_mem _ hm)) hc⟩
    have := (hq h q List.mem_cons_self).first ops.length
    rwa [List.take_left' rfl] at this
  | .reopen h :: deeds, ops, fresh, hs, hq, hc =>
    orderly_of_careful deeds ops _ (hs : SoundOn al t s last (ops ++ deedCalls deeds)) (fun h q hm => hq h q (List.mem_cons_of_mem _ hm)) hc

/-- Handle 0 makes some calls. -/
theorem agrees_calls : ∀ (new : List Op), (∀ op ∈ new, Accepted op = true) → ∀ (rest : List Deed) (ops : List Op)
    (seen : Nat → Option Nat) (sh : Shared), AgreesOn al s ops seen (deedReplies al sh (new.map (.call 0) ++ rest)) →
    ∃ seen' sh', sh'.bytes = (runOps al ⟨sh.handles 0, sh.bytes⟩ new).bytes ∧ AgreesOn al s (ops ++ new) seen' (deedReplies al sh' rest)
  | [], _, rest, ops, seen, sh, h => ⟨seen, sh, rfl, by rw [List.append_nil]; exact h⟩
  | op :: new, ha, rest, ops, seen, sh, h => by
    have h1 := h.2.1 (ha op List.mem_cons_self)
    obtain ⟨seen', sh', h2, h3⟩ := agrees_calls new (fun o ho => ha o (List.mem_cons_of_mem _ ho)) rest _ _ _ h1
    refine ⟨seen', sh', ?_, by rw [List.append_cons]; exact h3⟩
    rw [h2]
    show (runOps al ⟨change sh.handles 0 _ 0, _⟩ new).bytes = _
    rw [change_same]
    rfl

end
end Library

/-- **C93, exactly, on files that exist.** The file is as in C90, whoever wrote it, and its objects have names without slashes. Take a
    history of tables that write values of the types that the channels have. Any number of handles that make the calls of the history, up to
    any point and with any values, each opened since another one last wrote samples when it writes samples, and that ask anything about
    one object at a time, share one store, if and only if every data write differs from the list of channels in force at a
    position that both lists have. -/
theorem several_existing_iff (al : Alloc) {fs : List FileSegment} {t : TdmsFile} {ty : Text → STy} {last : Last}
    (he : Existing al fs t ty last)
    (hplain : ∀ p, (storeIn ty t.bytes (fs.map FileSegment.segment)).objects p → ∃ o : Obj, o.SlashFree ∧ o.toPath.path = p)
    (ops : List Op) (htabs : Tables ops)
    (hfile : ∀ op ∈ ops, ∀ p, Names p op → ∀ c, (storeIn ty t.bytes (fs.map FileSegment.segment)).content p = some c →
      typeOf op = some c.1)
    (htidy : ∀ op ∈ ops, Tidy op) (hfit : ∀ op ∈ ops, OpFits op) (hsz : (runOps al t ops).bytes.length < 2 ^ 63) :
    (∀ ops' n, SameShape ops ops' → ∀ deeds, deedCalls deeds = ops'.take n → Careful (fun _ => True) deeds →
      (∀ h q, Deed.ask h q ∈ deeds → (Command.ask q).Single) →
      AgreesOn al (storeIn ty t.bytes (fs.map FileSegment.segment)) [] (fun _ => some 0) (deedReplies al (Shared.opened t) deeds))
      ↔ Changing last ops := by
  constructor
  · intro h
    refine changing_of_lengths_on he ops htabs hfile hfit hsz fun ops' n hs c => ?_
    have ha : ∀ op ∈ ops'.take n, Accepted op = true := accepted_table
      (fun e ty chs vals layout hm => tables_shape hs htabs.tables _ _ _ _ _ (List.mem_of_mem_take hm))
    have h0 := h ops' n hs ((ops'.take n).map (.call 0) ++ [.reopen 1, .ask 1 (.length c)]) ?_ ?_ ?_
    · obtain ⟨seen, sh, hb, h1⟩ := agrees_calls _ ha _ _ _ _ h0
      obtain ⟨h2, h3⟩ := h1
      have hb : sh.bytes = (runOps al t (ops'.take n)).bytes := hb
      unfold Deed.run at h2 h3
      dsimp only at h2 h3
      rw [hb] at h2 h3
      cases ho : TdmsFile.new al (runOps al t (ops'.take n)).bytes with
      | error e => rw [ho] at h2; cases h2
      | ok t' =>
        rw [ho] at h3
        dsimp only at h3
        refine ⟨t', rfl, ?_⟩
        have h4 := h3.1 _ (change_same _ _ _)
        rw [List.nil_append, List.take_length] at h4
        have h4 : (storeFrom (storeIn ty t.bytes (fs.map FileSegment.segment)) (ops'.take n)).Answers al (.length c)
            ((Query.length c).run al ⟨change sh.handles 1 t'.index 1, t'.bytes⟩) := h4
        rw [change_same] at h4
        exact h4
    · generalize ops'.take n = new at ha
      induction new with
      | nil => rfl
      | cons op new ih =>
        rw [List.map_cons, List.cons_append, deedCalls_call (ha op List.mem_cons_self), ih (fun o ho => ha o (List.mem_cons_of_mem _ ho))]
    · have key : ∀ (new : List Op) (fresh : Nat → Prop), (∀ op ∈ new, Accepted op = true) → fresh 0 →
          Careful fresh (new.map (.call 0) ++ [.reopen 1, .ask 1 (.length c)]) := by
        intro new
        induction new with
        | nil => exact fun _ _ _ => trivial
        | cons op new ih =>
          intro fresh ha hf
          exact ⟨fun _ => ⟨fun _ => hf, ih _ (fun o ho => ha o (List.mem_cons_of_mem _ ho)) ⟨hf, fun _ => rfl⟩⟩, fun hn => by
            rw [ha op List.mem_cons_self] at hn; cases hn⟩
      exact key _ _ ha trivial
    · intro g q hm
      rcases List.mem_append.mp hm with hm | hm
      · obtain ⟨op, _, hh⟩ := List.mem_map.mp hm
        cases hh
      · rcases List.mem_cons.mp hm with hm | hm
        · cases hm
        · cases List.mem_singleton.mp hm
          trivial
  · intro hc ops' n hs deeds hcalls hcare hq
    have hsound := soundOn_of_changing n htabs hfile hfit hsz hc hs
    refine several_existing_partial al he (Nat.lt_of_le_of_lt (runOps_bytes al t _).length_le hsound.size) deeds
      (orderly_of_careful deeds [] _ ?_ (fun h q hm => ?_) hcare)
    · rw [List.nil_append, hcalls]
      exact hsound
    · rw [List.nil_append, hcalls]
      exact askableOn_single n htidy hplain hs (hq h q hm)

/-- **C93, exactly, on a new file.** -/
theorem several_handles_iff (al : Alloc) (hal : Generous al) (ops : List Op) (htabs : Tables ops) (htidy : ∀ op ∈ ops, Tidy op)
    (hfit : ∀ op ∈ ops, OpFits op) (hsz : (runOps al ⟨Index.new, []⟩ ops).bytes.length < 2 ^ 63) :
    (∀ ops' n, SameShape ops ops' → ∀ deeds, deedCalls deeds = ops'.take n → Careful (fun _ => True) deeds →
      (∀ h q, Deed.ask h q ∈ deeds → (Command.ask q).Single) →
      Agrees al [] (fun _ => some 0) (deedReplies al Shared.new deeds)) ↔ Changing Last.none ops := by
  obtain ⟨he, hstore⟩ := existing_new al hal (fun _ => .i8)
  have hstore' : storeIn (fun _ => .i8) (TdmsFile.bytes ⟨Index.new, []⟩) (([] : List FileSegment).map FileSegment.segment)
      = Store.empty := hstore
  have := several_existing_iff al he (by rw [hstore']; exact fun _ h => False.elim h) ops htabs
    (by rw [hstore']; exact fun _ _ _ _ _ h => nomatch h) htidy hfit hsz
  rw [hstore'] at this
  have key : ∀ (rs : List (Deed × R Reply)) (ops : List Op) (seen : Nat → Option Nat),
      AgreesOn al Store.empty ops seen rs ↔ Agrees al ops seen rs := by
    intro rs
    induction rs with
    | nil => exact fun _ _ => Iff.rfl
    | cons r rs ih =>
      intro ops seen
      obtain ⟨d, r⟩ := r
      cases d with
      | call h op => exact and_congr Iff.rfl (and_congr (imp_congr Iff.rfl (ih _ _)) (imp_congr Iff.rfl (ih _ _)))
      | ask h q => exact and_congr Iff.rfl (ih _ _)
      | reopen h => exact and_congr Iff.rfl (ih _ _)
  rw [← this]
  exact forall_congr' fun _ => forall_congr' fun _ => forall_congr' fun _ => forall_congr' fun _ => forall_congr' fun _ =>
    forall_congr' fun _ => forall_congr' fun _ => (key _ _ _).symm

/-- The hypotheses hold for `windowFile` and `windowOps`, and so do both sides; the program of `severalOnFile` is one of those meant. -/
theorem several_existing_iff_example : Existing anyAlloc windowFile windowOpen windowTypes windowLast ∧
    (∀ p, (storeIn windowTypes windowOpen.bytes (windowFile.map FileSegment.segment)).objects p →
      ∃ o : Obj, o.SlashFree ∧ o.toPath.path = p) ∧ Tables windowOps ∧
    (∀ op ∈ windowOps, ∀ p, Names p op →
      ∀ c, (storeIn windowTypes windowOpen.bytes (windowFile.map FileSegment.segment)).content p = some c → typeOf op = some c.1) ∧
    (∀ op ∈ windowOps, Tidy op) ∧ (∀ op ∈ windowOps, OpFits op) ∧ (runOps anyAlloc windowOpen windowOps).bytes.length < 2 ^ 63 ∧
    Changing windowLast windowOps ∧ deedCalls severalOnFile = windowOps.take 4 ∧ Careful (fun _ => True) severalOnFile := by
  obtain ⟨h1, h2, h3, h4, h5, h6, h7, h8, _⟩ := watcher_existing_iff_example
  refine ⟨h1, h2, h3, h4, h5, h6, h7, h8, by decide +kernel, ?_⟩
  refine ⟨fun _ => ⟨fun _ => trivial, ?_⟩, fun h => absurd h (by decide +kernel)⟩
  refine ⟨fun _ => ⟨fun h => absurd h id, ?_⟩, fun h => absurd h (by decide +kernel)⟩
  refine ⟨fun _ => ⟨fun _ => Or.inr rfl, ?_⟩, fun h => absurd h (by decide +kernel)⟩
  exact ⟨fun _ => ⟨fun _ => Or.inr rfl, trivial⟩, fun h => absurd h (by decide +kernel)⟩

end Tedium
