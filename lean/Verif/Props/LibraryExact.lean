import Verif.Spec.Plays
import Verif.Proofs.Copy
import Verif.Props.Library
import Verif.Props.LayoutExact
import Verif.Props.ReopenExact

/-! # C88: which histories are safe, exactly -/

namespace Tedium
open SegSpec WriteSpec Library

namespace Library

/-- The calls of a history of the same shape. -/
theorem shape_mem {ops ops' : List Op} (h : SameShape ops ops') : ∀ op' ∈ ops', ∃ op ∈ ops,
    (∀ p, Names p op' → Names p op) ∧ typeOf op = typeOf op' ∧ (Tidy op → Tidy op') := by
  induction h with
  | nil => nofun
  | props _ ih =>
    intro op' h
    rcases List.mem_cons.mp h with rfl | h
    · exact ⟨_, List.mem_cons_self, fun _ h => h, rfl, id⟩
    · obtain ⟨op, ho, h⟩ := ih op' h
      exact ⟨op, List.mem_cons_of_mem _ ho, h⟩
  | @write e ty channels vals vals' layout ops ops' hv _ ih =>
    intro op' h
    rcases List.mem_cons.mp h with rfl | h
    · exact ⟨_, List.mem_cons_self, fun _ h => h, rfl, id⟩
    · obtain ⟨op, ho, h⟩ := ih op' h
      exact ⟨op, List.mem_cons_of_mem _ ho, h⟩

theorem shape_types {ops ops' : List Op} (h : SameShape ops ops')
    (ht : ∀ op ∈ ops, ∀ op' ∈ ops, ∀ p, Names p op → Names p op' → typeOf op = typeOf op') :
    ∀ op ∈ ops', ∀ op' ∈ ops', ∀ p, Names p op → Names p op' → typeOf op = typeOf op' := by
  intro a ha b hb p hpa hpb
  obtain ⟨a', ha', ha1, ha2, _⟩ := shape_mem h a ha
  obtain ⟨b', hb', hb1, hb2, _⟩ := shape_mem h b hb
  rw [← ha2, ← hb2]
  exact ht a' ha' b' hb' p (ha1 p hpa) (hb1 p hpb)

theorem accepted_table {ops : List Op}
    (h : ∀ e ty channels vals layout, Op.write e ty channels vals layout ∈ ops → Table ty channels vals) :
    ∀ op ∈ ops, Accepted op = true := by
  intro op hop
  cases op with
  | props => rfl
  | write e ty chs vals layout =>
    have ht := h _ _ _ _ _ hop
    unfold Accepted
    rw [Bool.and_eq_true]
    refine ⟨?_, ?_⟩
    · cases chs with
      | nil => exact absurd rfl ht.some_channel
      | cons => rfl
    · rw [beq_iff_eq]
      exact Nat.mod_eq_zero_of_dvd ht.whole

theorem call_accepted {op : Op} (h : Accepted op = true) (s : Store) : s.call op = (.ok .done, s.after op) := by
  cases op with
  | props => rfl
  | write e ty chs vals layout =>
    unfold Accepted at h
    rw [Bool.and_eq_true, beq_iff_eq] at h
    unfold Store.call
    dsimp only
    rw [if_neg (by
      cases chs with
      | nil => exact absurd h.1 (by decide)
      | cons => exact Nat.succ_ne_zero _), if_neg (fun hh => hh h.2)]

theorem calls_commands {ops : List Op} (h : ∀ op ∈ ops, Accepted op = true) : calls (ops.map .call) = ops := by
  unfold calls
  induction ops with
  | nil => rfl
  | cons op ops ih =>
    rw [List.map_cons, List.filterMap_cons]
    dsimp only
    rw [if_pos (h op List.mem_cons_self)]
    dsimp only
    rw [ih fun o ho => h o (List.mem_cons_of_mem _ ho)]

/-- What the replies to accepted calls, and then to other commands, say. -/
theorem behaves_calls (al : Alloc) (rest : List Command) : ∀ (ops : List Op), (∀ op ∈ ops, Accepted op = true) →
    ∀ (s : Store) (t : TdmsFile), Behaves al s (replies al t (ops.map .call ++ rest)) →
      AllSucceed al t ops ∧ Behaves al (ops.foldl Store.after s) (replies al (runOps al t ops) rest)
  | [], _, s, t, h => ⟨fun pre op post hh => (by cases pre <;> cases hh), h⟩
  | op :: ops, ha, s, t, h => by
    have h' : ((op.run al t).1.map fun _ => Reply.done) = (s.call op).1 ∧
        Behaves al (s.call op).2 (replies al (op.run al t).2 (ops.map .call ++ rest)) := h
    rw [call_accepted (ha op List.mem_cons_self)] at h'
    obtain ⟨h1, h2⟩ := behaves_calls al rest ops (fun o ho => ha o (List.mem_cons_of_mem _ ho)) _ _ h'.2
    rw [allSucceed_cons]
    refine ⟨⟨?_, h1⟩, ?_⟩
    · have h3 := h'.1
      revert h3
      cases (op.run al t).1 with
      | error e => nofun
      | ok u => intro _; rfl
    · rw [runOps_cons]
      exact h2

/-- The store's answers about a channel give back what was written to it. -/
theorem reads_back_of_behaves (al : Alloc) {t : TdmsFile} {ops : List Op} (ha : ∀ op ∈ ops, Accepted op = true)
    (h : ∀ qs : List Command, (∀ q ∈ qs, ∃ c, q = .ask (.length c) ∨ ∃ ty start out, q = .ask (.read ty c start out)) →
      Behaves al Store.empty (replies al t (ops.map .call ++ qs))) : ReadsBack al t ops := by
  refine ⟨(behaves_calls al [] ops ha _ _ (h [] nofun)).1, fun ty c hty hn => ?_⟩
  have hcontent : (storeOf ops).content c.path = some ⟨ty, written ty c.path ops⟩ := store_content ops ty c.path hty hn
  have hobj : (storeOf ops).objects c.path := by
    rw [store_objects]
    obtain ⟨op, ho, hh⟩ := hn
    refine ⟨op, ho, ?_⟩
    cases op with
    | props => cases hh
    | write e ty' chs vals layout => exact List.mem_map.mpr hh
  have hcount : (storeOf ops).count c.path = (written ty c.path ops).length := by
    unfold Store.count
    rw [hcontent]
  have hsamples : (storeOf ops).samplesAs ty c.path = written ty c.path ops := by
    unfold Store.samplesAs
    rw [hcontent]
    dsimp only
    rw [readAs_self]
    rfl
  constructor
  · have h1 := (behaves_calls al [.ask (.length c)] ops ha _ _ (h _ (by
      intro q hq
      exact ⟨c, Or.inl (List.mem_singleton.mp hq)⟩))).2.1.1 hobj
    change ((runOps al t ops).channelLength c).map Reply.length = .ok (.length (some ((storeOf ops).count c.path))) at h1
    rw [hcount] at h1
    revert h1
    cases (runOps al t ops).channelLength c with
    | error e => nofun
    | ok n => intro h1; injection h1 with h1; injection h1 with h1; rw [h1]
  · intro out ho
    have h1 := (behaves_calls al [.ask (.read ty c 0 out)] ops ha _ _ (h _ (by
      intro q hq
      exact ⟨c, Or.inr ⟨ty, 0, out, List.mem_singleton.mp hq⟩⟩))).2.1.1 hobj (by
        rintro ⟨⟨x, hx1, hx2⟩, _⟩
        change (storeOf ops).content c.path = some x at hx1
        rw [hcontent] at hx1
        cases hx1
        rw [readAs_self] at hx2
        cases hx2)
    change ((runOps al t ops).readChannelFrom (ty.storage al) c 0 out).map (Reply.samples ty)
      = .ok (.samples ty (overlay out (((storeOf ops).samplesAs ty c.path).drop 0))) at h1
    rw [hsamples, List.drop_zero, overlay_self ho] at h1
    revert h1
    cases (runOps al t ops).readChannelFrom (ty.storage al) c 0 out with
    | error e => nofun
    | ok n => intro h1; injection h1 with h1; injection h1 with _ h1; rw [h1]

/-- A data write that does not change the channel list, of values that are stored as ones: if the file can be opened at all, the
    segment is not there. -/
theorem ones_forgotten (al : Alloc) (hal : Generous al) {fs : List FileSegment} {t t' : TdmsFile} (h : Tedium.Holds fs t)
    (e : Endian) (ty : STy) (chs : List ChannelPath) (vals : List ty.Val) (layout : DataLayout)
    (hones : ∀ v ∈ vals, ∀ x ∈ (ty.storage al).write e v, x = 1)
    (hd : ¬ Diverges (t.index.activeObjects.map (·.path)) (chs.map ChannelPath.path))
    (hne : chs ≠ []) (hdiv : chs.length ∣ vals.length)
    (hopen : TdmsFile.new al (t.writeChannels (ty.storage al) e chs vals layout).2.bytes = .ok t') : t'.index = t.index := by
  obtain ⟨s, bs, heq, _, _, _, _, hmd, _, _, hlen, toc, htoc⟩ :=
    writeChannels_segment (ty.storage al) e t chs vals layout hne hdiv
  have hm := hmd.mpr hd
  rw [hm] at htoc
  obtain ⟨hdr, hw, hhdr⟩ := writeSegment_header (e := e) toc none (some (TdmsFile.sliceData (ty.storage al) e vals))
  have hbs : bs = hdr ++ vals.flatMap ((ty.storage al).write e) := (congrArg Prod.snd htoc).trans hw
  rw [heq] at hopen
  dsimp only at hopen
  have hdrop : Ones (t.bytes ++ bs) (t.bytes.length + 28) := by
    intro x hx
    rw [← List.drop_drop, List.drop_left, hbs, show (28 : Nat) = hdr.length from hhdr.symm, List.drop_left] at hx
    obtain ⟨v, hv, hxv⟩ := List.mem_flatMap.mp hx
    exact hones v hv x hxv
  obtain ⟨last, hlast⟩ := Ones.segment (al := al) hdrop
  rw [h.bytes] at hlast
  have hp := FileSegment.parses_done al hal fs h.fits bs hlast
  rw [← h.bytes] at hp
  obtain ⟨_, segs, hs1, hs2⟩ := (open_is_replay al _ _).mp hopen
  have hsegs := (hp.unique hs1).1
  rw [← hsegs, h.index] at hs2
  exact (Except.ok.inj hs2).symm

/-- A table gives each of its channels samples. -/
theorem count_grows {pre : List Op} {e : Endian} {ty : STy} {chs : List ChannelPath} {vals : List ty.Val} {layout : DataLayout}
    (htab : Table ty chs vals)
    (htypes : ∀ op ∈ pre ++ [Op.write e ty chs vals layout], ∀ op' ∈ pre ++ [Op.write e ty chs vals layout], ∀ p, Names p op →
      Names p op' → typeOf op = typeOf op') {c : ChannelPath} (hc : c ∈ chs) :
    (storeOf pre).count c.path < (storeOf (pre ++ [.write e ty chs vals layout])).count c.path := by
  have hmem : Op.write e ty chs vals layout ∈ pre ++ [Op.write e ty chs vals layout] :=
    List.mem_append_right _ (List.mem_singleton.mpr rfl)
  have hnames : Names c.path (.write e ty chs vals layout) := ⟨c, hc, rfl⟩
  have hty : ∀ op ∈ pre ++ [Op.write e ty chs vals layout], Names c.path op → typeOf op = some ty := fun op ho hn =>
    htypes op ho _ hmem c.path hn hnames
  have h1 := store_content _ ty c.path hty ⟨_, hmem, hnames⟩
  have hpos : 0 < (written ty c.path [Op.write e ty chs vals layout]).length := by
    rw [List.length_pos_iff]
    show valuesFor ty c.path (.write e ty chs vals layout) ++ [] ≠ []
    rw [List.append_nil]
    unfold valuesFor
    dsimp only
    rw [dif_pos rfl]
    cases hi : (chs.map ChannelPath.path).idxOf? c.path with
    | none => exact absurd (List.mem_map_of_mem hc) (List.idxOf?_eq_none_iff.mp hi)
    | some i =>
      have hlt : i < chs.length := by
        have := (List.findIdx?_eq_some_iff_getElem.mp hi).1
        rwa [List.length_map] at this
      exact column_length layout _ i vals hlt htab.whole htab.some_value
  have h2 : (storeOf (pre ++ [.write e ty chs vals layout])).count c.path
      = (written ty c.path pre).length + (written ty c.path [Op.write e ty chs vals layout]).length := by
    unfold Store.count
    rw [h1]
    dsimp only
    rw [written_append, List.length_append]
  rw [h2]
  by_cases hn : ∃ op ∈ pre, Names c.path op
  · have h3 := store_content pre ty c.path (fun op ho => hty op (List.mem_append_left _ ho)) hn
    unfold Store.count
    rw [h3]
    dsimp only
    omega
  · have h3 := store_content_none pre c.path (fun op ho hh => hn ⟨op, ho, hh⟩)
    unfold Store.count
    rw [h3]
    dsimp only
    omega

end Library

/-- **C88, the guard on the tables is exact.** Take a history of tables on a new file, with one type per channel, of objects
    whose names have no slashes. The library answers as the store does in every program that plays the history, with any values, and asks
    anything about one object at a time, exactly if the tables follow one another as in C31. -/
theorem library_is_store_iff (al : Alloc) {t : TdmsFile} (ht : TdmsFile.create al = .ok t) (ops : List Op) (htabs : Tables ops)
    (htidy : ∀ op ∈ ops, Tidy op) (hsz : (runOps al t ops).bytes.length < 2 ^ 63) :
    (∀ cmds, Plays ops cmds → (∀ cmd ∈ cmds, cmd.Single) → Command.reopen ∉ cmds → Behaves al Store.empty (replies al t cmds))
      ↔ Compatible Last.none ops := by
  constructor
  · intro h
    rw [← reads_back_iff al ht ops htabs hsz]
    intro ops' hs n
    have ha : ∀ op ∈ ops'.take n, Accepted op = true := accepted_table
      (fun e ty chs vals layout hm => tables_shape hs htabs.tables _ _ _ _ _ (List.mem_of_mem_take hm))
    refine reads_back_of_behaves al ha fun qs hqs => h _ ⟨ops', n, hs, ?_⟩ ?_ ?_
    · rw [Library.calls_append, calls_commands ha]
      have : calls qs = [] := by
        unfold calls
        rw [List.filterMap_eq_nil_iff]
        intro q hq
        obtain ⟨c, rfl | ⟨ty, start, out, rfl⟩⟩ := hqs q hq <;> rfl
      rw [this, List.append_nil]
    · intro cmd hcmd
      rcases List.mem_append.mp hcmd with hcmd | hcmd
      · obtain ⟨op, _, rfl⟩ := List.mem_map.mp hcmd
        trivial
      · obtain ⟨c, rfl | ⟨ty, start, out, rfl⟩⟩ := hqs cmd hcmd <;> trivial
    · intro hcmd
      rcases List.mem_append.mp hcmd with hcmd | hcmd
      · obtain ⟨op, _, hh⟩ := List.mem_map.mp hcmd
        cases hh
      · obtain ⟨c, hh | ⟨ty, start, out, hh⟩⟩ := hqs _ hcmd <;> cases hh
  · rintro hc cmds ⟨ops', n, hs, hcalls⟩ hsingle hre
    refine library_is_store_partial al ht cmds ⟨?_, ?_, ?_, fun hh => absurd hh hre, ?_, ?_⟩
    · rw [hcalls]
      exact compatible_take ops' Last.none n (compatible_shape hs _ hc)
    · rw [hcalls]
      intro op ho op' ho'
      exact shape_types hs htabs.types op (List.mem_of_mem_take ho) op' (List.mem_of_mem_take ho')
    · rw [hcalls]
      have h1 := runOps_take_bytes al t ops' n
      have h2 := (runOps_shape al hs htabs.sized t t rfl rfl).2
      omega
    · rw [hcalls]
      intro _ _ _ op ho
      obtain ⟨o, ho, _, _, h⟩ := shape_mem hs op (List.mem_of_mem_take ho)
      exact h (htidy o ho)
    · intro pre ty cs start post hh
      exact absurd (hsingle (.ask (.readMany ty cs start)) (by rw [hh]; simp)) id

/-- **C88, the guard on opening the file again is exact.** With closing the file and opening it again among the commands, the library
    answers as the store does in every such program exactly if in addition every data write differs from the list of channels in
    force at a position that both lists have. -/
theorem library_reopened_is_store_iff (al : Alloc) (hal : Generous al) {t : TdmsFile} (ht : TdmsFile.create al = .ok t)
    (ops : List Op) (htabs : Tables ops) (htidy : ∀ op ∈ ops, Tidy op) (hfit : ∀ op ∈ ops, OpFits op)
    (hsz : (runOps al t ops).bytes.length < 2 ^ 63) :
    (∀ cmds, Plays ops cmds → (∀ cmd ∈ cmds, cmd.Single) → Behaves al Store.empty (replies al t cmds))
      ↔ Compatible Last.none ops ∧ Changing Last.none ops := by
  have hsized := opfits_sized hfit
  constructor
  · intro h
    have hcomp := (library_is_store_iff al ht ops htabs htidy hsz).mp fun cmds hp hs _ => h cmds hp hs
    refine ⟨hcomp, Classical.byContradiction fun hc => ?_⟩
    obtain ⟨pre, e, ty, chs, vals, layout, post, hops, hpre, hd⟩ := first_repeat ops Last.none hc
    have hmemw : Op.write e ty chs vals layout ∈ ops := by rw [hops]; simp
    have hty : SizedTy ty := hsized e ty chs vals layout hmemw
    obtain ⟨v, hv⟩ := STy.ones al (ty := ty) hty.2
    obtain ⟨vals', hvals'⟩ : ∃ vals' : List ty.Val, vals' = List.replicate vals.length v := ⟨_, rfl⟩
    have hshape : SameShape ops (pre ++ Op.write e ty chs vals' layout :: post) := by
      rw [hops]
      exact sameShape_append (sameShape_refl pre) (.write (by rw [hvals', List.length_replicate]) (sameShape_refl post))
    have htake : (pre ++ Op.write e ty chs vals' layout :: post).take (pre.length + 1)
        = pre ++ [Op.write e ty chs vals' layout] := by
      rw [List.take_append, List.take_of_length_le (Nat.le_succ _), Nat.add_sub_cancel_left]; rfl
    have htab' := tables_shape hshape htabs.tables
    have hsub : ∀ o ∈ pre ++ [Op.write e ty chs vals' layout], o ∈ pre ++ Op.write e ty chs vals' layout :: post := by
      rw [← htake]
      exact fun o => List.mem_of_mem_take
    have ha : ∀ op ∈ pre ++ [Op.write e ty chs vals' layout], Accepted op = true := accepted_table
      (fun e ty chs vals layout hm => htab' _ _ _ _ _ (hsub _ hm))
    have hap : ∀ op ∈ pre, Accepted op = true := fun o ho => ha o (List.mem_append_left _ ho)
    have htabw : Table ty chs vals' := htab' e ty chs vals' layout (hsub _ (List.mem_append_right _ (List.mem_singleton.mpr rfl)))
    obtain ⟨c, hc0⟩ := List.exists_mem_of_ne_nil _ htabw.some_channel
    have hcount := count_grows (e := e) (layout := layout) (pre := pre) htabw
      (fun a ha b hb => shape_types hshape htabs.types a (hsub a ha) b (hsub b hb)) hc0
    -- before the write
    have hb1 := behaves_calls al [.ask (.length c)] pre hap _ _ (h _ ⟨ops, pre.length, sameShape_refl ops, by
        rw [Library.calls_append, calls_commands hap, hops, List.take_left' rfl]
        exact List.append_nil _⟩ (by
        intro cmd hcmd
        rcases List.mem_append.mp hcmd with hcmd | hcmd
        · obtain ⟨op, _, rfl⟩ := List.mem_map.mp hcmd
          trivial
        · rw [List.mem_singleton.mp hcmd]; trivial))
    -- after it, and after opening the file again
    have hb2 := behaves_calls al [.reopen, .ask (.length c)] _ ha _ _ (h _ ⟨_, pre.length + 1, hshape, by
        rw [Library.calls_append, calls_commands ha, htake]
        exact List.append_nil _⟩ (by
        intro cmd hcmd
        rcases List.mem_append.mp hcmd with hcmd | hcmd
        · obtain ⟨op, _, rfl⟩ := List.mem_map.mp hcmd
          trivial
        · rcases List.mem_cons.mp hcmd with hcmd | hcmd
          · rw [hcmd]; trivial
          · rw [List.mem_singleton.mp hcmd]; trivial))
    have hall2 := hb2.1
    obtain ⟨hallp, hallw⟩ := allSucceed_append hall2
    rw [allSucceed_cons] at hallw
    have hfit' := opfits_shape hshape hfit
    have hdist' : ∀ op ∈ pre, Distinct op := by
      intro op ho
      cases op with
      | props => trivial
      | write e ty chs vals layout => exact (htab' _ _ _ _ _ (List.mem_append_left _ ho)).distinct
    have ht0 := created_eq ht
    have hses : Session al t := .created ht
    have hholds : Tedium.Holds [] t := by
      rw [ht0]
      exact ⟨fun _ h => (by cases h), rfl, rfl⟩
    have hact : Last.none.channels = t.index.activeObjects.map (·.path) := by rw [ht0]; rfl
    have hpsz : (runOps al t pre).bytes.length < 2 ^ 64 := by
      have h1 : (runOps al t pre).bytes.length ≤ (runOps al t ops).bytes.length := by
        rw [hops, runOps_append]
        exact (runOps_bytes al _ _).length_le
      omega
    obtain ⟨fs, hfs⟩ := reads_history al pre [] t Last.none hholds hses hact hallp hdist'
      (fun op ho => hfit' op (List.mem_append_left _ ho)) (changing_described al pre _ hpre) hpsz
    have hforce := active_in_force al pre t Last.none hses hact hdist' hallp
    have hre := hb2.2.1
    have hlen2 := hb2.2.2.1.1
    rw [runOps_append] at hre hlen2
    cases hopen : TdmsFile.new al (runOps al (runOps al t pre) [Op.write e ty chs vals' layout]).bytes with
    | error err =>
      change (match TdmsFile.new al (runOps al (runOps al t pre) [Op.write e ty chs vals' layout]).bytes with
        | .ok t' => ((.ok .done : R Reply), t')
        | .error e => (.error e, _)).1 = _ at hre
      rw [hopen] at hre
      cases hre
    | ok t' =>
      have hidx := ones_forgotten al hal hfs e ty chs vals' layout (by
        intro w hw x hx
        rw [hvals'] at hw
        rw [List.eq_of_mem_replicate hw] at hx
        exact hv e x hx) (by rw [← hforce]; exact hd) htabw.some_channel htabw.whole hopen
      have hobj : (storeOf (pre ++ [Op.write e ty chs vals' layout])).objects c.path := by
        rw [store_objects]
        exact ⟨_, List.mem_append_right _ (List.mem_singleton.mpr rfl), List.mem_map_of_mem hc0⟩
      have hlen2 := hlen2 hobj
      change ((match TdmsFile.new al (runOps al (runOps al t pre) [Op.write e ty chs vals' layout]).bytes with
        | .ok t' => ((.ok .done : R Reply), t')
        | .error e => (.error e, _)).2.channelLength c).map Reply.length = .ok (.length (some _)) at hlen2
      rw [hopen] at hlen2
      change (t'.channelLength c).map Reply.length
        = .ok (.length (some ((storeOf (pre ++ [Op.write e ty chs vals' layout])).count c.path))) at hlen2
      have hsame : t'.channelLength c = (runOps al t pre).channelLength c := by
        unfold TdmsFile.channelLength
        rw [hidx]
      rw [hsame] at hlen2
      have hans : ((storeOf pre).objects c.path → ((runOps al t pre).channelLength c).map Reply.length
          = .ok (.length (some ((storeOf pre).count c.path)))) ∧
          (¬ (storeOf pre).objects c.path → ((runOps al t pre).channelLength c).map Reply.length = .ok (.length none)) := hb1.2.1
      by_cases ho : (storeOf pre).objects c.path
      · have := (hans.1 ho).symm.trans hlen2
        injection this with this
        injection this with this
        injection this with this
        omega
      · have := (hans.2 ho).symm.trans hlen2
        injection this with this
        injection this with this
        cases this
  · rintro ⟨hc, hch⟩ cmds ⟨ops', n, hs, hcalls⟩ hsingle
    refine library_is_store_partial al ht cmds ⟨?_, ?_, ?_, fun _ => ⟨hal, ?_, ?_⟩, ?_, ?_⟩
    · rw [hcalls]
      exact compatible_take ops' Last.none n (compatible_shape hs _ hc)
    · rw [hcalls]
      intro op ho op' ho'
      exact shape_types hs htabs.types op (List.mem_of_mem_take ho) op' (List.mem_of_mem_take ho')
    · rw [hcalls]
      have h1 := runOps_take_bytes al t ops' n
      have h2 := (runOps_shape al hs htabs.sized t t rfl rfl).2
      omega
    · rw [hcalls]
      exact fun op ho => opfits_shape hs hfit op (List.mem_of_mem_take ho)
    · rw [hcalls]
      exact changing_described al _ _ (changing_take _ _ n (changing_shape hs _ hch))
    · rw [hcalls]
      intro _ _ _ op ho
      obtain ⟨o, ho, _, _, h⟩ := shape_mem hs op (List.mem_of_mem_take ho)
      exact h (htidy o ho)
    · intro pre ty cs start post hh
      exact absurd (hsingle (.ask (.readMany ty cs start)) (by rw [hh]; simp)) id

theorem chan_tidy (n : String) (hn : '/' ∉ n.toList) : ∃ o : Obj, o.SlashFree ∧ o.toPath.path = (chan n).path :=
  ⟨.channel "g".toList n.toList, ⟨by decide +kernel, hn⟩, rfl⟩

/-- The hypotheses of both theorems hold for `changingOps`, and so do both sides. -/
theorem library_is_store_iff_example : Tables changingOps ∧ (∀ op ∈ changingOps, Tidy op) ∧ (∀ op ∈ changingOps, OpFits op) ∧
    (session changingOps).bytes.length < 2 ^ 63 ∧ Compatible Last.none changingOps ∧ Changing Last.none changingOps := by
  have hc : Compatible Last.none changingOps := by
    refine ⟨⟨⟨rfl, ?_, ?_, ?_, ?_⟩, ?_⟩, trivial, ⟨⟨rfl, ?_, ?_, ?_, ?_⟩, ?_⟩, ⟨⟨rfl, ?_, ?_, ?_, ?_⟩, ?_⟩, trivial⟩
    all_goals first
      | decide +kernel
      | exact Or.inl (by decide +kernel)
  refine ⟨tables_of (fun _ => .u16) (compatible_table _ _ hc) ?_, ?_, reopens_iff_example.2.2.1, by decide +kernel, hc,
    reopens_iff_example.2.2.2.2⟩
  · intro op hop p hn
    simp only [changingOps, List.mem_cons, List.not_mem_nil, or_false] at hop
    rcases hop with rfl | rfl | rfl | rfl
    · rfl
    · cases hn
    · rfl
    · rfl
  · intro op hop
    simp only [changingOps, List.mem_cons, List.not_mem_nil, or_false] at hop
    rcases hop with rfl | rfl | rfl | rfl
    · intro c hc
      simp only [List.map_cons, List.map_nil, List.mem_cons, List.not_mem_nil, or_false] at hc
      rcases hc with rfl | rfl <;> exact chan_tidy _ (by decide +kernel)
    · exact ⟨.group "g".toList, show '/' ∉ "g".toList by decide +kernel, rfl⟩
    · intro c hc
      rw [List.mem_singleton.mp hc]; exact chan_tidy _ (by decide +kernel)
    · intro c hc
      simp only [List.map_cons, List.map_nil, List.mem_cons, List.not_mem_nil, or_false] at hc
      rcases hc with rfl | rfl <;> exact chan_tidy _ (by decide +kernel)

/-- A program that plays it, asks about a channel in between, makes a call that is rejected, and opens the file again. -/
def playing : List Command :=
  [.call (writeU16 ["a", "b"] [7, 7, 7, 7]), .ask (.length (chan "a")), .call (writeU16 [] []), .reopen,
   .call (.props .big (.group "g".toList) [("n".toList, .i32 5)]), .ask (.read .u16 (chan "b") 1 (vals16 [0]))]

theorem playing_plays : Plays changingOps playing ∧ ∀ cmd ∈ playing, cmd.Single := by
  refine ⟨⟨writeU16 ["a", "b"] [7, 7, 7, 7] :: changingOps.drop 1, 2, ?_, rfl⟩, ?_⟩
  · exact .write rfl (sameShape_refl _)
  · intro cmd h
    simp only [playing, List.mem_cons, List.not_mem_nil, or_false] at h
    rcases h with rfl | rfl | rfl | rfl | rfl | rfl <;> trivial

/-- A history whose tables follow one another, but one of which does not change the list of channels. -/
theorem library_reopened_unsafe : Tables exampleOps ∧ Compatible Last.none exampleOps ∧ ¬ Changing Last.none exampleOps := by
  refine ⟨reads_back_iff_example.1, exampleOps_compatible, ?_⟩
  rintro ⟨_, h, _⟩
  revert h
  decide +kernel

end Tedium
