import Verif.Props.WatcherExact
import Verif.Props.Existing

/-! # C90: which histories are safe on a file that exists, exactly -/

namespace Tedium
open SegSpec WriteSpec Library

namespace Library

/-- A table gives each of its channels samples, in any store in which these have the type of the table. -/
theorem after_count_grows {s : Store} {e : Endian} {ty : STy} {chs : List ChannelPath} {vals : List ty.Val} {layout : DataLayout}
    (htab : Table ty chs vals) {c : ChannelPath} (hc : c ∈ chs) (hty : ∀ x, s.content c.path = some x → x.1 = ty) :
    s.count c.path < (s.after (.write e ty chs vals layout)).count c.path := by
  cases hi : (chs.map ChannelPath.path).idxOf? c.path with
  | none => exact absurd (List.mem_map_of_mem hc) (List.idxOf?_eq_none_iff.mp hi)
  | some i =>
    have hlt : i < chs.length := by
      have := (List.findIdx?_eq_some_iff_getElem.mp hi).1
      rwa [List.length_map] at this
    have hpos := List.length_pos_iff.mpr (column_length layout _ i vals hlt htab.whole htab.some_value)
    have hcont : (s.after (.write e ty chs vals layout)).content c.path
        = some (extend (column layout chs.length i vals) (s.content c.path)) := by
      unfold Store.after
      dsimp only
      rw [hi]
    unfold Store.count
    rw [hcont]
    cases hs : s.content c.path with
    | none => exact hpos
    | some x =>
      obtain ⟨ty', old⟩ := x
      obtain rfl : ty' = ty := hty _ hs
      unfold extend
      dsimp only
      rw [dif_pos rfl]
      dsimp only
      rw [List.length_append]
      omega

theorem shape_fileTypes {s : Store} {ops ops' : List Op} (h : SameShape ops ops')
    (ht : ∀ op ∈ ops, ∀ p, Names p op → ∀ c, s.content p = some c → typeOf op = some c.1) :
    ∀ op ∈ ops', ∀ p, Names p op → ∀ c, s.content p = some c → typeOf op = some c.1 := by
  intro a ha p hpa c hc
  obtain ⟨a', ha', ha1, ha2, _⟩ := shape_mem h a ha
  rw [← ha2]
  exact ht a' ha' p (ha1 p hpa) c hc

end Library

/-- **C90, the guard on the calls is exact.** Open a file that exists, whoever wrote it, whose objects have names without slashes. Take a
    history of tables that write values of the types that the channels have. The library answers as the store does, in every program that
    plays the history, with any values, and that asks anything about one object at a time and opens the file again, exactly if every data
    write differs from the list of channels in force at a position that both lists have; at the beginning this is the list of the
    last data segment of the file. -/
theorem existing_file_is_store_iff (al : Alloc) {fs : List FileSegment} {t : TdmsFile} {ty : Text → STy} {last : Last}
    (he : Existing al fs t ty last)
    (hplain : ∀ p, (storeIn ty t.bytes (fs.map FileSegment.segment)).objects p → ∃ o : Obj, o.SlashFree ∧ o.toPath.path = p)
    (ops : List Op) (htabs : Tables ops)
    (hfile : ∀ op ∈ ops, ∀ p, Names p op → ∀ c, (storeIn ty t.bytes (fs.map FileSegment.segment)).content p = some c →
      typeOf op = some c.1)
    (htidy : ∀ op ∈ ops, Tidy op) (hfit : ∀ op ∈ ops, OpFits op) (hsz : (runOps al t ops).bytes.length < 2 ^ 63) :
    (∀ cmds, Plays ops cmds → (∀ cmd ∈ cmds, cmd.Single) →
      Behaves al (storeIn ty t.bytes (fs.map FileSegment.segment)) (replies al t cmds)) ↔ Changing last ops := by
  have hal := he.generous
  obtain ⟨s, hs0⟩ : ∃ s, s = storeIn ty t.bytes (fs.map FileSegment.segment) := ⟨_, rfl⟩
  rw [← hs0] at hplain hfile ⊢
  have hsized := opfits_sized hfit
  constructor
  · intro h
    refine Classical.byContradiction fun hc => ?_
    obtain ⟨pre, e, wty, chs, vals, layout, post, hops, hpre, hd⟩ := first_repeat ops last hc
    have hmemw : Op.write e wty chs vals layout ∈ ops := by rw [hops]; simp
    have hty : SizedTy wty := hsized e wty chs vals layout hmemw
    obtain ⟨v, hv⟩ := STy.ones al (ty := wty) hty.2
    obtain ⟨vals', hvals'⟩ : ∃ vals' : List wty.Val, vals' = List.replicate vals.length v := ⟨_, rfl⟩
    have hshape : SameShape ops (pre ++ Op.write e wty chs vals' layout :: post) := by
      rw [hops]
      exact sameShape_append (sameShape_refl pre) (.write (by rw [hvals', List.length_replicate]) (sameShape_refl post))
    have htake : (pre ++ Op.write e wty chs vals' layout :: post).take (pre.length + 1)
        = pre ++ [Op.write e wty chs vals' layout] := by
      rw [List.take_append, List.take_of_length_le (Nat.le_succ _), Nat.add_sub_cancel_left]; rfl
    have htab' := tables_shape hshape htabs.tables
    have hsub : ∀ o ∈ pre ++ [Op.write e wty chs vals' layout], o ∈ pre ++ Op.write e wty chs vals' layout :: post := by
      rw [← htake]
      exact fun o => List.mem_of_mem_take
    have hlastmem : Op.write e wty chs vals' layout ∈ pre ++ [Op.write e wty chs vals' layout] :=
      List.mem_append_right _ (List.mem_singleton.mpr rfl)
    have ha : ∀ op ∈ pre ++ [Op.write e wty chs vals' layout], Accepted op = true := accepted_table
      (fun e ty chs vals layout hm => htab' _ _ _ _ _ (hsub _ hm))
    have hap : ∀ op ∈ pre, Accepted op = true := fun o ho => ha o (List.mem_append_left _ ho)
    have htabw : Table wty chs vals' := htab' e wty chs vals' layout (hsub _ hlastmem)
    obtain ⟨c, hc0⟩ := List.exists_mem_of_ne_nil _ htabw.some_channel
    have hnames : Names c.path (Op.write e wty chs vals' layout) := ⟨c, hc0, rfl⟩
    have hcount := after_count_grows (s := pre.foldl Store.after s) (e := e) (layout := layout) htabw hc0 (by
      intro x hx
      rcases content_type s pre c.path x hx with ⟨c0, h1, h2⟩ | ⟨op, h1, h2, h3⟩
      · have h4 := shape_fileTypes hshape hfile _ (hsub _ hlastmem) c.path hnames c0 h1
        rw [← h2]
        exact (Option.some.inj h4).symm
      · have h4 := shape_types hshape htabs.types _ (hsub _ hlastmem) op (hsub _ (List.mem_append_left _ h1)) c.path hnames h2
        rw [h3] at h4
        exact (Option.some.inj h4).symm)
    have hsingle : ∀ (os : List Op) (rest : List Command), (∀ cmd ∈ rest, cmd.Single) →
        ∀ cmd ∈ os.map Command.call ++ rest, cmd.Single := by
      intro os rest hr cmd hcmd
      rcases List.mem_append.mp hcmd with hcmd | hcmd
      · obtain ⟨op, _, rfl⟩ := List.mem_map.mp hcmd
        trivial
      · exact hr cmd hcmd
    -- before the write
    have hb1 := behaves_calls al [.ask (.length c)] pre hap _ _ (h _ ⟨ops, pre.length, sameShape_refl ops, by
        rw [Library.calls_append, calls_commands hap, hops, List.take_left' rfl]
        exact List.append_nil _⟩ (hsingle _ _ (by
          intro cmd hcmd
          rw [List.mem_singleton.mp hcmd]; trivial)))
    -- after it, and after opening the file again
    have hb2 := behaves_calls al [.reopen, .ask (.length c)] _ ha _ _ (h _ ⟨_, pre.length + 1, hshape, by
        rw [Library.calls_append, calls_commands ha, htake]
        exact List.append_nil _⟩ (hsingle _ _ (by
          intro cmd hcmd
          rcases List.mem_cons.mp hcmd with hcmd | hcmd
          · rw [hcmd]; trivial
          · rw [List.mem_singleton.mp hcmd]; trivial)))
    have hfit' := opfits_shape hshape hfit
    have hdist' : ∀ op ∈ pre, Distinct op := by
      intro op ho
      cases op with
      | props => trivial
      | write e ty chs vals layout => exact (htab' _ _ _ _ _ (List.mem_append_left _ ho)).distinct
    have hses : Session al t := .opened he.opened
    have hholds := _root_.Tedium.Holds.of_opened al hal he.fits he.opened
    have hact : last.channels = t.index.activeObjects.map (·.path) := by
      rw [← he.channels]
      exact (replay_refines hholds.index).obj.paths.symm
    have hpsz : (runOps al t pre).bytes.length < 2 ^ 64 := by
      have h1 : (runOps al t pre).bytes.length ≤ (runOps al t ops).bytes.length := by
        rw [hops, runOps_append]
        exact (runOps_bytes al _ _).length_le
      omega
    obtain ⟨more, hfs⟩ := reads_history al pre fs t last hholds hses hact hb1.1 hdist'
      (fun op ho => hfit' op (List.mem_append_left _ ho)) (changing_described al pre _ hpre) hpsz
    have hforce := active_in_force al pre t last hses hact hdist' hb1.1
    have hre := hb2.2.1
    have hlen2 := hb2.2.2.1.1
    rw [runOps_append] at hre hlen2
    cases hopen : TdmsFile.new al (runOps al (runOps al t pre) [Op.write e wty chs vals' layout]).bytes with
    | error err =>
      change (match TdmsFile.new al (runOps al (runOps al t pre) [Op.write e wty chs vals' layout]).bytes with
        | .ok t' => ((.ok .done : R Reply), t')
        | .error e => (.error e, _)).1 = _ at hre
      rw [hopen] at hre
      cases hre
    | ok t' =>
      have hidx := ones_forgotten al hal hfs e wty chs vals' layout (by
        intro w hw x hx
        rw [hvals'] at hw
        rw [List.eq_of_mem_replicate hw] at hx
        exact hv e x hx) (by rw [← hforce]; exact hd) htabw.some_channel htabw.whole hopen
      rw [List.foldl_append] at hlen2
      have hobj : ((pre.foldl Store.after s).after (Op.write e wty chs vals' layout)).objects c.path := Or.inr ⟨c, hc0, rfl⟩
      have hlen2 := hlen2 hobj
      change ((match TdmsFile.new al (runOps al (runOps al t pre) [Op.write e wty chs vals' layout]).bytes with
        | .ok t' => ((.ok .done : R Reply), t')
        | .error e => (.error e, _)).2.channelLength c).map Reply.length = .ok (.length (some _)) at hlen2
      rw [hopen] at hlen2
      change (t'.channelLength c).map Reply.length
        = .ok (.length (some (((pre.foldl Store.after s).after (Op.write e wty chs vals' layout)).count c.path))) at hlen2
      have hsame : t'.channelLength c = (runOps al t pre).channelLength c := by
        unfold TdmsFile.channelLength
        rw [hidx]
      rw [hsame] at hlen2
      have hans : ((pre.foldl Store.after s).objects c.path → ((runOps al t pre).channelLength c).map Reply.length
          = .ok (.length (some ((pre.foldl Store.after s).count c.path)))) ∧
          (¬ (pre.foldl Store.after s).objects c.path → ((runOps al t pre).channelLength c).map Reply.length = .ok (.length none)) :=
        hb1.2.1
      by_cases ho : (pre.foldl Store.after s).objects c.path
      · have := (hans.1 ho).symm.trans hlen2
        injection this with this
        injection this with this
        injection this with this
        omega
      · have := (hans.2 ho).symm.trans hlen2
        injection this with this
        injection this with this
        cases this
  · rintro hch cmds ⟨ops', n, hs, hcalls⟩ hsingle
    have hch' := changing_take _ _ n (changing_shape hs _ hch)
    rw [hs0] at hfile hplain ⊢
    refine existing_file_is_store_partial al he cmds ⟨?_, ?_, ?_, ?_, fun _ => ⟨?_, ?_⟩, ?_, ?_⟩
    · rw [hcalls]
      exact changing_compatible _ _ (fun e ty chs vals layout hm => tables_shape hs htabs.tables e ty chs vals layout
        (List.mem_of_mem_take hm)) hch'
    · rw [hcalls]
      intro op ho op' ho'
      exact shape_types hs htabs.types op (List.mem_of_mem_take ho) op' (List.mem_of_mem_take ho')
    · rw [hcalls]
      intro op ho
      exact shape_fileTypes hs hfile op (List.mem_of_mem_take ho)
    · rw [hcalls]
      have h1 := runOps_take_bytes al t ops' n
      have h2 := (runOps_shape al hs htabs.sized t t rfl rfl).2
      omega
    · rw [hcalls]
      exact fun op ho => opfits_shape hs hfit op (List.mem_of_mem_take ho)
    · rw [hcalls]
      exact changing_described al _ _ hch'
    · rw [hcalls]
      intro _ _ _
      refine ⟨fun op ho => ?_, hplain⟩
      obtain ⟨o, ho, _, _, h⟩ := shape_mem hs op (List.mem_of_mem_take ho)
      exact h (htidy o ho)
    · intro pre ty cs start post hh
      exact absurd (hsingle (.ask (.readMany ty cs start)) (by rw [hh]; simp)) id

/-- The hypotheses hold for `windowFile` and `windowOps`, and so do both sides. -/
theorem existing_file_is_store_iff_example : Existing anyAlloc windowFile windowOpen windowTypes windowLast ∧
    (∀ p, (storeIn windowTypes windowOpen.bytes (windowFile.map FileSegment.segment)).objects p →
      ∃ o : Obj, o.SlashFree ∧ o.toPath.path = p) ∧
    Tables windowOps ∧
    (∀ op ∈ windowOps, ∀ p, Names p op → ∀ c,
      (storeIn windowTypes windowOpen.bytes (windowFile.map FileSegment.segment)).content p = some c → typeOf op = some c.1) ∧
    (∀ op ∈ windowOps, Tidy op) ∧ (∀ op ∈ windowOps, OpFits op) ∧ (runOps anyAlloc windowOpen windowOps).bytes.length < 2 ^ 63 ∧
    Changing windowLast windowOps := by
  have h := windowProgram_proper
  have hcalls : calls windowProgram = windowOps := by rfl
  have hl := h.lists (.ask .groups) (by unfold windowProgram; simp) trivial
  have hr := (h.reopens (by unfold windowProgram; simp)).1
  have h1 := h.compatible
  have h2 := h.types
  have h3 := h.fileTypes
  have h4 := h.size
  rw [hcalls] at hl hr h1 h2 h3 h4
  refine ⟨windowFile_existing, hl.2, ⟨compatible_table _ _ h1, h2⟩, h3, hl.1, hr, h4, ?_⟩
  exact ⟨by decide +kernel, by decide +kernel, by decide +kernel, trivial⟩

end Tedium
