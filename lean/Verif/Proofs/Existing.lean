import Verif.Spec.Existing
import Verif.Proofs.Library

/-! # Helper lemmas: the library as a store, on files that exist -/

namespace Tedium
open SegSpec WriteSpec PlanSpec

namespace Library

/-- The open file `t`, of the segments `segs`, is what the store says. -/
structure Models (al : Alloc) (s : Store) (last : Last) (segs : List Segment) (t : TdmsFile) : Prop where
  session : Session al t
  size : t.bytes.length < 2 ^ 63
  exact' : Exact segs t
  last : LastIsIn (fun ty => [(ty.storage al).natural]) segs last
  regular : ∀ pre ∈ dataPrefixes segs, Regular t.bytes pre
  objects : ∀ p, t.Has p ↔ s.objects p
  value : ∀ (path : PropertyPath) n, foundValue (t.readProperty path n) = s.value path.path n
  absent : ∀ p, s.content p = none → ∀ pre ∈ dataPrefixes segs, p ∉ active pre
  present : ∀ p ty vals, s.content p = some ⟨ty, vals⟩ → Format.ordinaryTy ty = true ∧
    (∀ pre ∈ dataPrefixes segs, p ∈ active pre → ∀ m, layoutOf (entries pre) p = some m → m.dataType = (ty.storage al).natural) ∧
    ∀ g, (t.bytes ++ g).length < 2 ^ 63 → channelSamples (Format.decode ty) (t.bytes ++ g) segs p = vals

section
variable {al : Alloc} {s : Store} {last : Last} {segs : List Segment} {t : TdmsFile}

theorem Models.listed (h : Models al s last segs t) (p : Text) : t.Has p ↔ Listed (entries segs) p := by
  rw [has_get]
  constructor
  · intro hh
    refine Classical.byContradiction fun hn => hh ?_
    exact ((replay_refines h.exact'.refines).obj.unlisted _ hn).1
  · intro hh
    rw [(replay_refines h.exact'.refines).obj.listed _ hh]
    nofun

theorem Models.count (h : Models al s last segs t) (p : Text) : sampleCount segs p = s.count p := by
  unfold Store.count
  cases hc : s.content p with
  | none =>
    rw [← length_channelSamples (dec := Format.decode .u8) h.exact'.refines t.bytes p,
      channelSamples_inactive _ _ (h.absent p hc)]
    rfl
  | some c =>
    obtain ⟨ty, vals⟩ := c
    rw [← length_channelSamples (dec := Format.decode ty) h.exact'.refines (t.bytes ++ []) p, (h.present p ty vals hc).2.2 []
      (by rw [List.append_nil]; exact h.size)]

/-- One call that writes. -/
theorem Models.step (h : Models al s last segs t) (op : Op) (hfol : Follows last op)
    (hty : ∀ p, Names p op → ∀ c, s.content p = some c → typeOf op = some c.1)
    (hsz : (op.run al t).2.bytes.length < 2 ^ 63) :
    (op.run al t).1 = .ok () ∧ ∃ seg, Models al (s.after op) (last.after op) (segs ++ [seg]) (op.run al t).2 ∧
      (seg.toc.containsRawData = true → ∀ p, p ∈ active (segs ++ [seg]) ↔ Names p op) := by
  have hpfx := Op.run_bytes al t op
  have hobj : ∀ p, (op.run al t).2.Has p → t.Has p ∨ op.Mentions p := fun p hp => call_objects hp
  have hval := fun (path : PropertyPath) n => last_write_wins al t [op] path n
  have hstay : ∀ p, t.Has p → (op.run al t).2.Has p := fun p hp => objects_stay al t [op] hp
  have hses : Session al (op.run al t).2 := .call op h.session
  obtain ⟨t', hrun, seg, hx, hl, hnew, hlist, hsam⟩ := history_step al (fun ty => [(ty.storage al).natural])
    (fun ty => List.mem_singleton.mpr rfl) (fun ty d hd => by rw [List.mem_singleton.mp hd]; exact STy.natural_mem al ty)
    h.exact' h.last op hfol hsz
  have hrunOps : runOps al t [op] = t' := by
    show (op.run al t).2 = t'
    rw [hrun]
  rw [hrunOps] at hval
  rw [hrun] at hpfx hobj hstay hses hsz ⊢
  dsimp only at hpfx hobj hstay hses hsz ⊢
  obtain ⟨g1, hg1⟩ := hpfx
  have hdp : ∀ pre ∈ dataPrefixes (segs ++ [seg]), pre ∈ dataPrefixes segs ∨
      (pre = segs ++ [seg] ∧ seg.toc.containsRawData = true) := by
    intro pre hpre
    rw [dataPrefixes_snoc] at hpre
    rcases List.mem_append.mp hpre with hp | hp
    · exact Or.inl hp
    · split at hp
      · rename_i hraw; exact Or.inr ⟨List.mem_singleton.mp hp, hraw⟩
      · cases hp
  have hact : seg.toc.containsRawData = true → ∀ p, p ∈ active (segs ++ [seg]) ↔ Names p op := fun hraw =>
    (hnew hraw).2.elim fun _ hh => hh.2.2.1
  -- the channel is not named
  have hother : ∀ p, ¬ Names p op → (s.after op).content p = s.content p := by
    intro p hn
    cases op with
    | props => rfl
    | write e ty chs vals layout =>
      rw [names_iff] at hn
      show (match (chs.map ChannelPath.path).idxOf? p with | none => _ | some i => _) = _
      rw [idxOf?_eq_none.mpr hn]
  have hnil : ∀ ty p, ¬ Names p op → valuesFor ty p op = [] := by
    intro ty p hn
    have := written_unnamed (ty := ty) (p := p) (ops := [op]) (fun o ho => by rw [List.mem_singleton.mp ho]; exact hn)
    rwa [show written ty p [op] = valuesFor ty p op from List.append_nil _] at this
  -- the channel is named
  have hnamed : ∀ p, Names p op → ∃ ty, typeOf op = some ty ∧ Format.ordinaryTy ty = true ∧
      (s.after op).content p = some (extend (valuesFor ty p op) (s.content p)) := by
    intro p hn
    cases op with
    | props => exact absurd hn id
    | write e ty chs vals layout =>
      refine ⟨ty, rfl, hfol.1.ordinary, ?_⟩
      rw [names_iff] at hn
      obtain ⟨i, hi⟩ := Option.isSome_iff_exists.mp (List.isSome_idxOf?.mpr hn)
      show (match (chs.map ChannelPath.path).idxOf? p with | none => _ | some i => _) = _
      unfold valuesFor
      dsimp only
      rw [hi, dif_pos rfl]
  refine ⟨rfl, seg, ⟨hses, hsz, hx, hl, ?_, ?_, ?_, ?_, ?_⟩, hact⟩
  · intro pre hpre
    rcases hdp pre hpre with hp | ⟨hp, hraw⟩
    · exact (h.regular pre hp).grow ⟨g1, hg1⟩
    · have := (hnew hraw).1 []
      rw [List.append_nil] at this
      rw [hp]; exact this
  · intro p
    have hone : (s.after op).objects p ↔ s.objects p ∨ op.Mentions p := by
      cases op with
      | props e path ps => exact Iff.rfl
      | write e ty chs vals layout =>
        show _ ∨ (∃ c ∈ chs, c.path = p) ↔ _ ∨ p ∈ chs.map ChannelPath.path
        rw [List.mem_map]
    rw [hone, ← h.objects]
    refine ⟨hobj p, fun hh => hh.elim (hstay p) fun hm => ?_⟩
    cases op with
    | props e path ps =>
      have := (property_write_objects h.session e path ps p).mpr (Or.inr hm)
      rw [show t.writeProperties e path ps = (.ok (), t') from hrun] at this
      exact this
    | write e ty chs vals layout =>
      obtain ⟨c, hcm, hcp⟩ := List.mem_map.mp hm
      rw [has_get, (replay_refines hx.refines).obj.listed _ (hlist p ⟨c, hcm, hcp⟩)]
      nofun
  · intro path n
    rw [hval, h.value]
    cases op with
    | props e path' ps =>
      show (lastValue ((if path'.path = path.path then ps else []) ++ []) n).or _
        = if path.path = path'.path then (lastValue ps n).or (s.value path.path n) else s.value path.path n
      rw [List.append_nil]
      by_cases hp : path.path = path'.path
      · rw [if_pos hp.symm, if_pos hp]
      · rw [if_neg (fun hh => hp hh.symm), if_neg hp]
        rfl
    | write e ty chs vals layout => rfl
  · intro p hc pre hpre
    by_cases hn : Names p op
    · obtain ⟨ty, _, _, hcont⟩ := hnamed p hn
      rw [hcont] at hc; cases hc
    · rw [hother p hn] at hc
      rcases hdp pre hpre with hp | ⟨hp, hraw⟩
      · exact h.absent p hc pre hp
      · rw [hp, hact hraw]; exact hn
  · intro p ty vals hc
    by_cases hn : Names p op
    · obtain ⟨ty1, hty1, hord, hcont⟩ := hnamed p hn
      rw [hcont] at hc
      have hnewlay : seg.toc.containsRawData = true → ∀ m, layoutOf (entries (segs ++ [seg])) p = some m →
          m.dataType = (ty1.storage al).natural := by
        intro hraw m hm
        obtain ⟨_, ty2, h1, _, _, h2⟩ := hnew hraw
        rw [hty1] at h1
        cases h1
        exact List.mem_singleton.mp (h2 p hn m hm)
      cases hold : s.content p with
      | none =>
        rw [hold] at hc
        obtain ⟨h1, h2⟩ := Sigma.mk.inj (Option.some.inj hc)
        subst h1
        cases h2
        refine ⟨hord, fun pre hpre ha m hm => ?_, fun g hg => ?_⟩
        · rcases hdp pre hpre with hp | ⟨hp, hraw⟩
          · exact absurd ha (h.absent p hold pre hp)
          · subst hp; exact hnewlay hraw m hm
        · rw [hsam ty1 p (fun _ => hty1) g, channelSamples_inactive _ _ (h.absent p hold)]
          rfl
      | some c =>
        obtain ⟨ty0, old⟩ := c
        have htt := hty p hn _ hold
        rw [hty1] at htt
        injection htt with htt
        dsimp only at htt
        subst htt
        rw [hold] at hc
        have hext : extend (valuesFor ty1 p op) (some ⟨ty1, old⟩) = ⟨ty1, old ++ valuesFor ty1 p op⟩ := by
          unfold extend
          dsimp only
          rw [dif_pos rfl]
        rw [hext] at hc
        obtain ⟨h1, h2⟩ := Sigma.mk.inj (Option.some.inj hc)
        subst h1
        cases h2
        obtain ⟨_, p2, p3⟩ := h.present p _ _ hold
        refine ⟨hord, fun pre hpre ha m hm => ?_, fun g hg => ?_⟩
        · rcases hdp pre hpre with hp | ⟨hp, hraw⟩
          · exact p2 pre hp ha m hm
          · subst hp; exact hnewlay hraw m hm
        · rw [hsam ty1 p (fun _ => hty1) g, ← hg1, List.append_assoc, p3 _ (by rw [← List.append_assoc, hg1]; exact hg)]
    · rw [hother p hn] at hc
      obtain ⟨p1, p2, p3⟩ := h.present p _ _ hc
      refine ⟨p1, fun pre hpre ha m hm => ?_, fun g hg => ?_⟩
      · rcases hdp pre hpre with hp | ⟨hp, hraw⟩
        · exact p2 pre hp ha m hm
        · rw [hp, hact hraw] at ha
          exact absurd ha hn
      · rw [hsam ty p (fun hh => absurd hh hn) g, hnil ty p hn, List.append_nil, ← hg1, List.append_assoc, p3 _ (by rw [← List.append_assoc, hg1]; exact hg)]

theorem Models.answers_property (h : Models al s last segs t) (path : PropertyPath) (n : Text) :
    s.Answers al (.property path n) ((Query.property path n).run al t) := by
  have hm := (missing_in_session t path (ChannelPath.new [] []) n).1
  refine ⟨fun ho => ?_, fun ho => ?_⟩
  · rw [← h.value]
    show (t.readProperty path n).map _ = _
    have hhas := (h.objects _).mpr ho
    rw [has_get] at hhas
    unfold TdmsFile.readProperty Index.getObjectProperty
    cases hg : t.index.objects.get? path.path with
    | none => exact absurd hg hhas
    | some o => rfl
  · show (t.readProperty path n).map _ = _
    rw [hm.mpr (fun hh => ho ((h.objects _).mp hh))]
    rfl

theorem Models.answers_properties (h : Models al s last segs t) (path : PropertyPath) :
    s.Answers al (.properties path) ((Query.properties path).run al t) := by
  refine ⟨fun ho => ?_, fun ho => ?_⟩
  · have hhas := (h.objects _).mpr ho
    cases hg : t.readAllProperties path with
    | none => exact absurd hg hhas
    | some ps =>
      obtain ⟨h1, h2⟩ := all_properties_history h.session [] path hg
      refine ⟨ps, ?_, h1, fun n v => ?_⟩
      · show Except.ok (Reply.values (t.readAllProperties path)) = _
        rw [hg]
      · rw [h2, h.value]
        exact Iff.rfl
  · show Except.ok (Reply.values (t.readAllProperties path)) = _
    cases hg : t.readAllProperties path with
    | none => rfl
    | some ps => exact absurd ((h.objects _).mp (show t.readAllProperties path ≠ none by rw [hg]; nofun)) ho

theorem Models.answers_length (h : Models al s last segs t) (c : ChannelPath) :
    s.Answers al (.length c) ((Query.length c).run al t) := by
  refine ⟨fun ho => ?_, fun ho => ?_⟩
  · show (t.channelLength c).map _ = _
    rw [channel_length_sum h.exact'.refines c ((h.listed _).mp ((h.objects _).mpr ho))]
    have hcount := sampleCount_le (p := c.path) (fun pre hp _ => h.regular pre hp)
    have hcnt := h.count c.path
    rw [h.exact'.ends] at hcount
    unfold sampleCount at hcount hcnt
    have := h.size
    rw [if_pos (by omega), hcnt]
    rfl
  · show (t.channelLength c).map _ = _
    rw [((missing_in_session t ⟨[]⟩ c []).2.2.1).mpr (fun hh => ho ((h.objects _).mp hh))]
    rfl

theorem Models.image (h : Models al s last segs t) : Image al s segs t := by
  refine ⟨h.exact'.refines, h.size, h.regular, h.objects, h.absent, fun p ty vals hc => ?_⟩
  obtain ⟨p1, p2, p3⟩ := h.present p ty vals hc
  have hs := p3 [] (by rw [List.append_nil]; exact h.size)
  rw [List.append_nil] at hs
  exact ⟨p1, p2, hs⟩

theorem Models.answers_groups (h : Models al s last segs t) (hclean : ∀ p, s.objects p → ∃ o : Obj, o.SlashFree ∧ o.toPath.path = p) :
    s.Answers al .groups (Query.groups.run al t) := by
  obtain ⟨gs, h1, h2, h3⟩ := list_groups_partial h.session (fun p hp => hclean p ((h.objects p).mp hp))
  refine ⟨gs, ?_, h2, fun g => ?_⟩
  · show t.listGroups.map _ = _
    rw [h1]; rfl
  · rw [h3]
    simp only [h.objects]

theorem Models.answers_channels (h : Models al s last segs t) (hclean : ∀ p, s.objects p → ∃ o : Obj, o.SlashFree ∧ o.toPath.path = p)
    (g : Text) : s.Answers al (.channels g) ((Query.channels g).run al t) := by
  obtain ⟨cs, h1, h2, h3⟩ := list_channels_partial h.session (fun p hp => hclean p ((h.objects p).mp hp)) g
  refine ⟨cs, ?_, h2, fun c => ?_⟩
  · show (t.listChannelsInGroup (PropertyPath.group g)).map _ = _
    rw [h1]; rfl
  · rw [h3, h.objects]

end

/-! ## The file at the beginning -/

theorem Existing.models {al : Alloc} {fs : List FileSegment} {t : TdmsFile} {ty : Text → STy} {last : Last}
    (h : Existing al fs t ty last) (hsz : t.bytes.length < 2 ^ 63) :
    Models al (storeIn ty t.bytes (fs.map FileSegment.segment)) last (fs.map FileSegment.segment) t := by
  have hh := _root_.Tedium.Holds.of_opened al h.generous h.fits h.opened
  have hx : Exact (fs.map FileSegment.segment) t := ⟨hh.index, by rw [FileSegment.endOf_segments, hh.bytes]⟩
  have hlisted : ∀ p, t.Has p ↔ Listed (entries (fs.map FileSegment.segment)) p := by
    intro p
    rw [has_get]
    constructor
    · intro hp
      refine Classical.byContradiction fun hn => hp ?_
      exact ((replay_refines hx.refines).obj.unlisted _ hn).1
    · intro hp
      rw [(replay_refines hx.refines).obj.listed _ hp]
      nofun
  refine ⟨.opened h.opened, hsz, hx, ⟨h.channels, h.format⟩, h.regular, hlisted, ?_, ?_, ?_⟩
  · intro path n
    by_cases hl : Listed (entries (fs.map FileSegment.segment)) path.path
    · rw [(properties_last_value hx.refines path hl).1 n]
      rfl
    · have hno : ¬ t.Has path.path := fun hp => hl ((hlisted _).mp hp)
      rw [((missing_in_session t path (ChannelPath.new [] []) n).1).mpr hno]
      show none = lastValue (propertiesOf (entries (fs.map FileSegment.segment)) path.path) n
      rw [propertiesOf_unlisted hl]
      rfl
  · intro p hc pre hpre hact
    unfold storeIn at hc
    dsimp only at hc
    rw [if_pos (List.any_eq_true.mpr ⟨pre, hpre, decide_eq_true hact⟩)] at hc
    cases hc
  · intro p ty' vals hc
    unfold storeIn at hc
    dsimp only at hc
    split at hc
    · rename_i hany
      obtain ⟨pre0, hpre0, hact0⟩ := List.any_eq_true.mp hany
      have hact0 := of_decide_eq_true hact0
      obtain ⟨h1, h2⟩ := Sigma.mk.inj (Option.some.inj hc)
      subst h1
      cases h2
      refine ⟨(h.typed pre0 hpre0 p hact0).1, fun pre hpre hact => (h.typed pre hpre p hact).2, fun g hg => ?_⟩
      by_cases hl : Listed (entries (fs.map FileSegment.segment)) p
      · refine channelSamples_grow al _ (h.typed pre0 hpre0 p hact0).1 hx.refines (List.prefix_append _ _) hg ⟨⟨p⟩⟩ hl
          (fun pre hpre hact => ⟨h.regular pre hpre, fun m hm => ?_⟩)
        rw [(h.typed pre hpre p hact).2 m hm]
        exact STy.natural_mem al _
      · rw [channelSamples_unlisted _ _ hl, channelSamples_unlisted _ _ hl]
    · cases hc

/-! ## The file after some calls -/

/-- Which segments have raw data: those of the file at the beginning, and those of the calls. -/
def Linked (segs0 : List Segment) (s0 : Store) (ops : List Op) (segs : List Segment) : Prop :=
  ∀ pre ∈ dataPrefixes segs, pre ∈ dataPrefixes segs0 ∨ ∃ o1 op o2, ops = o1 ++ op :: o2 ∧ (∀ p, p ∈ active pre ↔ Names p op) ∧
    ∀ p, sampleCount pre.dropLast p = (o1.foldl Store.after s0).count p

theorem content_type (s0 : Store) (ops : List Op) (p : Text) : ∀ c, (ops.foldl Store.after s0).content p = some c →
    (∃ c0, s0.content p = some c0 ∧ c0.1 = c.1) ∨ ∃ op ∈ ops, Names p op ∧ typeOf op = some c.1 := by
  refine snoc_induction (P := fun ops => ∀ c, (ops.foldl Store.after s0).content p = some c →
    (∃ c0, s0.content p = some c0 ∧ c0.1 = c.1) ∨ ∃ op ∈ ops, Names p op ∧ typeOf op = some c.1) ?_ ?_ ops
  · intro c hc
    exact Or.inl ⟨c, hc, rfl⟩
  · intro ops op ih c hc
    rw [List.foldl_append] at hc
    have keep : (ops.foldl Store.after s0).content p = some c →
        (∃ c0, s0.content p = some c0 ∧ c0.1 = c.1) ∨ ∃ o ∈ ops ++ [op], Names p o ∧ typeOf o = some c.1 := fun h =>
      (ih c h).imp id fun ⟨o, ho, h⟩ => ⟨o, List.mem_append_left _ ho, h⟩
    cases op with
    | props => exact keep hc
    | write e ty chs vals layout =>
      change (match (chs.map ChannelPath.path).idxOf? p with | none => _ | some i => _) = _ at hc
      cases hi : (chs.map ChannelPath.path).idxOf? p with
      | none => rw [hi] at hc; exact keep hc
      | some i =>
        rw [hi] at hc
        have hn : Names p (.write e ty chs vals layout) :=
          (names_iff p e ty chs vals layout).mpr (List.isSome_idxOf?.mp (by rw [hi]; rfl))
        cases hold : (ops.foldl Store.after s0).content p with
        | none =>
          dsimp only at hc
          rw [hold] at hc
          cases hc
          exact Or.inr ⟨_, List.mem_append_right _ (List.mem_singleton.mpr rfl), hn, rfl⟩
        | some c' =>
          obtain ⟨ty', old⟩ := c'
          dsimp only at hc
          rw [hold] at hc
          have hc1 : c.1 = ty' := by
            injection hc with hc
            rw [← hc]
            unfold extend
            dsimp only
            split <;> rfl
          rw [hc1]
          rcases ih _ hold with h | ⟨o, ho, h⟩
          · exact Or.inl h
          · exact Or.inr ⟨o, List.mem_append_left _ ho, h⟩

theorem models_history {al : Alloc} {segs0 : List Segment} {s0 : Store} {last : Last} {t : TdmsFile}
    (h0 : Models al s0 last segs0 t) (ops : List Op) : Compatible last ops →
    (∀ op ∈ ops, ∀ op' ∈ ops, ∀ p, Names p op → Names p op' → typeOf op = typeOf op') →
    (∀ op ∈ ops, ∀ p, Names p op → ∀ c, s0.content p = some c → typeOf op = some c.1) →
    (runOps al t ops).bytes.length < 2 ^ 63 →
    AllSucceed al t ops ∧ ∃ segs, Models al (ops.foldl Store.after s0) (ops.foldl Last.after last) segs (runOps al t ops) ∧
      Linked segs0 s0 ops segs := by
  refine snoc_induction (P := fun ops => Compatible last ops →
    (∀ op ∈ ops, ∀ op' ∈ ops, ∀ p, Names p op → Names p op' → typeOf op = typeOf op') →
    (∀ op ∈ ops, ∀ p, Names p op → ∀ c, s0.content p = some c → typeOf op = some c.1) →
    (runOps al t ops).bytes.length < 2 ^ 63 →
    AllSucceed al t ops ∧ ∃ segs, Models al (ops.foldl Store.after s0) (ops.foldl Last.after last) segs (runOps al t ops) ∧
      Linked segs0 s0 ops segs) ?_ ?_ ops
  · intro _ _ _ _
    exact ⟨fun pre op post h => by simp at h, segs0, h0, fun pre hpre => Or.inl hpre⟩
  · intro ops op ih hc types ftypes hsz
    obtain ⟨hc1, hfol⟩ := compatible_snoc ops _ op hc
    have hmem : ∀ o ∈ ops, o ∈ ops ++ [op] := fun o ho => List.mem_append_left _ ho
    have hself : op ∈ ops ++ [op] := List.mem_append_right _ (List.mem_singleton.mpr rfl)
    rw [runOps_append] at hsz ⊢
    have hsz1 : (op.run al (runOps al t ops)).2.bytes.length < 2 ^ 63 := hsz
    obtain ⟨hall, segs, H, L⟩ := ih hc1 (fun o ho o' ho' => types o (hmem o ho) o' (hmem o' ho'))
      (fun o ho => ftypes o (hmem o ho)) (Nat.lt_of_le_of_lt (Op.run_bytes al (runOps al t ops) op).length_le hsz1)
    obtain ⟨hok, seg, H', hact⟩ := H.step op hfol (fun p hn c hcont => by
      rcases content_type s0 ops p c hcont with ⟨c0, h1, h2⟩ | ⟨o, ho, h1, h2⟩
      · rw [← h2]; exact ftypes op hself p hn c0 h1
      · rw [← h2]; exact types op hself o (hmem o ho) p hn h1) hsz1
    refine ⟨?_, segs ++ [seg], ?_, ?_⟩
    · intro pre o post hh
      rcases List.eq_nil_or_concat post with hp | ⟨post', x, hp⟩
      · subst hp
        obtain ⟨h1, h2⟩ := List.append_inj' hh rfl
        injection h2 with h2 _
        subst h1 h2
        exact hok
      · rw [hp, List.concat_eq_append, ← List.cons_append, ← List.append_assoc] at hh
        exact hall pre o post' (List.append_inj' hh rfl).1
    · rw [List.foldl_append, List.foldl_append]
      exact H'
    · intro pre hpre
      rw [dataPrefixes_snoc] at hpre
      rcases List.mem_append.mp hpre with hp | hp
      · rcases L pre hp with hp | ⟨o1, o, o2, ho, h1, h2⟩
        · exact Or.inl hp
        · exact Or.inr ⟨o1, o, o2 ++ [op], by rw [ho]; simp, h1, h2⟩
      · split at hp
        · rename_i hraw
          rw [List.mem_singleton.mp hp]
          refine Or.inr ⟨ops, op, [], rfl, hact hraw, fun p => ?_⟩
          rw [List.dropLast_concat, H.count]
        · cases hp

/-! ## Programs -/

theorem after_objects (s0 : Store) (ops : List Op) (p : Text) :
    (ops.foldl Store.after s0).objects p ↔ s0.objects p ∨ ∃ op ∈ ops, op.Mentions p := by
  refine snoc_induction (P := fun ops => (ops.foldl Store.after s0).objects p ↔ s0.objects p ∨ ∃ op ∈ ops, op.Mentions p) ?_ ?_ ops
  · exact ⟨Or.inl, fun h => h.elim id fun ⟨_, h, _⟩ => by cases h⟩
  · intro ops op ih
    rw [List.foldl_append]
    have hone : ((ops.foldl Store.after s0).after op).objects p ↔ (ops.foldl Store.after s0).objects p ∨ op.Mentions p := by
      cases op with
      | props e path ps => exact Iff.rfl
      | write e ty chs vals layout =>
        show _ ∨ (∃ c ∈ chs, c.path = p) ↔ _ ∨ p ∈ chs.map ChannelPath.path
        rw [List.mem_map]
    show ((ops.foldl Store.after s0).after op).objects p ↔ _
    rw [hone, ih]
    constructor
    · rintro ((h | ⟨o, ho, hm⟩) | hm)
      · exact Or.inl h
      · exact Or.inr ⟨o, List.mem_append_left _ ho, hm⟩
      · exact Or.inr ⟨op, List.mem_append_right _ (List.mem_singleton.mpr rfl), hm⟩
    · rintro (h | ⟨o, ho, hm⟩)
      · exact Or.inl (Or.inl h)
      · rcases List.mem_append.mp ho with ho | ho
        · exact Or.inl (Or.inr ⟨o, ho, hm⟩)
        · rw [List.mem_singleton.mp ho] at hm; exact Or.inr hm

/-- A call that is rejected. -/
theorem rejected_call (al : Alloc) (s : Store) (t : TdmsFile) (op : Op) (hacc : Accepted op = false) :
    (op.run al t).1.map (fun _ => Reply.done) = (s.call op).1 ∧ (op.run al t).2 = t ∧ (s.call op).2 = s := by
  cases op with
  | props => cases hacc
  | write e ty chs vals layout =>
    have hmod : ¬ chs.length = 0 → vals.length % chs.length ≠ 0 := by
      intro h0 hmod
      unfold Accepted at hacc
      dsimp only at hacc
      rw [hmod] at hacc
      cases chs with
      | nil => exact h0 rfl
      | cons c cs => cases hacc
    show (TdmsFile.writeChannels _ _ _ _ _ _).1.map _ = _ ∧ (TdmsFile.writeChannels _ _ _ _ _ _).2 = _ ∧ _
    unfold TdmsFile.writeChannels Store.call
    dsimp only
    by_cases h0 : chs.length = 0
    · rw [if_pos h0, if_pos h0]; exact ⟨rfl, rfl, rfl⟩
    · rw [if_neg h0, if_neg h0, if_pos (hmod h0), if_pos (hmod h0)]; exact ⟨rfl, rfl, rfl⟩

theorem accepted_call (s : Store) (op : Op) (hacc : Accepted op = true) : s.call op = (.ok .done, s.after op) := by
  cases op with
  | props => rfl
  | write e ty chs vals layout =>
    unfold Accepted at hacc
    rw [Bool.and_eq_true, Bool.not_eq_true', List.isEmpty_eq_false_iff, beq_iff_eq] at hacc
    unfold Store.call
    dsimp only
    rw [if_neg (fun hh => hacc.1 (List.length_eq_zero_iff.mp hh)), if_neg (fun hh => hh hacc.2)]

section
variable {al : Alloc} {fs : List FileSegment} {t : TdmsFile} {ty : Text → STy} {last : Last}

/-- What the store holds after the commands. -/
abbrev storeAfter (ty : Text → STy) (t : TdmsFile) (fs : List FileSegment) (past : List Command) : Store :=
  (calls past).foldl Store.after (storeIn ty t.bytes (fs.map FileSegment.segment))

abbrev ProperFile (al : Alloc) (fs : List FileSegment) (t : TdmsFile) (ty : Text → STy) (last : Last) (cmds : List Command) : Prop :=
  ProperOn al (fs.map FileSegment.segment) t (storeIn ty t.bytes (fs.map FileSegment.segment)) last cmds

theorem properOn_size {past rest : List Command} (h : ProperFile al fs t ty last (past ++ rest)) :
    (runOps al t (calls past)).bytes.length < 2 ^ 63 := by
  have := h.size
  rw [calls_append, runOps_append] at this
  exact Nat.lt_of_le_of_lt (runOps_bytes al _ _).length_le this

/-- One command of a program. -/
theorem command_on (he : Existing al fs t ty last) (past : List Command) (cmd : Command) (cmds : List Command)
    (h : ProperFile al fs t ty last (past ++ cmd :: cmds)) :
    (storeAfter ty t fs past).Replies al cmd (cmd.run al (runOps al t (calls past))).1 ∧
    (cmd.run al (runOps al t (calls past))).2 = runOps al t (calls (past ++ [cmd])) ∧
    (storeAfter ty t fs past).next cmd = storeAfter ty t fs (past ++ [cmd]) := by
  have hcalls : calls (past ++ cmd :: cmds) = calls past ++ calls (cmd :: cmds) := calls_append _ _
  have hmem : ∀ op ∈ calls past, op ∈ calls (past ++ cmd :: cmds) := fun op hop => by
    rw [hcalls]; exact List.mem_append_left _ hop
  have hc : Compatible last (calls past) := compatible_append _ _ _ (hcalls ▸ h.compatible)
  have hsz := properOn_size h
  have hsz0 : t.bytes.length < 2 ^ 63 := Nat.lt_of_le_of_lt (runOps_bytes al t (calls past)).length_le hsz
  have h0 := he.models hsz0
  obtain ⟨hall, segs, H, L⟩ := models_history h0 (calls past) hc
    (fun op hop op' hop' => h.types op (hmem op hop) op' (hmem op' hop')) (fun op hop => h.fileTypes op (hmem op hop)) hsz
  have hself : cmd ∈ past ++ cmd :: cmds := List.mem_append_right _ List.mem_cons_self
  have hclean : Lists cmd → ∀ p, (storeAfter ty t fs past).objects p → ∃ o : Obj, o.SlashFree ∧ o.toPath.path = p := by
    intro hl p hp
    obtain ⟨hl1, hl2⟩ := h.lists _ hself hl
    rcases (after_objects _ _ p).mp hp with hp | ⟨op, hop, hm⟩
    · exact hl2 p hp
    · have := hl1 op (hmem op hop)
      cases op with
      | props e path ps =>
        obtain ⟨o, h1, h2⟩ := this
        exact ⟨o, h1, by rw [h2]; exact hm.symm⟩
      | write e ty chs vals layout =>
        obtain ⟨c, hcm, hcp⟩ := List.mem_map.mp hm
        obtain ⟨o, h1, h2⟩ := this c hcm
        exact ⟨o, h1, h2.trans hcp⟩
  unfold storeAfter
  rw [calls_append]
  cases cmd with
  | ask q =>
    have hno : calls past ++ calls [Command.ask q] = calls past := List.append_nil _
    rw [hno]
    refine ⟨?_, rfl, rfl⟩
    show (storeAfter ty t fs past).Answers al q (q.run al _)
    cases q with
    | property path n => exact H.answers_property path n
    | properties path => exact H.answers_properties path
    | length c => exact H.answers_length c
    | read ty c start out => exact H.image.answers_read ty c start out
    | readMany ty' cs start =>
      have ht := h.together past ty' cs start cmds rfl
      refine H.image.answers_readMany ty' cs start ht.ordinary ht.distinct (fun c hcm d hdm pre hpre hc1 hd1 => ?_)
      rcases L pre hpre with hp | ⟨o1, op, o2, hsplit, hnm, hcnt⟩
      · exact ht.file c hcm d hdm pre hp hc1 hd1
      · have hn1 := (hnm _).mp hc1
        have hn2 := (hnm _).mp hd1
        refine ⟨ht.buffers c hcm d hdm ⟨op, by rw [hsplit]; exact List.mem_append_right _ List.mem_cons_self, hn1, hn2⟩, ?_⟩
        rw [hcnt, hcnt]
        exact ht.level c hcm d hdm o1 op o2 hsplit hn1 hn2
    | groups => exact H.answers_groups (hclean trivial)
    | channels g => exact H.answers_channels (hclean trivial) g
  | reopen =>
    have hno : calls past ++ calls [Command.reopen] = calls past := List.append_nil _
    rw [hno]
    obtain ⟨hfit, hdesc⟩ := h.reopens hself
    have hh := _root_.Tedium.Holds.of_opened al he.generous he.fits he.opened
    have hact : last.channels = t.index.activeObjects.map (·.path) := by
      rw [← he.channels]
      exact (replay_refines hh.index).obj.paths.symm
    obtain ⟨more, hm⟩ := reads_history al (calls past) fs t last hh (.opened he.opened) hact hall
      (fun op hop => by
        cases op with
        | props => trivial
        | write e ty chs vals layout => exact (compatible_table _ _ hc e ty chs vals layout hop).distinct)
      (fun op hop => hfit op (hmem op hop)) (described_append _ _ _ (hcalls ▸ hdesc)) (by omega)
    have hre := hm.new al he.generous
    have hrun : Command.reopen.run al (runOps al t (calls past)) = (.ok .done, runOps al t (calls past)) := by
      unfold Command.run
      dsimp only
      rw [hre]
    rw [hrun]
    exact ⟨rfl, rfl, rfl⟩
  | call op =>
    cases hacc : Accepted op with
    | true =>
      have hone : calls [Command.call op] = [op] := by
        unfold calls
        rw [List.filterMap_cons]
        dsimp only
        rw [hacc]
        rfl
      rw [hone, runOps_append, List.foldl_append]
      have hcons : calls (past ++ Command.call op :: cmds) = calls past ++ op :: calls cmds := by
        rw [hcalls, show Command.call op :: cmds = [Command.call op] ++ cmds from rfl, calls_append, hone]
        rfl
      have hok := (models_history h0 _ h.compatible h.types h.fileTypes h.size).1 (calls past) op (calls cmds) hcons
      have hcall := accepted_call (storeAfter ty t fs past) op hacc
      refine ⟨?_, rfl, ?_⟩
      · show (op.run al _).1.map _ = ((storeAfter ty t fs past).call op).1
        rw [hcall, hok]
        rfl
      · show ((storeAfter ty t fs past).call op).2 = _
        rw [hcall]
        rfl
    | false =>
      have hone : calls [Command.call op] = [] := by
        unfold calls
        rw [List.filterMap_cons]
        dsimp only
        rw [hacc]
        rfl
      rw [hone, List.append_nil]
      exact rejected_call al (storeAfter ty t fs past) (runOps al t (calls past)) op hacc

/-- A program whose first commands have been run goes on as the store says. -/
theorem behaves_on (he : Existing al fs t ty last) : ∀ (cmds past : List Command), ProperFile al fs t ty last (past ++ cmds) →
    Behaves al (storeAfter ty t fs past) (replies al (runOps al t (calls past)) cmds)
  | [], _, _ => trivial
  | cmd :: cmds, past, h => by
    obtain ⟨h1, h2, h3⟩ := command_on he past cmd cmds h
    have ih := behaves_on he cmds (past ++ [cmd]) (by rw [List.append_assoc]; exact h)
    refine (behaves_cons al _ cmd _ _).mpr ⟨h1, ?_⟩
    rw [h3, h2]
    exact ih

end
end Library
end Tedium
