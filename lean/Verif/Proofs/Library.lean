import Verif.Proofs.Image
import Verif.Props.ReadBack
import Verif.Props.Reopen
import Verif.Props.Rearrange
import Verif.Props.Properties
import Verif.Props.ReadSafety

/-! # Helper lemmas: the library as a store -/

namespace Tedium
open SegSpec WriteSpec PlanSpec

namespace Library

theorem compatible_snoc : ∀ (ops : List Op) (last : Last) (op : Op), Compatible last (ops ++ [op]) →
    Compatible last ops ∧ Follows (ops.foldl Last.after last) op
  | [], _, _, h => ⟨trivial, h.1⟩
  | o :: ops, last, op, h => by
    obtain ⟨h1, h2⟩ := compatible_snoc ops (last.after o) op h.2
    exact ⟨⟨h.1, h1⟩, h2⟩

theorem snoc_induction {α : Type} {P : List α → Prop} (nil : P []) (snoc : ∀ xs x, P xs → P (xs ++ [x])) (xs : List α) : P xs := by
  have key : ∀ n, ∀ xs : List α, xs.length = n → P xs := by
    intro n
    induction n with
    | zero => intro xs h; rw [List.length_eq_zero_iff.mp h]; exact nil
    | succ n ih =>
      intro xs h
      have hne : xs ≠ [] := by intro hh; subst hh; cases h
      rw [← List.dropLast_concat_getLast hne]
      exact snoc _ _ (ih _ (by rw [List.length_dropLast, h]; rfl))
  exact key _ xs rfl

/-- What the segments of a file are that a history wrote. -/
structure Holds (al : Alloc) (ops : List Op) (segs : List Segment) (t : TdmsFile) : Prop where
  exact' : Exact segs t
  last : LastIsIn (fun ty => [(ty.storage al).natural]) segs (ops.foldl Last.after Last.none)
  data : ∀ pre ∈ dataPrefixes segs, Regular t.bytes pre ∧ ∃ o1 op o2 ty, ops = o1 ++ op :: o2 ∧ typeOf op = some ty ∧
    Format.ordinaryTy ty = true ∧ (∀ p, p ∈ active pre ↔ Names p op) ∧
    (∀ p, Names p op → ∀ m, layoutOf (entries pre) p = some m → m.dataType = (ty.storage al).natural) ∧
    ∀ ty p, (∀ op ∈ ops, Names p op → typeOf op = some ty) → sampleCount pre.dropLast p = (written ty p o1).length
  samples : ∀ ty p, (∀ op ∈ ops, Names p op → typeOf op = some ty) → ∀ g,
    channelSamples (Format.decode ty) (t.bytes ++ g) segs p = written ty p ops

theorem holds_history (al : Alloc) (ops : List Op) : Compatible Last.none ops →
    (runOps al ⟨Index.new, []⟩ ops).bytes.length < 2 ^ 63 →
    AllSucceed al ⟨Index.new, []⟩ ops ∧ ∃ segs, Holds al ops segs (runOps al ⟨Index.new, []⟩ ops) := by
  refine snoc_induction (P := fun ops => Compatible Last.none ops → (runOps al ⟨Index.new, []⟩ ops).bytes.length < 2 ^ 63 →
    AllSucceed al ⟨Index.new, []⟩ ops ∧ ∃ segs, Holds al ops segs (runOps al ⟨Index.new, []⟩ ops)) ?_ ?_ ops
  · intro _ _
    refine ⟨fun pre op post h => by simp at h, [], ⟨rfl, rfl⟩, ⟨rfl, fun ty m h => by cases h⟩, fun pre h => (by cases h), fun ty p _ g => rfl⟩
  · intro ops op ih hc hsz
    obtain ⟨hc1, hfol⟩ := compatible_snoc ops _ op hc
    rw [runOps_append] at hsz ⊢
    have hsz1 : ((op.run al (runOps al ⟨Index.new, []⟩ ops)).2).bytes.length < 2 ^ 63 := hsz
    have hpfx := Op.run_bytes al (runOps al ⟨Index.new, []⟩ ops) op
    obtain ⟨hall, segs, H⟩ := ih hc1 (Nat.lt_of_le_of_lt hpfx.length_le hsz1)
    obtain ⟨t', hrun, s, hx, hl, hnew, hlist, hsam⟩ := history_step al (fun ty => [(ty.storage al).natural])
      (fun ty => List.mem_singleton.mpr rfl) (fun ty d hd => by rw [List.mem_singleton.mp hd]; exact STy.natural_mem al ty)
      H.exact' H.last op hfol hsz1
    have ht' : runOps al (runOps al ⟨Index.new, []⟩ ops) [op] = t' := by
      show (op.run al _).2 = t'
      rw [hrun]
    rw [ht']
    rw [hrun] at hpfx
    obtain ⟨g1, hg1⟩ := hpfx
    dsimp only at hg1
    refine ⟨?_, segs ++ [s], hx, ?_, ?_, ?_⟩
    · intro pre o post hh
      rcases List.eq_nil_or_concat post with hp | ⟨post', x, hp⟩
      · subst hp
        obtain ⟨h1, h2⟩ := List.append_inj' hh rfl
        injection h2 with h2 _
        subst h1 h2
        rw [hrun]
      · rw [hp, List.concat_eq_append, ← List.cons_append, ← List.append_assoc] at hh
        exact hall pre o post' (List.append_inj' hh rfl).1
    · rw [List.foldl_append]; exact hl
    · intro pre hpre
      rw [dataPrefixes_snoc] at hpre
      rcases List.mem_append.mp hpre with hp | hp
      · obtain ⟨hr, o1, o, o2, ty, ho, hty, hord, hact, hlay, hcnt⟩ := H.data pre hp
        refine ⟨hr.grow ⟨g1, hg1⟩, o1, o, o2 ++ [op], ty, by rw [ho]; simp, hty, hord, hact, hlay, ?_⟩
        intro ty' p hty'
        exact hcnt ty' p (fun x hx => hty' x (List.mem_append_left _ hx))
      · split at hp
        · rename_i hraw
          rw [List.mem_singleton.mp hp]
          obtain ⟨hr, ty, hty, hord, hact, hlay⟩ := hnew hraw
          refine ⟨by have := hr []; rwa [List.append_nil] at this, ops, op, [], ty, rfl, hty, hord, hact,
            fun p hn m hm => List.mem_singleton.mp (hlay p hn m hm), ?_⟩
          intro ty' p hty'
          rw [List.dropLast_concat]
          rw [← length_channelSamples (dec := Format.decode ty') H.exact'.refines ((runOps al ⟨Index.new, []⟩ ops).bytes ++ []) p,
            H.samples ty' p (fun x hx => hty' x (List.mem_append_left _ hx)) []]
        · cases hp
    · intro ty p hty g
      rw [hsam ty p (hty op (List.mem_append_right _ (List.mem_singleton.mpr rfl))) g, ← hg1, List.append_assoc,
        H.samples ty p (fun x hx => hty x (List.mem_append_left _ hx)) (g1 ++ g), written_append]
      congr 1
      exact (List.append_nil _).symm

/-! ## The store after a history -/

theorem storeOf_snoc (ops : List Op) (op : Op) : storeOf (ops ++ [op]) = (storeOf ops).after op := by
  unfold storeOf; rw [List.foldl_append]; rfl

theorem store_objects (ops : List Op) (p : Text) : (storeOf ops).objects p ↔ ∃ op ∈ ops, op.Mentions p := by
  refine snoc_induction (P := fun ops => (storeOf ops).objects p ↔ ∃ op ∈ ops, op.Mentions p) ?_ ?_ ops
  · exact ⟨fun h => absurd h id, fun ⟨_, h, _⟩ => by cases h⟩
  · intro ops op ih
    rw [storeOf_snoc]
    have hone : ((storeOf ops).after op).objects p ↔ (storeOf ops).objects p ∨ op.Mentions p := by
      cases op with
      | props e path ps => exact Iff.rfl
      | write e ty chs vals layout =>
        show _ ∨ (∃ c ∈ chs, c.path = p) ↔ _ ∨ p ∈ chs.map ChannelPath.path
        rw [List.mem_map]
    rw [hone, ih]
    constructor
    · rintro (⟨o, ho, hm⟩ | hm)
      · exact ⟨o, List.mem_append_left _ ho, hm⟩
      · exact ⟨op, List.mem_append_right _ (List.mem_singleton.mpr rfl), hm⟩
    · rintro ⟨o, ho, hm⟩
      rcases List.mem_append.mp ho with ho | ho
      · exact Or.inl ⟨o, ho, hm⟩
      · rw [List.mem_singleton.mp ho] at hm; exact Or.inr hm

theorem lastValue_append (a b : List (Text × PropertyValue)) (n : Text) :
    lastValue (a ++ b) n = (lastValue b n).or (lastValue a n) := by
  unfold lastValue
  rw [List.filter_append, List.getLast?_append]
  cases ((b.filter (fun p => p.1 = n)).getLast?) <;> rfl

theorem store_value (ops : List Op) (p n : Text) :
    (storeOf ops).value p n = lastValue (ops.flatMap (Op.propsFor p)) n := by
  refine snoc_induction (P := fun ops => (storeOf ops).value p n = lastValue (ops.flatMap (Op.propsFor p)) n) rfl ?_ ops
  intro ops op ih
  rw [storeOf_snoc, List.flatMap_append, lastValue_append, ← ih]
  cases op with
  | write e ty chs vals layout => rfl
  | props e path ps =>
    show (if p = path.path then _ else _) = _
    rw [List.flatMap_cons, List.flatMap_nil, List.append_nil]
    show _ = (lastValue (if path.path = p then ps else []) n).or _
    by_cases h : p = path.path
    · rw [if_pos h, if_pos h.symm]
    · rw [if_neg h, if_neg (fun hh => h hh.symm)]; rfl

theorem names_iff (p : Text) (e : Endian) (ty : STy) (chs : List ChannelPath) (vals : List ty.Val) (layout : DataLayout) :
    Names p (.write e ty chs vals layout) ↔ p ∈ chs.map ChannelPath.path := by
  rw [List.mem_map]; exact Iff.rfl

theorem store_content_none (ops : List Op) (p : Text) : (∀ op ∈ ops, ¬ Names p op) → (storeOf ops).content p = none := by
  refine snoc_induction (P := fun ops => (∀ op ∈ ops, ¬ Names p op) → (storeOf ops).content p = none) (fun _ => rfl) ?_ ops
  intro ops op ih h
  have ih := ih (fun o ho => h o (List.mem_append_left _ ho))
  have hop := h op (List.mem_append_right _ (List.mem_singleton.mpr rfl))
  rw [storeOf_snoc]
  cases op with
  | props e path ps => exact ih
  | write e ty chs vals layout =>
    rw [names_iff] at hop
    show (match (chs.map ChannelPath.path).idxOf? p with | none => _ | some i => _) = _
    rw [idxOf?_eq_none.mpr hop]
    exact ih

theorem written_unnamed {ty : STy} {p : Text} {ops : List Op} (h : ∀ op ∈ ops, ¬ Names p op) : written ty p ops = [] := by
  unfold written
  rw [List.flatMap_eq_nil_iff]
  intro op hop
  have := h op hop
  cases op with
  | props e path ps => rfl
  | write e ty' chs vals layout =>
    rw [names_iff] at this
    unfold valuesFor
    dsimp only
    rw [idxOf?_eq_none.mpr this]
    split <;> rfl

theorem store_content (ops : List Op) (ty : STy) (p : Text) : (∀ op ∈ ops, Names p op → typeOf op = some ty) →
    (∃ op ∈ ops, Names p op) → (storeOf ops).content p = some ⟨ty, written ty p ops⟩ := by
  refine snoc_induction (P := fun ops => (∀ op ∈ ops, Names p op → typeOf op = some ty) →
    (∃ op ∈ ops, Names p op) → (storeOf ops).content p = some ⟨ty, written ty p ops⟩) ?_ ?_ ops
  · rintro _ ⟨_, h, _⟩; cases h
  · intro ops op ih hty hn
    have ih := ih (fun o ho => hty o (List.mem_append_left _ ho))
    have hop := hty op (List.mem_append_right _ (List.mem_singleton.mpr rfl))
    rw [storeOf_snoc, written_append]
    have hone : written ty p [op] = valuesFor ty p op := List.append_nil _
    rw [hone]
    by_cases hnm : Names p op
    · cases op with
      | props e path ps => exact absurd hnm id
      | write e ty' chs vals layout =>
        have := hop hnm
        injection this with this
        subst this
        rw [names_iff] at hnm
        obtain ⟨i, hi⟩ := Option.isSome_iff_exists.mp (List.isSome_idxOf?.mpr hnm)
        show (match (chs.map ChannelPath.path).idxOf? p with | none => _ | some i => _) = _
        unfold valuesFor
        dsimp only
        rw [hi, dif_pos rfl]
        dsimp only
        by_cases hex : ∃ op ∈ ops, Names p op
        · rw [ih hex]
          show some (if h : ty' = ty' then _ else _) = _
          rw [dif_pos rfl]
        · have hno : ∀ op ∈ ops, ¬ Names p op := fun o ho hh => hex ⟨o, ho, hh⟩
          rw [store_content_none _ _ hno, written_unnamed hno]
          rfl
    · have hex : ∃ op ∈ ops, Names p op := by
        obtain ⟨o, ho, hm⟩ := hn
        rcases List.mem_append.mp ho with ho | ho
        · exact ⟨o, ho, hm⟩
        · rw [List.mem_singleton.mp ho] at hm; exact absurd hm hnm
      have hv : valuesFor ty p op = [] := by
        have := written_unnamed (ty := ty) (p := p) (ops := [op]) (fun o ho => by rw [List.mem_singleton.mp ho]; exact hnm)
        rwa [hone] at this
      rw [hv, List.append_nil, ← ih hex]
      cases op with
      | props e path ps => rfl
      | write e ty' chs vals layout =>
        rw [names_iff] at hnm
        show (match (chs.map ChannelPath.path).idxOf? p with | none => _ | some i => _) = _
        rw [idxOf?_eq_none.mpr hnm]

/-! ## The library after a history -/

section
variable {al : Alloc} {ops : List Op}

/-- The objects the library finds are those of the store. -/
theorem has_history (hc : Compatible Last.none ops) (hsz : (runOps al ⟨Index.new, []⟩ ops).bytes.length < 2 ^ 63)
    (p : Text) : (runOps al ⟨Index.new, []⟩ ops).Has p ↔ (storeOf ops).objects p := by
  rw [store_objects]
  constructor
  · clear hc hsz
    refine snoc_induction (P := fun ops => (runOps al ⟨Index.new, []⟩ ops).Has p → ∃ op ∈ ops, op.Mentions p) ?_ ?_ ops
    · intro h
      exact absurd rfl h
    · intro ops op ih h
      rw [runOps_append] at h
      rcases call_objects (al := al) (op := op) h with h | h
      · obtain ⟨o, ho, hm⟩ := ih h
        exact ⟨o, List.mem_append_left _ ho, hm⟩
      · exact ⟨op, List.mem_append_right _ (List.mem_singleton.mpr rfl), h⟩
  · rintro ⟨op, hop, hm⟩
    cases op with
    | props e path ps =>
      obtain ⟨o1, o2, ho⟩ := List.append_of_mem hop
      rw [ho, runOps_append, runOps_cons]
      refine objects_stay al _ o2 ?_
      exact (property_write_objects ((Session.created (al := al) rfl).runOps o1) e path ps p).mpr (Or.inr hm)
    | write e ty chs vals layout =>
      obtain ⟨c, hcm, hcp⟩ := List.mem_map.mp hm
      have hn : Names c.path (.write e ty chs vals layout) := ⟨c, hcm, rfl⟩
      obtain ⟨_, more, hx, _, hlist, _⟩ := history al ops [] ⟨Index.new, []⟩ Last.none ⟨rfl, rfl⟩ ⟨rfl, fun ty m h => by cases h⟩ hc hsz
      have := hlist p ⟨_, hop, by rw [← hcp]; exact hn⟩
      rw [has_get, (replay_refines hx.refines).obj.listed _ this]
      nofun

end

section
variable {al : Alloc} {ops : List Op}

theorem answers_property (hc : Compatible Last.none ops) (hsz : (runOps al ⟨Index.new, []⟩ ops).bytes.length < 2 ^ 63)
    (path : PropertyPath) (n : Text) :
    (storeOf ops).Answers al (.property path n) ((Query.property path n).run al (runOps al ⟨Index.new, []⟩ ops)) := by
  have hh := has_history (al := al) hc hsz path.path
  have hm := (missing_in_session (runOps al ⟨Index.new, []⟩ ops) path (ChannelPath.new [] []) n).1
  refine ⟨fun ho => ?_, fun ho => ?_⟩
  · have hlast := last_write_wins al ⟨Index.new, []⟩ ops path n
    have hnone : foundValue ((⟨Index.new, []⟩ : TdmsFile).readProperty path n) = none := rfl
    rw [hnone, Option.or_none, ← store_value] at hlast
    rw [← hlast]
    show ((runOps al ⟨Index.new, []⟩ ops).readProperty path n).map _ = _
    have hhas := hh.mpr ho
    rw [has_get] at hhas
    unfold TdmsFile.readProperty Index.getObjectProperty
    cases hg : (runOps al ⟨Index.new, []⟩ ops).index.objects.get? path.path with
    | none => exact absurd hg hhas
    | some o => rfl
  · show ((runOps al ⟨Index.new, []⟩ ops).readProperty path n).map _ = _
    rw [hm.mpr (fun h => ho (hh.mp h))]
    rfl

theorem answers_properties (hc : Compatible Last.none ops) (hsz : (runOps al ⟨Index.new, []⟩ ops).bytes.length < 2 ^ 63)
    (path : PropertyPath) :
    (storeOf ops).Answers al (.properties path) ((Query.properties path).run al (runOps al ⟨Index.new, []⟩ ops)) := by
  have hh := has_history (al := al) hc hsz path.path
  refine ⟨fun ho => ?_, fun ho => ?_⟩
  · have hhas := hh.mpr ho
    cases hg : (runOps al ⟨Index.new, []⟩ ops).readAllProperties path with
    | none => exact absurd hg hhas
    | some ps =>
      obtain ⟨h1, h2⟩ := all_properties_history (Session.created (al := al) rfl) ops path hg
      refine ⟨ps, ?_, h1, fun n v => ?_⟩
      · show Except.ok (Reply.values ((runOps al ⟨Index.new, []⟩ ops).readAllProperties path)) = _
        rw [hg]
      · have hnone : foundValue ((⟨Index.new, []⟩ : TdmsFile).readProperty path n) = none := rfl
        rw [h2, hnone, Option.or_none, ← store_value]
  · show Except.ok (Reply.values ((runOps al ⟨Index.new, []⟩ ops).readAllProperties path)) = _
    cases hg : (runOps al ⟨Index.new, []⟩ ops).readAllProperties path with
    | none => rfl
    | some ps => exact absurd (hh.mp (show (runOps al ⟨Index.new, []⟩ ops).readAllProperties path ≠ none by rw [hg]; nofun)) ho

/-- A channel is named by calls of one type, or by none. -/
theorem one_type (types : ∀ op ∈ ops, ∀ op' ∈ ops, ∀ p, Names p op → Names p op' → typeOf op = typeOf op') (p : Text) :
    (∀ op ∈ ops, ¬ Names p op) ∨ ∃ ty, (∀ op ∈ ops, Names p op → typeOf op = some ty) ∧ ∃ op ∈ ops, Names p op := by
  by_cases h : ∃ op ∈ ops, Names p op
  · obtain ⟨op, hop, hn⟩ := h
    cases op with
    | props => exact absurd hn id
    | write e ty chs vals layout => exact Or.inr ⟨ty, fun o ho hno => types o ho _ hop p hno hn, _, hop, hn⟩
  · exact Or.inl fun op hop hn => h ⟨op, hop, hn⟩

theorem named_ordinary (hc : Compatible Last.none ops) {ty : STy} {p : Text}
    (hty : ∀ op ∈ ops, Names p op → typeOf op = some ty) (hn : ∃ op ∈ ops, Names p op) : Format.ordinaryTy ty = true := by
  obtain ⟨op, hop, hnm⟩ := hn
  have := hty op hop hnm
  cases op with
  | props => exact absurd hnm id
  | write e ty' chs vals layout =>
    injection this with this
    subst this
    exact (compatible_table ops _ hc e ty' chs vals layout hop).ordinary

theorem Holds.listed {segs : List Segment} {t : TdmsFile} (h : Holds al ops segs t) (p : Text) :
    t.Has p ↔ Listed (entries segs) p := by
  rw [has_get]
  constructor
  · intro hh
    refine Classical.byContradiction fun hn => hh ?_
    exact ((replay_refines h.exact'.refines).obj.unlisted _ hn).1
  · intro hh
    rw [(replay_refines h.exact'.refines).obj.listed _ hh]
    nofun

theorem Holds.count {segs : List Segment} {t : TdmsFile} (h : Holds al ops segs t) {ty : STy} {p : Text}
    (hty : ∀ op ∈ ops, Names p op → typeOf op = some ty) : sampleCount segs p = (written ty p ops).length := by
  rw [← length_channelSamples (dec := Format.decode ty) h.exact'.refines (t.bytes ++ []) p, h.samples ty p hty []]

theorem Holds.regular {segs : List Segment} {t : TdmsFile} (h : Holds al ops segs t) {ty : STy} {p : Text}
    (hty : ∀ op ∈ ops, Names p op → typeOf op = some ty) : ∀ pre ∈ dataPrefixes segs, p ∈ active pre → Regular t.bytes pre ∧
      ∀ m, layoutOf (entries pre) p = some m → m.dataType = (ty.storage al).natural := by
  intro pre hpre hact
  obtain ⟨hr, o1, op, o2, ty', ho, hty', _, hn, hlay, _⟩ := h.data pre hpre
  refine ⟨hr, fun m hm => ?_⟩
  have hnm := (hn p).mp hact
  have := hty op (by rw [ho]; exact List.mem_append_right _ List.mem_cons_self) hnm
  rw [this] at hty'
  cases hty'
  exact hlay p hnm m hm

theorem Holds.length {segs : List Segment} {t : TdmsFile} (h : Holds al ops segs t) {ty : STy} {c : ChannelPath}
    (hty : ∀ op ∈ ops, Names c.path op → typeOf op = some ty) (hsz : t.bytes.length < 2 ^ 63) (hh : t.Has c.path) :
    t.channelLength c = .ok (some (written ty c.path ops).length) := by
  rw [channel_length_sum h.exact'.refines c ((h.listed _).mp hh)]
  have hcount := sampleCount_le (fun pre hp hact => (h.regular hty pre hp hact).1)
  have := h.count hty
  rw [h.exact'.ends] at hcount
  unfold sampleCount at hcount this
  rw [if_pos (by omega), this]

theorem answers_length (hc : Compatible Last.none ops)
    (types : ∀ op ∈ ops, ∀ op' ∈ ops, ∀ p, Names p op → Names p op' → typeOf op = typeOf op')
    (hsz : (runOps al ⟨Index.new, []⟩ ops).bytes.length < 2 ^ 63) (c : ChannelPath) :
    (storeOf ops).Answers al (.length c) ((Query.length c).run al (runOps al ⟨Index.new, []⟩ ops)) := by
  have hh := has_history (al := al) hc hsz c.path
  obtain ⟨_, segs, H⟩ := holds_history al ops hc hsz
  refine ⟨fun ho => ?_, fun ho => ?_⟩
  · show ((runOps al ⟨Index.new, []⟩ ops).channelLength c).map _ = _
    unfold Store.count
    rcases one_type types c.path with hno | ⟨ty, hty, hn⟩
    · rw [H.length (ty := .u8) (fun op hop hn => absurd hn (hno op hop)) hsz (hh.mpr ho), written_unnamed hno,
        store_content_none _ _ hno]
      rfl
    · rw [H.length hty hsz (hh.mpr ho), store_content ops ty _ hty hn]
      rfl
  · show ((runOps al ⟨Index.new, []⟩ ops).channelLength c).map _ = _
    rw [((missing_in_session (runOps al ⟨Index.new, []⟩ ops) ⟨[]⟩ c []).2.2.1).mpr (fun h => ho (hh.mp h))]
    rfl

/-- The number of samples in the store. -/
theorem count_of_type {ty : STy} {p : Text} (hty : ∀ op ∈ ops, Names p op → typeOf op = some ty) :
    (storeOf ops).count p = (written ty p ops).length := by
  unfold Store.count
  by_cases hn : ∃ op ∈ ops, Names p op
  · rw [store_content ops ty p hty hn]
  · have hno : ∀ op ∈ ops, ¬ Names p op := fun o ho hh => hn ⟨o, ho, hh⟩
    rw [store_content_none _ _ hno, written_unnamed hno]
    rfl

/-- The file holds what the store says. -/
theorem Holds.image {segs : List Segment} (hc : Compatible Last.none ops)
    (types : ∀ op ∈ ops, ∀ op' ∈ ops, ∀ p, Names p op → Names p op' → typeOf op = typeOf op')
    (hsz : (runOps al ⟨Index.new, []⟩ ops).bytes.length < 2 ^ 63) (H : Holds al ops segs (runOps al ⟨Index.new, []⟩ ops)) :
    Image al (storeOf ops) segs (runOps al ⟨Index.new, []⟩ ops) := by
  refine ⟨H.exact'.refines, hsz, fun pre hpre => (H.data pre hpre).1, has_history (al := al) hc hsz, fun p hp pre hpre hact => ?_,
    fun p ty vals hcont => ?_⟩
  · obtain ⟨_, o1, op, o2, _, hsplit, _, _, hnm, _⟩ := H.data pre hpre
    have hop : op ∈ ops := by rw [hsplit]; exact List.mem_append_right _ List.mem_cons_self
    rcases one_type types p with hno | ⟨ty, hty, hn⟩
    · exact hno op hop ((hnm _).mp hact)
    · rw [store_content ops ty p hty hn] at hp
      cases hp
  · rcases one_type types p with hno | ⟨ty', hty, hn⟩
    · rw [store_content_none _ _ hno] at hcont
      cases hcont
    · rw [store_content ops ty' p hty hn] at hcont
      obtain ⟨h1, h2⟩ := Sigma.mk.inj (Option.some.inj hcont)
      subst h1
      cases h2
      refine ⟨named_ordinary hc hty hn, fun pre hpre hact => (H.regular hty pre hpre hact).2, ?_⟩
      have hs := H.samples ty' p hty []
      rwa [List.append_nil] at hs

theorem answers_read (hc : Compatible Last.none ops)
    (types : ∀ op ∈ ops, ∀ op' ∈ ops, ∀ p, Names p op → Names p op' → typeOf op = typeOf op')
    (hsz : (runOps al ⟨Index.new, []⟩ ops).bytes.length < 2 ^ 63) (ty : STy) (c : ChannelPath) (start : Nat) (out : List ty.Val) :
    (storeOf ops).Answers al (.read ty c start out) ((Query.read ty c start out).run al (runOps al ⟨Index.new, []⟩ ops)) := by
  obtain ⟨_, segs, H⟩ := holds_history al ops hc hsz
  exact (H.image hc types hsz).answers_read ty c start out

/-- Channels with data in one segment have been written by one call. -/
theorem Holds.shared {segs : List Segment} {t : TdmsFile} (H : Holds al ops segs t)
    (types : ∀ op ∈ ops, ∀ op' ∈ ops, ∀ p, Names p op → Names p op' → typeOf op = typeOf op') (pre : List Segment)
    (hpre : pre ∈ dataPrefixes segs) {p q : Text} (hp : p ∈ active pre) (hq : q ∈ active pre) :
    ∃ o1 op o2, ops = o1 ++ op :: o2 ∧ Names p op ∧ Names q op ∧
      sampleCount pre.dropLast p = (storeOf o1).count p ∧ sampleCount pre.dropLast q = (storeOf o1).count q := by
  obtain ⟨_, o1, op, o2, ty', hsplit, hty', _, hnm, _, hcnt⟩ := H.data pre hpre
  have hop : op ∈ ops := by rw [hsplit]; exact List.mem_append_right _ List.mem_cons_self
  have hboth : ∀ p, p ∈ active pre → sampleCount pre.dropLast p = (storeOf o1).count p := by
    intro p hp
    have hty : ∀ o ∈ ops, Names p o → typeOf o = some ty' := fun o ho hno => by
      rw [types o ho op hop p hno ((hnm p).mp hp), hty']
    rw [hcnt ty' p hty, count_of_type (ops := o1) (fun o ho => hty o (by rw [hsplit]; exact List.mem_append_left _ ho))]
  exact ⟨o1, op, o2, hsplit, (hnm _).mp hp, (hnm _).mp hq, hboth _ hp, hboth _ hq⟩

theorem answers_readMany (hc : Compatible Last.none ops)
    (types : ∀ op ∈ ops, ∀ op' ∈ ops, ∀ p, Names p op → Names p op' → typeOf op = typeOf op')
    (hsz : (runOps al ⟨Index.new, []⟩ ops).bytes.length < 2 ^ 63) (ty : STy) (cs : List (ChannelPath × List ty.Val)) (start : Nat)
    (ht : Together ops cs) :
    (storeOf ops).Answers al (.readMany ty cs start)
      ((Query.readMany ty cs start).run al (runOps al ⟨Index.new, []⟩ ops)) := by
  obtain ⟨_, segs, H⟩ := holds_history al ops hc hsz
  refine (H.image hc types hsz).answers_readMany ty cs start ht.ordinary ht.distinct (fun c hcm d hdm pre hpre hc1 hd1 => ?_)
  obtain ⟨o1, op, o2, hsplit, hn1, hn2, e1, e2⟩ := H.shared types pre hpre hc1 hd1
  exact ⟨ht.buffers c hcm d hdm ⟨op, by rw [hsplit]; exact List.mem_append_right _ List.mem_cons_self, hn1, hn2⟩,
    by rw [e1, e2]; exact ht.level c hcm d hdm o1 op o2 hsplit hn1 hn2⟩

theorem clean_history (hc : Compatible Last.none ops) (hsz : (runOps al ⟨Index.new, []⟩ ops).bytes.length < 2 ^ 63)
    (ht : ∀ op ∈ ops, Tidy op) : (runOps al ⟨Index.new, []⟩ ops).Clean := by
  intro p hp
  obtain ⟨op, hop, hm⟩ := (store_objects ops p).mp ((has_history (al := al) hc hsz p).mp hp)
  have := ht op hop
  cases op with
  | props e path ps =>
    obtain ⟨o, h1, h2⟩ := this
    exact ⟨o, h1, by rw [h2]; exact hm.symm⟩
  | write e ty chs vals layout =>
    obtain ⟨c, hcm, hcp⟩ := List.mem_map.mp hm
    obtain ⟨o, h1, h2⟩ := this c hcm
    exact ⟨o, h1, h2.trans hcp⟩

theorem answers_groups (hc : Compatible Last.none ops) (hsz : (runOps al ⟨Index.new, []⟩ ops).bytes.length < 2 ^ 63)
    (ht : ∀ op ∈ ops, Tidy op) :
    (storeOf ops).Answers al .groups (Query.groups.run al (runOps al ⟨Index.new, []⟩ ops)) := by
  obtain ⟨gs, h1, h2, h3⟩ := list_groups_partial ((Session.created (al := al) rfl).runOps ops) (clean_history hc hsz ht)
  refine ⟨gs, ?_, h2, fun g => ?_⟩
  · show (runOps al ⟨Index.new, []⟩ ops).listGroups.map _ = _
    rw [h1]; rfl
  · rw [h3]
    simp only [has_history (al := al) hc hsz]

theorem answers_channels (hc : Compatible Last.none ops) (hsz : (runOps al ⟨Index.new, []⟩ ops).bytes.length < 2 ^ 63)
    (ht : ∀ op ∈ ops, Tidy op) (g : Text) :
    (storeOf ops).Answers al (.channels g) ((Query.channels g).run al (runOps al ⟨Index.new, []⟩ ops)) := by
  obtain ⟨cs, h1, h2, h3⟩ := list_channels_partial ((Session.created (al := al) rfl).runOps ops) (clean_history hc hsz ht) g
  refine ⟨cs, ?_, h2, fun c => ?_⟩
  · show ((runOps al ⟨Index.new, []⟩ ops).listChannelsInGroup (PropertyPath.group g)).map _ = _
    rw [h1]; rfl
  · rw [h3, has_history (al := al) hc hsz]

end

/-! ## Programs -/

theorem calls_append (a b : List Command) : calls (a ++ b) = calls a ++ calls b := List.filterMap_append

theorem described_append {al : Alloc} : ∀ (a b : List Op) (last : Last), Described al last (a ++ b) → Described al last a
  | [], _, _, _ => trivial
  | op :: a, b, last, h => by
    obtain ⟨h1, h2⟩ := described_cons h
    have := described_append a b _ h2
    cases op with
    | props => exact this
    | write => exact ⟨h1, this⟩

theorem compatible_append : ∀ (a b : List Op) (last : Last), Compatible last (a ++ b) → Compatible last a
  | [], _, _, _ => trivial
  | _ :: a, b, _, h => ⟨h.1, compatible_append a b _ h.2⟩

/-- What the store replies to a command. -/
def Store.Replies (al : Alloc) (s : Store) : Command → R Reply → Prop
  | .call op, r => r = (s.call op).1
  | .ask q, r => s.Answers al q r
  | .reopen, r => r = .ok .done

/-- What the command leaves. -/
def Store.next (s : Store) : Command → Store
  | .call op => (s.call op).2
  | _ => s

theorem behaves_cons (al : Alloc) (s : Store) (cmd : Command) (r : R Reply) (rest : List (Command × R Reply)) :
    Behaves al s ((cmd, r) :: rest) ↔ s.Replies al cmd r ∧ Behaves al (s.next cmd) rest := by
  cases cmd <;> exact Iff.rfl

/-- One command of a program. -/
theorem command_from (al : Alloc) (past : List Command) (cmd : Command) (cmds : List Command)
    (h : Proper al ⟨Index.new, []⟩ (past ++ cmd :: cmds)) :
    (storeOf (calls past)).Replies al cmd (cmd.run al (runOps al ⟨Index.new, []⟩ (calls past))).1 ∧
    (cmd.run al (runOps al ⟨Index.new, []⟩ (calls past))).2 = runOps al ⟨Index.new, []⟩ (calls (past ++ [cmd])) ∧
    (storeOf (calls past)).next cmd = storeOf (calls (past ++ [cmd])) := by
  have hcalls : calls (past ++ cmd :: cmds) = calls past ++ calls (cmd :: cmds) := calls_append _ _
  have hmem : ∀ op ∈ calls past, op ∈ calls (past ++ cmd :: cmds) := fun op hop => by
    rw [hcalls]; exact List.mem_append_left _ hop
  have hc : Compatible Last.none (calls past) := compatible_append _ _ _ (hcalls ▸ h.compatible)
  have hsz : (runOps al ⟨Index.new, []⟩ (calls past)).bytes.length < 2 ^ 63 := by
    have := h.size
    rw [hcalls, runOps_append] at this
    exact Nat.lt_of_le_of_lt (runOps_bytes al _ _).length_le this
  have types : ∀ op ∈ calls past, ∀ op' ∈ calls past, ∀ p, Names p op → Names p op' → typeOf op = typeOf op' :=
    fun op hop op' hop' => h.types op (hmem op hop) op' (hmem op' hop')
  have hself : cmd ∈ past ++ cmd :: cmds := List.mem_append_right _ List.mem_cons_self
  rw [calls_append]
  cases cmd with
  | ask q =>
    have hno : calls past ++ calls [Command.ask q] = calls past := List.append_nil _
    rw [hno]
    refine ⟨?_, rfl, rfl⟩
    show (storeOf (calls past)).Answers al q (q.run al _)
    cases q with
    | property path n => exact answers_property hc hsz path n
    | properties path => exact answers_properties hc hsz path
    | length c => exact answers_length hc types hsz c
    | read ty c start out => exact answers_read hc types hsz ty c start out
    | readMany ty cs start => exact answers_readMany hc types hsz ty cs start (h.together past ty cs start cmds rfl)
    | groups => exact answers_groups hc hsz (fun op hop => h.lists _ hself trivial op (hmem op hop))
    | channels g => exact answers_channels hc hsz (fun op hop => h.lists _ hself trivial op (hmem op hop)) g
  | reopen =>
    have hno : calls past ++ calls [Command.reopen] = calls past := List.append_nil _
    rw [hno]
    obtain ⟨hal, hfit, hdesc⟩ := h.reopens hself
    have hre := reopen_partial al hal (t := ⟨Index.new, []⟩) rfl (calls past) (holds_history al _ hc hsz).1
      (fun op hop => by
        cases op with
        | props => trivial
        | write e ty chs vals layout => exact (compatible_table _ _ hc e ty chs vals layout hop).distinct)
      (fun op hop => hfit op (hmem op hop)) (described_append _ _ _ (hcalls ▸ hdesc)) (by omega)
    have hrun : Command.reopen.run al (runOps al ⟨Index.new, []⟩ (calls past))
        = (.ok .done, runOps al ⟨Index.new, []⟩ (calls past)) := by
      unfold Command.run
      dsimp only
      rw [hre]
    rw [hrun]
    exact ⟨rfl, rfl, rfl⟩
  | call op =>
    cases hacc : Accepted op with
    | true =>
      have hone : calls [Command.call op] = [op] := by
        unfold calls
        rw [List.filterMap_cons]
        dsimp only
        rw [hacc]
        rfl
      rw [hone, runOps_append, storeOf_snoc]
      have hcons : calls (past ++ Command.call op :: cmds) = calls past ++ op :: calls cmds := by
        rw [hcalls, show Command.call op :: cmds = [Command.call op] ++ cmds from rfl, calls_append, hone]
        rfl
      have hok := (holds_history al _ h.compatible h.size).1 (calls past) op (calls cmds) hcons
      have hcall : (storeOf (calls past)).call op = (.ok .done, (storeOf (calls past)).after op) := by
        cases op with
        | props => rfl
        | write e ty chs vals layout =>
          unfold Accepted at hacc
          rw [Bool.and_eq_true, Bool.not_eq_true', List.isEmpty_eq_false_iff, beq_iff_eq] at hacc
          unfold Store.call
          dsimp only
          rw [if_neg (fun hh => hacc.1 (List.length_eq_zero_iff.mp hh)), if_neg (fun hh => hh hacc.2)]
      refine ⟨?_, rfl, ?_⟩
      · show (op.run al _).1.map _ = _
        rw [hcall, hok]
        rfl
      · show ((storeOf (calls past)).call op).2 = _
        rw [hcall]
    | false =>
      have hone : calls [Command.call op] = [] := by
        unfold calls
        rw [List.filterMap_cons]
        dsimp only
        rw [hacc]
        rfl
      rw [hone, List.append_nil]
      cases op with
      | props => cases hacc
      | write e ty chs vals layout =>
        have hrej : (Op.write e ty chs vals layout).run al (runOps al ⟨Index.new, []⟩ (calls past))
            = (if chs.length = 0 then R.err .noChannels else R.err (.badDataBlockLength vals.length chs.length),
              runOps al ⟨Index.new, []⟩ (calls past)) := by
          show TdmsFile.writeChannels _ _ _ _ _ _ = _
          unfold TdmsFile.writeChannels
          by_cases h0 : chs.length = 0
          · rw [if_pos h0, if_pos h0]
          · rw [if_neg h0, if_neg h0, if_pos]
            intro hmod
            unfold Accepted at hacc
            dsimp only at hacc
            rw [hmod] at hacc
            cases chs with
            | nil => exact h0 rfl
            | cons c cs => cases hacc
        have hcall : (storeOf (calls past)).call (.write e ty chs vals layout)
            = (if chs.length = 0 then R.err .noChannels else R.err (.badDataBlockLength vals.length chs.length),
              storeOf (calls past)) := by
          unfold Store.call
          dsimp only
          by_cases h0 : chs.length = 0
          · rw [if_pos h0, if_pos h0]
          · rw [if_neg h0, if_neg h0, if_pos]
            intro hmod
            unfold Accepted at hacc
            dsimp only at hacc
            rw [hmod] at hacc
            cases chs with
            | nil => exact h0 rfl
            | cons c cs => cases hacc
        refine ⟨?_, ?_, ?_⟩
        · show ((Op.write e ty chs vals layout).run al _).1.map _ = _
          rw [hcall, hrej]
          dsimp only
          split <;> rfl
        · show ((Op.write e ty chs vals layout).run al _).2 = _
          rw [hrej]
        · show ((storeOf (calls past)).call _).2 = _
          rw [hcall]

/-- A program whose first commands have been run goes on as the store says. -/
theorem behaves_from (al : Alloc) : ∀ (cmds past : List Command), Proper al ⟨Index.new, []⟩ (past ++ cmds) →
    Behaves al (storeOf (calls past)) (replies al (runOps al ⟨Index.new, []⟩ (calls past)) cmds)
  | [], _, _ => trivial
  | cmd :: cmds, past, h => by
    obtain ⟨h1, h2, h3⟩ := command_from al past cmd cmds h
    have ih := behaves_from al cmds (past ++ [cmd]) (by rw [List.append_assoc]; exact h)
    refine (behaves_cons al _ cmd _ _).mpr ⟨h1, ?_⟩
    rw [h3, h2]
    exact ih

end Library
end Tedium
