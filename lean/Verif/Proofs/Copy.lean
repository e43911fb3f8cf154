import Verif.Spec.Copy
import Verif.Proofs.Crashes
import Verif.Proofs.Existing
import Verif.Proofs.Kept

/-! # Helper lemmas: copying a file through the library -/

namespace Tedium
open SegSpec WriteSpec PlanSpec

namespace Library

theorem map_eq_ok {α β : Type} {f : α → β} (hf : ∀ x y, f x = f y → x = y) {r : R α} {y : α} (h : r.map f = .ok (f y)) : r = .ok y := by
  cases r with
  | error e => cases h
  | ok x => exact congrArg _ (hf _ _ (Except.ok.inj h))

theorem collect_ok {α β : Type} {f : α → R (List β)} {g : α → List β} : ∀ {xs : List α}, (∀ x ∈ xs, f x = .ok (g x)) →
    collect f xs = .ok (xs.flatMap g)
  | [], _ => rfl
  | x :: xs, h => by
    unfold collect
    rw [h x List.mem_cons_self, collect_ok (fun y hy => h y (List.mem_cons_of_mem _ hy))]
    rfl

theorem readAs_same (ty : STy) (vals : List ty.Val) : readAs ty ⟨ty, vals⟩ = some vals := by
  cases ty <;> rfl

theorem overlay_whole {α : Type} (x : α) (vals : List α) : overlay (List.replicate vals.length x) vals = vals := by
  unfold overlay
  simp

theorem lastValue_sorted : ∀ {ps : List (Text × PropertyValue)}, ps.Pairwise (fun a b => textCmp a.1 b.1 = .lt) → ∀ n v,
    lastValue ps n = some v ↔ (n, v) ∈ ps
  | [], _, n, v => by
    constructor
    · intro h; cases h
    · intro h; cases h
  | (k, w) :: ps, hp, n, v => by
    rw [List.pairwise_cons] at hp
    have ih := lastValue_sorted hp.2 n v
    rw [show (k, w) :: ps = [(k, w)] ++ ps from rfl, lastValue_append]
    by_cases hk : k = n
    · subst hk
      have hnone : lastValue ps k = none := by
        cases hl : lastValue ps k with
        | none => rfl
        | some v' =>
          have := hp.1 _ ((lastValue_sorted hp.2 k v').mp hl)
          rw [textCmp_refl] at this
          cases this
      have hone : lastValue [(k, w)] k = some w := by unfold lastValue; simp
      rw [hnone, hone]
      constructor
      · intro h; cases h; exact List.mem_append_left _ (List.mem_singleton.mpr rfl)
      · intro h
        rcases List.mem_append.mp h with h | h
        · cases List.mem_singleton.mp h; rfl
        · rw [← ih, hnone] at h; cases h
    · have hone : lastValue [(k, w)] n = none := by unfold lastValue; simp [hk]
      rw [hone, Option.or_none, ih]
      constructor
      · exact fun h => List.mem_append_right _ h
      · intro h
        rcases List.mem_append.mp h with h | h
        · cases List.mem_singleton.mp h; exact absurd rfl hk
        · exact h

theorem lastValue_same (p : Text) (ps : List (Text × PropertyValue)) (n : Text) : ∀ (ops : List Op),
    (∀ op ∈ ops, op.propsFor p = [] ∨ op.propsFor p = ps) →
    (lastValue (ops.flatMap (Op.propsFor p)) n = none ∨ lastValue (ops.flatMap (Op.propsFor p)) n = lastValue ps n) ∧
    ((∃ op ∈ ops, op.propsFor p = ps) → lastValue (ops.flatMap (Op.propsFor p)) n = lastValue ps n)
  | [], _ => ⟨Or.inl rfl, fun ⟨_, h, _⟩ => by cases h⟩
  | op :: ops, h => by
    obtain ⟨i1, i2⟩ := lastValue_same p ps n ops (fun o ho => h o (List.mem_cons_of_mem _ ho))
    rw [List.flatMap_cons, lastValue_append]
    rcases h op List.mem_cons_self with ho | ho
    · rw [ho]
      have hn : lastValue [] n = none := rfl
      rw [hn, Option.or_none]
      refine ⟨i1, ?_⟩
      rintro ⟨o, hm, hps⟩
      rcases List.mem_cons.mp hm with rfl | hm
      · rw [← hps, ho] at i1 ⊢
        rcases i1 with i1 | i1 <;> rw [i1] <;> rfl
      · exact i2 ⟨o, hm, hps⟩
    · rw [ho]
      have : (lastValue (ops.flatMap (Op.propsFor p)) n).or (lastValue ps n) = lastValue ps n := by
        rcases i1 with i1 | i1 <;> rw [i1]
        · rfl
        · cases lastValue ps n <;> rfl
      exact ⟨Or.inr this, fun _ => this⟩

/-- The channels that are listed. -/
def listed (t : TdmsFile) (g : Text) : List ChannelPath :=
  match t.listChannelsInGroup (.group g) with
  | .ok cs => cs
  | .error _ => []

/-- The call that writes the samples of a channel. -/
def sampleCall (s : Store) (c : ChannelPath) : List Op :=
  match s.content c.path with
  | none => []
  | some ⟨ty, vals⟩ => [.write .little ty [c] vals .contigious]

section
variable {al : Alloc} {t : TdmsFile} {s : Store}

theorem Represents.properties (hR : Represents al t s) (path : PropertyPath) :
    (s.objects path.path → ∃ ps, t.readAllProperties path = some ps ∧ ps.Pairwise (fun a b => textCmp a.1 b.1 = .lt) ∧
      ∀ n v, (n, v) ∈ ps ↔ s.value path.path n = some v) ∧
    (¬ s.objects path.path → t.readAllProperties path = none) := by
  have h := hR (.properties path) (fun _ _ _ h => by cases h)
  refine ⟨fun ho => ?_, fun ho => ?_⟩
  · obtain ⟨ps, h1, h2, h3⟩ := h.1 ho
    exact ⟨ps, by injection h1 with h1; injection h1, h2, h3⟩
  · have h1 := h.2 ho
    injection h1 with h1; injection h1

theorem Represents.groups (hR : Represents al t s) : ∃ gs, t.listGroups = .ok gs ∧ gs.Pairwise (fun a b => textCmp a b = .lt) ∧
    ∀ g, g ∈ gs ↔ ∃ o : Obj, o.SlashFree ∧ s.objects o.toPath.path ∧ o.groupOf = some g := by
  obtain ⟨gs, h1, h2, h3⟩ := hR .groups (fun _ _ _ h => by cases h)
  exact ⟨gs, map_eq_ok (f := Reply.groups) (fun _ _ h => by injection h) h1, h2, h3⟩

theorem Represents.channels (hR : Represents al t s) (g : Text) : t.listChannelsInGroup (.group g) = .ok (listed t g) ∧
    ((listed t g).map ChannelPath.path).Pairwise (fun a b => textCmp a b = .lt) ∧
    ∀ c, c ∈ listed t g ↔ s.objects c.path ∧ ∃ name, c = ChannelPath.new g name := by
  obtain ⟨cs, h1, h2, h3⟩ := hR (.channels g) (fun _ _ _ h => by cases h)
  have h := map_eq_ok (f := Reply.channels) (fun _ _ h => by injection h) h1
  have hl : listed t g = cs := by unfold listed; rw [h]
  rw [hl]
  exact ⟨h, h2, h3⟩

theorem Represents.samples (hR : Represents al t s) (hP : s.Plain) (tyOf : ChannelPath → STy) (fill : (ty : STy) → ty.Val)
    (hty : ∀ c ty vals, s.content c.path = some ⟨ty, vals⟩ → tyOf c = ty) (c : ChannelPath) (hc : s.objects c.path) :
    copySamples al t (tyOf c) (fill _) c = .ok (sampleCall s c) := by
  have hlen := (hR (.length c) (fun _ _ _ h => by cases h)).1 hc
  have hlen := map_eq_ok (f := Reply.length) (fun _ _ h => by injection h) hlen
  unfold copySamples sampleCall
  rw [hlen]
  unfold Store.count
  cases hcon : s.content c.path with
  | none => rfl
  | some x =>
    obtain ⟨ty, vals⟩ := x
    have ht := hty c ty vals hcon
    have hne := (hP.samples _ _ _ hcon).2.2.2
    generalize tyOf c = ty' at ht
    subst ht
    have hread := (hR (.read ty' c 0 (List.replicate vals.length (fill ty'))) (fun _ _ _ h => by cases h)).1 hc (by
      rintro ⟨⟨x, hx, hno⟩, _⟩
      rw [hcon] at hx
      cases hx
      rw [readAs_same] at hno
      cases hno)
    have hread := map_eq_ok (f := Reply.samples ty') (fun _ _ h => by injection h) hread
    have hsame : s.samplesAs ty' c.path = vals := by
      unfold Store.samplesAs
      rw [hcon]
      dsimp only
      rw [readAs_same]
      rfl
    rw [hsame, List.drop_zero, overlay_whole] at hread
    show (if vals.length = 0 then _ else _) = _
    rw [if_neg (fun h => hne (List.length_eq_zero_iff.mp h)), hread]
    rfl

end

section
variable {s : Store}

theorem sampleCall_some {c : ChannelPath} {ty : STy} {vals : List ty.Val} (h : s.content c.path = some ⟨ty, vals⟩) :
    sampleCall s c = [.write .little ty [c] vals .contigious] := by
  unfold sampleCall
  rw [h]

theorem sampleCall_mem {c : ChannelPath} {op : Op} (h : op ∈ sampleCall s c) :
    ∃ ty vals, s.content c.path = some ⟨ty, vals⟩ ∧ op = .write .little ty [c] vals .contigious := by
  unfold sampleCall at h
  split at h
  · cases h
  · rename_i ty vals hc
    exact ⟨ty, vals, hc, List.mem_singleton.mp h⟩

theorem sampleCall_names {c : ChannelPath} {op : Op} (h : op ∈ sampleCall s c) {p : Text} (hn : Names p op) : c.path = p := by
  obtain ⟨ty, vals, _, rfl⟩ := sampleCall_mem h
  obtain ⟨d, hd, e⟩ := hn
  rw [List.mem_singleton.mp hd] at e
  exact e

/-- The calls of a copy. -/
structure IsCopy (s : Store) (ps : Text → List (Text × PropertyValue)) (pops : List Op) (chs : List ChannelPath) : Prop where
  props : ∀ op ∈ pops, ∃ path : PropertyPath, op = .props .little path (ps path.path) ∧ s.objects path.path
  all : ∀ p, s.objects p → ∃ path : PropertyPath, path.path = p ∧ Op.props .little path (ps path.path) ∈ pops
  sorted : ∀ p, s.objects p → (ps p).Pairwise (fun a b => textCmp a.1 b.1 = .lt)
  values : ∀ p, s.objects p → ∀ n v, (n, v) ∈ ps p ↔ s.value p n = some v
  channels : ∀ c ∈ chs, s.objects c.path
  every : ∀ g c, s.objects (ChannelPath.new g c).path → ∃ d ∈ chs, d.path = (ChannelPath.new g c).path
  distinct : (chs.map ChannelPath.path).Nodup

variable {ps : Text → List (Text × PropertyValue)} {pops : List Op} {chs : List ChannelPath}

theorem IsCopy.mem (h : IsCopy s ps pops chs) {op : Op} (hop : op ∈ pops ++ chs.flatMap (sampleCall s)) :
    (∃ path : PropertyPath, op = .props .little path (ps path.path) ∧ s.objects path.path) ∨
    ∃ c ∈ chs, ∃ ty vals, s.content c.path = some ⟨ty, vals⟩ ∧ op = .write .little ty [c] vals .contigious := by
  rcases List.mem_append.mp hop with hop | hop
  · exact Or.inl (h.props op hop)
  · obtain ⟨c, hc, hop⟩ := List.mem_flatMap.mp hop
    exact Or.inr ⟨c, hc, sampleCall_mem hop⟩

theorem IsCopy.objects (h : IsCopy s ps pops chs) (p : Text) : (storeOf (pops ++ chs.flatMap (sampleCall s))).objects p ↔ s.objects p := by
  rw [store_objects]
  constructor
  · rintro ⟨op, hop, hm⟩
    rcases h.mem hop with ⟨path, rfl, ho⟩ | ⟨c, hc, ty, vals, _, rfl⟩
    · have e : p = path.path := hm
      rw [e]; exact ho
    · have e : p ∈ [c].map ChannelPath.path := hm
      rw [List.map_singleton, List.mem_singleton] at e
      rw [e]; exact h.channels c hc
  · intro ho
    obtain ⟨path, e, hm⟩ := h.all p ho
    exact ⟨_, List.mem_append_left _ hm, e.symm⟩

theorem IsCopy.value (h : IsCopy s ps pops chs) (hP : s.Plain) (p n : Text) :
    (storeOf (pops ++ chs.flatMap (sampleCall s))).value p n = s.value p n := by
  rw [store_value]
  by_cases ho : s.objects p
  · obtain ⟨path, e, hm⟩ := h.all p ho
    rw [(lastValue_same p (ps p) n _ (fun op hop => by
      rcases h.mem hop with ⟨path, rfl, _⟩ | ⟨c, hc, ty, vals, _, rfl⟩
      · show (if path.path = p then _ else _) = _ ∨ (if path.path = p then _ else _) = _
        by_cases e : path.path = p
        · rw [if_pos e, e]; exact Or.inr rfl
        · rw [if_neg e]; exact Or.inl rfl
      · exact Or.inl rfl)).2 ⟨_, List.mem_append_left _ hm, by
        show (if path.path = p then _ else _) = _
        rw [if_pos e, e]⟩]
    apply Option.ext
    intro v
    rw [lastValue_sorted (h.sorted p ho), h.values p ho]
  · have hnone : s.value p n = none := by
      cases hv : s.value p n with
      | none => rfl
      | some v => exact absurd (hP.values _ _ _ hv) ho
    rw [hnone]
    have := (lastValue_same p [] n (pops ++ chs.flatMap (sampleCall s)) (fun op hop => by
      rcases h.mem hop with ⟨path, rfl, hp⟩ | ⟨c, hc, ty, vals, _, rfl⟩
      · refine Or.inl ?_
        show (if path.path = p then _ else _) = _
        rw [if_neg (fun e : path.path = p => ho (e ▸ hp))]
      · exact Or.inl rfl)).1
    rcases this with this | this <;> exact this

theorem IsCopy.content (h : IsCopy s ps pops chs) (hP : s.Plain) (p : Text) :
    (storeOf (pops ++ chs.flatMap (sampleCall s))).content p = s.content p := by
  cases hc : s.content p with
  | none =>
    refine store_content_none _ _ (fun op hop hn => ?_)
    rcases h.mem hop with ⟨path, rfl, _⟩ | ⟨c, _, ty, vals, hcon, rfl⟩
    · exact hn
    · obtain ⟨d, hd, e⟩ := hn
      rw [List.mem_singleton.mp hd] at e
      rw [e, hc] at hcon
      cases hcon
  | some x =>
    obtain ⟨ty, vals⟩ := x
    obtain ⟨ho, ⟨g, nm, e⟩, _, hne⟩ := hP.samples _ _ _ hc
    obtain ⟨d, hd, hdp⟩ := h.every g nm (e ▸ ho)
    rw [← e] at hdp
    have hcall := sampleCall_some (c := d) (by rw [hdp]; exact hc)
    obtain ⟨l, r, hsplit⟩ := List.append_of_mem hd
    have hnd := h.distinct
    rw [hsplit, List.map_append, List.map_cons, List.nodup_append] at hnd
    obtain ⟨_, hnd2, hnd3⟩ := hnd
    rw [List.nodup_cons] at hnd2
    have hno : ∀ cs : List ChannelPath, (∀ c ∈ cs, c.path ≠ p) → ∀ op ∈ cs.flatMap (sampleCall s), ¬ Names p op := by
      intro cs hcs op hop hn
      obtain ⟨c, hcm, hop⟩ := List.mem_flatMap.mp hop
      exact hcs c hcm (sampleCall_names hop hn)
    have hw : written ty p (pops ++ chs.flatMap (sampleCall s)) = vals := by
      rw [hsplit, List.flatMap_append, List.flatMap_cons, hcall, written_append, written_append, written_append,
        written_unnamed (ops := pops) (fun op hop hn => by
          obtain ⟨path, rfl, _⟩ := h.props op hop
          exact hn),
        written_unnamed (hno l (fun c hcm ec => hnd3 c.path (List.mem_map.mpr ⟨c, hcm, rfl⟩) d.path List.mem_cons_self (ec.trans hdp.symm))),
        written_unnamed (hno r (fun c hcm ec => hnd2.1 (List.mem_map.mpr ⟨c, hcm, ec.trans hdp.symm⟩)))]
      show [] ++ ([] ++ (valuesFor ty p _ ++ [] ++ [])) = _
      rw [List.nil_append, List.nil_append, List.append_nil, List.append_nil]
      unfold valuesFor
      dsimp only
      rw [dif_pos rfl]
      have hi : ([d].map ChannelPath.path).idxOf? p = some 0 := by
        rw [← hdp]
        simp [List.idxOf?]
      rw [hi]
      show (vals.drop (0 * (vals.length / 1))).take (vals.length / 1) = vals
      rw [Nat.zero_mul, List.drop_zero, Nat.div_one, List.take_length]
    have hin : Op.write .little ty [d] vals .contigious ∈ pops ++ chs.flatMap (sampleCall s) :=
      List.mem_append_right _ (List.mem_flatMap.mpr ⟨d, hd, by rw [hcall]; exact List.mem_singleton.mpr rfl⟩)
    rw [store_content _ ty p (fun op hop hn => ?_) ⟨_, hin, d, List.mem_singleton.mpr rfl, hdp⟩, hw]
    rcases h.mem hop with ⟨path, rfl, _⟩ | ⟨c, _, ty', vals', hcon, rfl⟩
    · exact absurd hn id
    · obtain ⟨d', hd', e'⟩ := hn
      rw [List.mem_singleton.mp hd'] at e'
      rw [e', hc] at hcon
      cases hcon
      rfl

theorem IsCopy.store (h : IsCopy s ps pops chs) (hP : s.Plain) : storeOf (pops ++ chs.flatMap (sampleCall s)) = s := by
  have h1 := funext fun p => propext (h.objects p)
  have h2 := funext fun p => funext fun n => h.value hP p n
  have h3 := funext fun p => h.content hP p
  revert h1 h2 h3
  generalize storeOf (pops ++ chs.flatMap (sampleCall s)) = s'
  intro h1 h2 h3
  cases s; cases s'
  cases h1; cases h2; cases h3
  rfl

theorem compatible_props (last : Last) : ∀ (pops rest : List Op), (∀ op ∈ pops, ∃ e path ps, op = Op.props e path ps) →
    Compatible last rest → Compatible last (pops ++ rest)
  | [], _, _, hr => hr
  | op :: pops, rest, h, hr => by
    obtain ⟨e, path, ps, rfl⟩ := h op List.mem_cons_self
    exact ⟨trivial, compatible_props last pops rest (fun o ho => h o (List.mem_cons_of_mem _ ho)) hr⟩

theorem described_props (al : Alloc) (last : Last) : ∀ (pops rest : List Op), (∀ op ∈ pops, ∃ e path ps, op = Op.props e path ps) →
    Described al last rest → Described al last (pops ++ rest)
  | [], _, _, hr => hr
  | op :: pops, rest, h, hr => by
    obtain ⟨e, path, ps, rfl⟩ := h op List.mem_cons_self
    exact described_props al last pops rest (fun o ho => h o (List.mem_cons_of_mem _ ho)) hr

theorem firstChannel_props : ∀ (pops rest : List Op), (∀ op ∈ pops, ∃ e path ps, op = Op.props e path ps) →
    firstChannel (pops ++ rest) = firstChannel rest
  | [], _, _ => rfl
  | op :: pops, rest, h => by
    obtain ⟨e, path, ps, rfl⟩ := h op List.mem_cons_self
    exact firstChannel_props pops rest (fun o ho => h o (List.mem_cons_of_mem _ ho))

theorem firstChannel_samples : ∀ (chs : List ChannelPath) (p : Text), firstChannel (chs.flatMap (sampleCall s)) = some p →
    p ∈ chs.map ChannelPath.path
  | [], _, h => by cases h
  | c :: chs, p, h => by
    rw [List.flatMap_cons] at h
    cases hc : s.content c.path with
    | none =>
      have hno : sampleCall s c = [] := by unfold sampleCall; rw [hc]
      rw [hno] at h
      exact List.mem_cons_of_mem _ (firstChannel_samples chs p h)
    | some x =>
      obtain ⟨ty, vals⟩ := x
      rw [sampleCall_some hc] at h
      have h : some c.path = some p := h
      rw [← Option.some.inj h]
      exact List.mem_cons_self

theorem samples_follow (al : Alloc) (hP : s.Plain) : ∀ (chs : List ChannelPath) (last : Last), (chs.map ChannelPath.path).Nodup →
    (∀ p, firstChannel (chs.flatMap (sampleCall s)) = some p → last.channels.head? ≠ some p) →
    Compatible last (chs.flatMap (sampleCall s)) ∧ Described al last (chs.flatMap (sampleCall s))
  | [], _, _, _ => ⟨trivial, trivial⟩
  | c :: chs, last, hnd, hl => by
    rw [List.map_cons, List.nodup_cons] at hnd
    rw [List.flatMap_cons] at hl ⊢
    cases hc : s.content c.path with
    | none =>
      have hno : sampleCall s c = [] := by unfold sampleCall; rw [hc]
      rw [hno] at hl ⊢
      exact samples_follow al hP chs last hnd.2 hl
    | some x =>
      obtain ⟨ty, vals⟩ := x
      rw [sampleCall_some hc] at hl ⊢
      obtain ⟨_, _, hord, hne⟩ := hP.samples _ _ _ hc
      have hdiv : Diverges last.channels ([c].map ChannelPath.path) := by
        have hne := hl c.path rfl
        cases hls : last.channels with
        | nil => exact Or.inl rfl
        | cons q qs =>
          refine Or.inr ⟨(q, c.path), List.mem_cons_self, fun e => hne ?_⟩
          have e : q = c.path := e
          rw [hls, ← e]; rfl
      have hafter : last.after (.write .little ty [c] vals .contigious) = ⟨[c.path], some (ty, vals.length / 1)⟩ := by
        unfold Last.after
        dsimp only
        rw [if_pos hdiv]
        rfl
      have ih := samples_follow al hP chs ⟨[c.path], some (ty, vals.length / 1)⟩ hnd.2 (fun p hp e => by
        have hm := firstChannel_samples chs p hp
        rw [← Option.some.inj (show some c.path = some p from e)] at hm
        exact hnd.1 hm)
      refine ⟨⟨⟨⟨hord, fun h => (by cases h), ?_, hne, ?_⟩, Or.inl hdiv⟩, ?_⟩, ⟨Or.inl hdiv, ?_⟩⟩
      · rw [List.map_singleton]; exact List.nodup_cons.mpr ⟨fun h => (by cases h), List.nodup_nil⟩
      · exact Nat.one_dvd _
      · rw [hafter]; exact ih.1
      · rw [hafter]; exact ih.2

theorem IsCopy.follow_on (al : Alloc) (h : IsCopy s ps pops chs) (hP : s.Plain) (last : Last)
    (hl : ∀ p, firstChannel (pops ++ chs.flatMap (sampleCall s)) = some p → last.channels.head? ≠ some p) :
    Compatible last (pops ++ chs.flatMap (sampleCall s)) ∧ Described al last (pops ++ chs.flatMap (sampleCall s)) := by
  have hp : ∀ op ∈ pops, ∃ e path ps, op = Op.props e path ps := fun op hop => by
    obtain ⟨path, rfl, _⟩ := h.props op hop
    exact ⟨_, _, _, rfl⟩
  rw [firstChannel_props _ _ hp] at hl
  obtain ⟨h1, h2⟩ := samples_follow al hP chs last h.distinct hl
  exact ⟨compatible_props _ _ _ hp h1, described_props al _ _ _ hp h2⟩

theorem IsCopy.follow (al : Alloc) (h : IsCopy s ps pops chs) (hP : s.Plain) :
    Compatible Last.none (pops ++ chs.flatMap (sampleCall s)) ∧ Described al Last.none (pops ++ chs.flatMap (sampleCall s)) :=
  h.follow_on al hP Last.none (fun _ _ e => by cases e)

theorem IsCopy.types (h : IsCopy s ps pops chs) : ∀ op ∈ pops ++ chs.flatMap (sampleCall s), ∀ op' ∈ pops ++ chs.flatMap (sampleCall s),
    ∀ p, Names p op → Names p op' → typeOf op = typeOf op' := by
  have key : ∀ op ∈ pops ++ chs.flatMap (sampleCall s), ∀ p, Names p op → ∃ ty vals, s.content p = some ⟨ty, vals⟩ ∧ typeOf op = some ty := by
    intro op hop p hn
    rcases h.mem hop with ⟨path, rfl, _⟩ | ⟨c, _, ty', vals', hcon, rfl⟩
    · exact absurd hn id
    · obtain ⟨d', hd', e'⟩ := hn
      rw [List.mem_singleton.mp hd'] at e'
      exact ⟨ty', vals', e' ▸ hcon, rfl⟩
  intro op hop op' hop' p hn hn'
  obtain ⟨ty, vals, h1, h2⟩ := key op hop p hn
  obtain ⟨ty', vals', h1', h2'⟩ := key op' hop' p hn'
  rw [h1] at h1'
  cases h1'
  rw [h2, h2']

theorem copyProperties_mem {al : Alloc} {t : TdmsFile} {s : Store} (hR : Represents al t s) {path : PropertyPath} {op : Op}
    (h : op ∈ copyProperties t path) : op = .props .little path ((t.readAllProperties path).getD []) ∧ s.objects path.path := by
  by_cases ho : s.objects path.path
  · obtain ⟨ps, h1, _⟩ := (hR.properties path).1 ho
    unfold copyProperties at h
    rw [h1] at h ⊢
    exact ⟨List.mem_singleton.mp h, ho⟩
  · unfold copyProperties at h
    rw [(hR.properties path).2 ho] at h
    cases h

theorem copyProperties_object {al : Alloc} {t : TdmsFile} {s : Store} (hR : Represents al t s) {path : PropertyPath}
    (ho : s.objects path.path) : Op.props .little path ((t.readAllProperties path).getD []) ∈ copyProperties t path := by
  obtain ⟨ps, h1, _⟩ := (hR.properties path).1 ho
  unfold copyProperties
  rw [h1]
  exact List.mem_singleton.mpr rfl

theorem path_group_norm (g : Text) : PropertyPath.group (normName g) = PropertyPath.group g := by
  unfold PropertyPath.group
  rw [normName_eq, escapeName_idem]

theorem path_channel_norm (g c : Text) : ChannelPath.new (normName g) c = ChannelPath.new g c := by
  unfold ChannelPath.new PropertyPath.channel
  rw [normName_eq, escapeName_idem]

/-- The calls a copy consists of. -/
theorem Represents.copy {al : Alloc} {t : TdmsFile} {s : Store} (hR : Represents al t s) (hP : s.Plain) (tyOf : ChannelPath → STy)
    (fill : (ty : STy) → ty.Val) (hty : ∀ c ty vals, s.content c.path = some ⟨ty, vals⟩ → tyOf c = ty) :
    ∃ pops chs, copyOf al tyOf fill t = .ok (pops ++ chs.flatMap (sampleCall s)) ∧
      IsCopy s (fun p => (t.readAllProperties ⟨p⟩).getD []) pops chs := by
  obtain ⟨gs, hgs, hsorted, hgm⟩ := hR.groups
  have hnorm : ∀ g ∈ gs, normName g = g := by
    intro g hg
    obtain ⟨o, _, _, ho⟩ := (hgm g).mp hg
    cases o with
    | root => cases ho
    | group g' => cases ho; exact escapeName_idem g'
    | channel g' c' => cases ho; exact escapeName_idem g'
  have hchs : collect (fun g => t.listChannelsInGroup (.group g)) gs = .ok (gs.flatMap (listed t)) :=
    collect_ok (fun g _ => (hR.channels g).1)
  have hobj : ∀ c ∈ gs.flatMap (listed t), s.objects c.path := by
    intro c hc
    obtain ⟨g, _, hc⟩ := List.mem_flatMap.mp hc
    exact (((hR.channels g).2.2 c).mp hc).1
  have hsam : collect (fun c => copySamples al t (tyOf c) (fill _) c) (gs.flatMap (listed t)) =
      .ok ((gs.flatMap (listed t)).flatMap (sampleCall s)) :=
    collect_ok (fun c hc => hR.samples hP tyOf fill hty c (hobj c hc))
  have hfind : ∀ g c, s.objects (ChannelPath.new g c).path → ChannelPath.new g c ∈ gs.flatMap (listed t) := by
    intro g c ho
    obtain ⟨o, hsf, hop⟩ := hP.tidy _ ho
    have hn : o.norm = (Obj.channel g c).norm := (paths_never_collide o (.channel g c)).mp hop
    have hg : normName g ∈ gs := by
      refine (hgm _).mpr ⟨o, hsf, by rw [hop]; exact ho, ?_⟩
      cases o with
      | root => cases hn
      | group g' => cases hn
      | channel g' c' =>
        injection hn with e1 e2
        show some (normName g') = _
        rw [e1]
    refine List.mem_flatMap.mpr ⟨normName g, hg, ((hR.channels _).2.2 _).mpr ⟨ho, c, (path_channel_norm g c).symm⟩⟩
  refine ⟨copyProperties t .file ++ gs.flatMap (fun g => copyProperties t (.group g)) ++
    (gs.flatMap (listed t)).flatMap (fun c => copyProperties t c.inner), gs.flatMap (listed t), ?_, ?_⟩
  · unfold copyOf
    rw [hgs]
    show (do
      let channels ← collect (fun g => t.listChannelsInGroup (.group g)) gs
      let samples ← collect (fun c => copySamples al t (tyOf c) (fill _) c) channels
      return copyProperties t .file ++ gs.flatMap (fun g => copyProperties t (.group g)) ++
        channels.flatMap (fun c => copyProperties t c.inner) ++ samples : R (List Op)) = _
    rw [hchs]
    show (do
      let samples ← collect (fun c => copySamples al t (tyOf c) (fill _) c) (gs.flatMap (listed t))
      return copyProperties t .file ++ gs.flatMap (fun g => copyProperties t (.group g)) ++
        (gs.flatMap (listed t)).flatMap (fun c => copyProperties t c.inner) ++ samples : R (List Op)) = _
    rw [hsam]
    rfl
  · refine ⟨fun op hop => ?_, fun p ho => ?_, fun p ho => ?_, fun p ho n v => ?_, hobj, fun g c ho => ⟨_, hfind g c ho, rfl⟩, ?_⟩
    · have key : ∃ path, op ∈ copyProperties t path := by
        rcases List.mem_append.mp hop with hop | hop
        · rcases List.mem_append.mp hop with hop | hop
          · exact ⟨_, hop⟩
          · obtain ⟨g, _, hop⟩ := List.mem_flatMap.mp hop
            exact ⟨_, hop⟩
        · obtain ⟨c, _, hop⟩ := List.mem_flatMap.mp hop
          exact ⟨_, hop⟩
      obtain ⟨path, hop⟩ := key
      exact ⟨path, copyProperties_mem hR hop⟩
    · obtain ⟨o, hsf, hop⟩ := hP.tidy _ ho
      cases o with
      | root =>
        exact ⟨.file, hop, List.mem_append_left _ (List.mem_append_left _ (copyProperties_object hR (by
          rw [show PropertyPath.file.path = p from hop]; exact ho)))⟩
      | group g =>
        have hop : (PropertyPath.group g).path = p := hop
        refine ⟨.group g, hop, List.mem_append_left _ (List.mem_append_right _ (List.mem_flatMap.mpr ⟨normName g, ?_, ?_⟩))⟩
        · exact (hgm _).mpr ⟨.group g, hsf, by rw [show (Obj.group g).toPath.path = p from hop]; exact ho, rfl⟩
        · rw [path_group_norm]
          exact copyProperties_object hR (by rw [hop]; exact ho)
      | channel g c =>
        have hop : (ChannelPath.new g c).path = p := hop
        refine ⟨(ChannelPath.new g c).inner, hop, List.mem_append_right _ (List.mem_flatMap.mpr
          ⟨_, hfind g c (by rw [hop]; exact ho), copyProperties_object hR (path := (ChannelPath.new g c).inner) ?_⟩)⟩
        rw [show (ChannelPath.new g c).inner.path = p from hop]; exact ho
    · obtain ⟨ps, h1, h2, _⟩ := (hR.properties ⟨p⟩).1 ho
      rw [h1]; exact h2
    · obtain ⟨ps, h1, _, h3⟩ := (hR.properties ⟨p⟩).1 ho
      rw [h1]; exact h3 n v
    · rw [List.nodup_iff_pairwise_ne, List.pairwise_map, List.pairwise_flatMap]
      refine ⟨fun g _ => ?_, ?_⟩
      · have := (hR.channels g).2.1
        rw [List.pairwise_map] at this
        exact this.imp (fun h => textCmp_lt_ne h)
      · refine List.Pairwise.imp_of_mem ?_ hsorted
        intro g g' hg hg' hlt c hc d hd e
        obtain ⟨_, n, rfl⟩ := ((hR.channels g).2.2 c).mp hc
        obtain ⟨_, m, rfl⟩ := ((hR.channels g').2.2 d).mp hd
        have hn := (paths_never_collide (.channel g n) (.channel g' m)).mp e
        injection hn with e1 e2
        rw [hnorm g hg, hnorm g' hg'] at e1
        exact textCmp_lt_ne hlt e1

theorem IsCopy.tidy (h : IsCopy s ps pops chs) (hP : s.Plain) : ∀ op ∈ pops ++ chs.flatMap (sampleCall s), Tidy op := by
  intro op hop
  rcases h.mem hop with ⟨path, rfl, ho⟩ | ⟨c, hc, ty, vals, _, rfl⟩
  · obtain ⟨o, h1, h2⟩ := hP.tidy _ ho
    refine ⟨o, h1, ?_⟩
    revert h2
    generalize o.toPath = q
    intro h2
    cases q; cases path
    exact congrArg _ h2
  · intro d hd
    rw [List.mem_singleton.mp hd]
    exact hP.tidy _ (h.channels c hc)

theorem apart_eq {ty : STy} : ∀ {cs : List (ChannelPath × List ty.Val)}, cs.Pairwise (fun c d => c.1.path ≠ d.1.path) →
    ∀ c ∈ cs, ∀ d ∈ cs, c.1.path = d.1.path → c = d
  | [], _, c, hc, _, _, _ => by cases hc
  | x :: xs, hp, c, hc, d, hd, e => by
    rw [List.pairwise_cons] at hp
    rcases List.mem_cons.mp hc with h1 | h1
    · rcases List.mem_cons.mp hd with h2 | h2
      · rw [h1, h2]
      · rw [h1] at e; exact absurd e (hp.1 d h2)
    · rcases List.mem_cons.mp hd with h2 | h2
      · rw [h2] at e; exact absurd e.symm (hp.1 c h1)
      · exact apart_eq hp.2 c h1 d h2 e

theorem IsCopy.together (h : IsCopy s ps pops chs) {ty : STy} {cs : List (ChannelPath × List ty.Val)}
    (hord : Format.ordinaryTy ty = true) (hd : cs.Pairwise (fun c d => c.1.path ≠ d.1.path)) :
    Together (pops ++ chs.flatMap (sampleCall s)) cs := by
  have key : ∀ c ∈ cs, ∀ d ∈ cs, ∀ op ∈ pops ++ chs.flatMap (sampleCall s), Names c.1.path op → Names d.1.path op → c = d := by
    intro c hc d hdm op hop h1 h2
    refine apart_eq hd c hc d hdm ?_
    rcases h.mem hop with ⟨path, rfl, _⟩ | ⟨x, _, ty', vals', _, rfl⟩
    · exact absurd h1 id
    · obtain ⟨y, hy, e1⟩ := h1
      obtain ⟨z, hz, e2⟩ := h2
      rw [List.mem_singleton.mp hy] at e1
      rw [List.mem_singleton.mp hz] at e2
      rw [← e1, ← e2]
  refine ⟨hord, hd, ?_, ?_⟩
  · rintro c hc d hdm ⟨op, hop, h1, h2⟩
    rw [key c hc d hdm op hop h1 h2]
  · intro c hc d hdm pre op post hsplit h1 h2
    rw [key c hc d hdm op (by rw [hsplit]; exact List.mem_append_right _ List.mem_cons_self) h1 h2]

theorem IsCopy.answers (h : IsCopy s ps pops chs) (hP : s.Plain) (al : Alloc)
    (hsz : (runOps al ⟨Index.new, []⟩ (pops ++ chs.flatMap (sampleCall s))).bytes.length < 2 ^ 63) (q : Query) (hq : q.Apart) :
    s.Answers al q (q.run al (runOps al ⟨Index.new, []⟩ (pops ++ chs.flatMap (sampleCall s)))) := by
  have hc := (h.follow al hP).1
  have hs := h.store hP
  have key : (storeOf (pops ++ chs.flatMap (sampleCall s))).Answers al q
      (q.run al (runOps al ⟨Index.new, []⟩ (pops ++ chs.flatMap (sampleCall s)))) := by
    cases q with
    | property path n => exact answers_property hc hsz path n
    | properties path => exact answers_properties hc hsz path
    | length c => exact answers_length hc h.types hsz c
    | read ty c start out => exact answers_read hc h.types hsz ty c start out
    | readMany ty cs start => exact answers_readMany hc h.types hsz ty cs start (h.together hq.1 hq.2)
    | groups => exact answers_groups hc hsz (h.tidy hP)
    | channels g => exact answers_channels hc hsz (h.tidy hP) g
  rwa [hs] at key

theorem lastValue_mem {ps : List (Text × PropertyValue)} {n : Text} {v : PropertyValue} (h : lastValue ps n = some v) : (n, v) ∈ ps := by
  unfold lastValue at h
  rw [Option.map_eq_some_iff] at h
  obtain ⟨⟨k, w⟩, h1, h2⟩ := h
  have hm := List.mem_of_getLast? h1
  rw [List.mem_filter] at hm
  have hk : k = n := by simpa using hm.2
  have h2 : w = v := h2
  rw [← hk, ← h2]
  exact hm.1

/-- An object has no more properties than have been written. -/
theorem IsCopy.few {ops : List Op} (h : IsCopy (storeOf ops) ps pops chs) {p : Text} (ho : (storeOf ops).objects p)
    (hfew : (ops.flatMap (Op.propsFor p)).length < 2 ^ 32) : (ps p).length < 2 ^ 32 := by
  refine Nat.lt_of_le_of_lt ?_ hfew
  have hnd : ((ps p).map (·.1)).Nodup := by
    rw [List.nodup_iff_pairwise_ne, List.pairwise_map]
    exact (h.sorted p ho).imp (fun h => textCmp_lt_ne h)
  have := nodup_subset_length (m := (ops.flatMap (Op.propsFor p)).map (·.1)) hnd (fun n hn => by
    obtain ⟨⟨k, v⟩, hm, e⟩ := List.mem_map.mp hn
    have hv := (h.values p ho k v).mp hm
    rw [store_value] at hv
    exact List.mem_map.mpr ⟨(k, v), lastValue_mem hv, e⟩)
  rwa [List.length_map, List.length_map] at this

/-- What fits into a file fits into a copy. -/
theorem IsCopy.fits {ops : List Op} (h : IsCopy (storeOf ops) ps pops chs) (hP : (storeOf ops).Plain) (hfit : ∀ op ∈ ops, OpFits op)
    (hfew : ∀ p, (storeOf ops).objects p → (ps p).length < 2 ^ 32) : ∀ op ∈ pops ++ chs.flatMap (sampleCall (storeOf ops)), OpFits op := by
  have hpath : ∀ p, (storeOf ops).objects p → Text.Fits p := by
    intro p ho
    obtain ⟨op, hop, hm⟩ := (store_objects ops p).mp ho
    have hf := hfit op hop
    cases op with
    | props e path properties =>
      have e : p = path.path := hm
      rw [e]; exact hf.1
    | write e ty channels vals layout =>
      obtain ⟨c, hc, e⟩ := List.mem_map.mp (show p ∈ channels.map ChannelPath.path from hm)
      rw [← e]; exact hf.2.2 c hc
  intro op hop
  rcases h.mem hop with ⟨path, rfl, ho⟩ | ⟨c, hc, ty, vals, hcon, rfl⟩
  · refine ⟨hpath _ ho, hfew _ ho, fun x hx => ?_⟩
    obtain ⟨n, v⟩ := x
    have hv := (h.values _ ho n v).mp hx
    rw [store_value] at hv
    obtain ⟨op, hop, hm⟩ := List.mem_flatMap.mp (lastValue_mem hv)
    have hf := hfit op hop
    cases op with
    | props e path' properties =>
      have hm : (n, v) ∈ (if path'.path = path.path then properties else []) := hm
      split at hm
      · exact hf.2.2 _ hm
      · cases hm
    | write e ty channels vals layout => cases hm
  · refine ⟨sized_of_ordinary (hP.samples _ _ _ hcon).2.2.1, show 1 < 2 ^ 32 by decide, fun d hd => ?_⟩
    rw [List.mem_singleton.mp hd]
    exact hpath _ (h.channels c hc)

/-- A column of a table has values. -/
theorem column_length {α : Type} (layout : DataLayout) (k i : Nat) (vals : List α) (hi : i < k) (hk : k ∣ vals.length) (hv : vals ≠ []) :
    column layout k i vals ≠ [] := by
  obtain ⟨m, hm⟩ := hk
  have hpos : 0 < vals.length := List.length_pos_iff.mpr hv
  have hkp : 0 < k := Nat.lt_of_le_of_lt (Nat.zero_le _) hi
  have hm1 : vals.length / k = m := by rw [hm, Nat.mul_div_cancel_left _ hkp]
  have hmp : 0 < m := by
    cases m with
    | zero => rw [Nat.mul_zero] at hm; omega
    | succ m => exact Nat.succ_pos _
  cases layout with
  | interleaved =>
    intro h
    unfold column at h
    dsimp only at h
    rw [List.filterMap_eq_nil_iff] at h
    have h0 := h 0 (by rw [hm1]; exact List.mem_range.mpr hmp)
    rw [List.getElem?_eq_none_iff] at h0
    have : k * 1 ≤ k * m := Nat.mul_le_mul_left _ hmp
    omega
  | contigious =>
    intro h
    unfold column at h
    dsimp only at h
    have hl := congrArg List.length h
    rw [List.length_take, List.length_drop, hm1, hm] at hl
    have h2 : (i + 1) * m ≤ k * m := Nat.mul_le_mul_right _ hi
    rw [Nat.add_mul, Nat.one_mul] at h2
    rw [List.length_nil] at hl
    omega

/-- What is in a file that has been written by the library. -/
theorem plain_history {ops : List Op} (hcomp : Compatible Last.none ops)
    (htypes : ∀ op ∈ ops, ∀ op' ∈ ops, ∀ p, Names p op → Names p op' → typeOf op = typeOf op') (htidy : ∀ op ∈ ops, Tidy op)
    (hchan : ∀ op ∈ ops, ∀ c : ChannelPath, Names c.path op → ∃ g n, c = ChannelPath.new g n) : (storeOf ops).Plain := by
  refine ⟨fun p ho => ?_, fun p n v hv => ?_, fun p ty vals hc => ?_⟩
  · obtain ⟨op, hop, hm⟩ := (store_objects ops p).mp ho
    have ht := htidy op hop
    cases op with
    | props e path properties =>
      obtain ⟨o, h1, h2⟩ := ht
      have e : p = path.path := hm
      exact ⟨o, h1, by rw [h2, e]⟩
    | write e ty channels vals layout =>
      obtain ⟨c, hc, e⟩ := List.mem_map.mp (show p ∈ channels.map ChannelPath.path from hm)
      obtain ⟨o, h1, h2⟩ := ht c hc
      exact ⟨o, h1, h2.trans e⟩
  · rw [store_value] at hv
    obtain ⟨op, hop, hm⟩ := List.mem_flatMap.mp (lastValue_mem hv)
    refine (store_objects ops p).mpr ⟨op, hop, ?_⟩
    cases op with
    | props e path' properties =>
      have hm : (n, v) ∈ (if path'.path = p then properties else []) := hm
      split at hm
      · rename_i e; exact e.symm
      · cases hm
    | write e ty channels vals layout => cases hm
  · rcases one_type htypes p with hno | ⟨ty', hty, hn⟩
    · rw [store_content_none _ _ hno] at hc
      cases hc
    · rw [store_content ops ty' p hty hn] at hc
      cases hc
      refine ⟨?_, ?_, named_ordinary hcomp hty hn, ?_⟩
      · obtain ⟨op, hop, hnm⟩ := hn
        refine (store_objects ops p).mpr ⟨op, hop, ?_⟩
        cases op with
        | props => exact absurd hnm id
        | write e ty channels vals layout => exact (names_iff _ _ _ _ _ _).mp hnm
      · obtain ⟨op, hop, hnm⟩ := hn
        obtain ⟨g, n, e⟩ := hchan op hop ⟨⟨p⟩⟩ hnm
        exact ⟨g, n, by rw [← e]; rfl⟩
      · obtain ⟨op, hop, hnm⟩ := hn
        intro hw
        unfold written at hw
        rw [List.flatMap_eq_nil_iff] at hw
        have hw := hw op hop
        have ht := hty op hop hnm
        cases op with
        | props => exact absurd hnm id
        | write e ty channels vals layout =>
          injection ht with ht
          subst ht
          rw [names_iff] at hnm
          obtain ⟨i, hi⟩ := Option.isSome_iff_exists.mp (List.isSome_idxOf?.mpr hnm)
          unfold valuesFor at hw
          dsimp only at hw
          rw [dif_pos rfl, hi] at hw
          have htab := compatible_table ops _ hcomp e _ channels vals layout hop
          refine column_length layout _ i vals ?_ htab.whole htab.some_value hw
          have := (List.findIdx?_eq_some_iff_getElem.mp hi).1
          rwa [List.length_map] at this

theorem represents_history {al : Alloc} {ops : List Op} (hc : Compatible Last.none ops)
    (htypes : ∀ op ∈ ops, ∀ op' ∈ ops, ∀ p, Names p op → Names p op' → typeOf op = typeOf op')
    (hsz : (runOps al ⟨Index.new, []⟩ ops).bytes.length < 2 ^ 63) (htidy : ∀ op ∈ ops, Tidy op) :
    Represents al (runOps al ⟨Index.new, []⟩ ops) (storeOf ops) := by
  intro q hq
  cases q with
  | property path n => exact answers_property hc hsz path n
  | properties path => exact answers_properties hc hsz path
  | length c => exact answers_length hc htypes hsz c
  | read ty c start out => exact answers_read hc htypes hsz ty c start out
  | readMany ty cs start => exact absurd rfl (hq ty cs start)
  | groups => exact answers_groups hc hsz htidy
  | channels g => exact answers_channels hc hsz htidy g

theorem Models.represents {al : Alloc} {s : Store} {last : Last} {segs : List Segment} {t : TdmsFile} (h : Models al s last segs t)
    (hclean : ∀ p, s.objects p → ∃ o : Obj, o.SlashFree ∧ o.toPath.path = p) : Represents al t s := by
  intro q hq
  cases q with
  | property path n => exact h.answers_property path n
  | properties path => exact h.answers_properties path
  | length c => exact h.answers_length c
  | read ty c start out => exact h.image.answers_read ty c start out
  | readMany ty cs start => exact absurd rfl (hq ty cs start)
  | groups => exact h.answers_groups hclean
  | channels g => exact h.answers_channels hclean g

theorem IsCopy.opens (h : IsCopy s ps pops chs) (hP : s.Plain) {al : Alloc} (hal : Generous al)
    (hsz : (runOps al ⟨Index.new, []⟩ (pops ++ chs.flatMap (sampleCall s))).bytes.length < 2 ^ 63)
    (hfit : ∀ op ∈ pops ++ chs.flatMap (sampleCall s), OpFits op) :
    TdmsFile.new al (runOps al ⟨Index.new, []⟩ (pops ++ chs.flatMap (sampleCall s))).bytes =
      .ok (runOps al ⟨Index.new, []⟩ (pops ++ chs.flatMap (sampleCall s))) := by
  obtain ⟨hc, hd⟩ := h.follow al hP
  refine reopen_partial al hal rfl _ (holds_history al _ hc hsz).1 (fun op hop => ?_) hfit hd (by omega)
  cases op with
  | props => trivial
  | write e ty chs' vals layout => exact (compatible_table _ _ hc e ty chs' vals layout hop).distinct

end
end Library
end Tedium
