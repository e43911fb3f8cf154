import Verif.Model.Growing
import Verif.Spec.Device
import Verif.Spec.Meanwhile
import Verif.Proofs.Handle

/-! # A stream that grows during a call does what a stream with the final contents and short reads does -/

namespace Tedium

/-! ## The fuel of `read_exact` -/

theorem Device.read_script (d : Device) (n : Nat) : (d.read n).2.script.length ≤ d.script.length ∧
    ((d.read n).1 = .interrupted → (d.read n).2.script.length < d.script.length) := by
  obtain ⟨f, p, script⟩ := d
  cases script with
  | nil => exact ⟨Nat.le_refl _, fun h => by cases h⟩
  | cons o script => cases o <;> exact ⟨by simp [Device.read], fun _ => by simp [Device.read]⟩

theorem BufReader.read_script (b : BufReader) (n : Nat) : (b.read n).2.dev.script.length ≤ b.dev.script.length ∧
    ((b.read n).1 = .interrupted → (b.read n).2.dev.script.length < b.dev.script.length) := by
  unfold BufReader.read
  split
  · split
    · exact b.dev.read_script n
    · have h := b.dev.read_script b.capacity
      cases hx : b.dev.read b.capacity with
      | mk r dev =>
        rw [hx] at h
        cases r with
        | got bs => exact ⟨h.1, fun h => by cases h⟩
        | interrupted => exact h
        | failed c => exact h
  · exact ⟨Nat.le_refl _, fun h => by cases h⟩

theorem BufReader.loop_fuel : ∀ (f1 f2 n : Nat) (acc : Bytes) (b : BufReader), n + b.dev.script.length < f1 →
    n + b.dev.script.length < f2 → readExactLoop f1 n acc b = readExactLoop f2 n acc b := by
  intro f1
  induction f1 with
  | zero => intro f2 n acc b h; omega
  | succ f1 ih =>
    intro f2 n acc b h1 h2
    cases f2 with
    | zero => omega
    | succ f2 =>
      unfold readExactLoop
      split
      · rfl
      · have h := b.read_script n
        cases hx : b.read n with
        | mk r b' =>
          rw [hx] at h
          cases r with
          | got bs =>
            dsimp only
            split
            · rfl
            · rename_i hn hb
              have : 0 < bs.length := List.length_pos_iff.mpr hb
              have h3 := h.1
              dsimp only at h3
              exact ih _ _ _ _ (by omega) (by omega)
          | interrupted =>
            have h3 := h.2 rfl
            dsimp only at h3 ⊢
            exact ih _ _ _ _ (by omega) (by omega)
          | failed c => rfl

/-! ## Following a stream that grows -/

/-- `sim` fails where `used` does, and possibly goes on without failures, when nothing is left of the script. -/
def Mirrors (used sim left : List ReadOutcome) : Prop :=
  ∃ extra, NoFailure extra ∧ sim.map ReadOutcome.failure = used.map ReadOutcome.failure ++ extra.map ReadOutcome.failure ∧
    (extra = [] ∨ left = [])

theorem Mirrors.nil (left : List ReadOutcome) : Mirrors [] [] left := ⟨[], .nil, rfl, Or.inl rfl⟩

theorem Mirrors.append {u1 s1 l1 u2 s2 l2 : List ReadOutcome} (h1 : Mirrors u1 s1 l1) (h2 : Mirrors u2 s2 l2)
    (hl : l1 = u2 ++ l2) : Mirrors (u1 ++ u2) (s1 ++ s2) l2 := by
  obtain ⟨x1, n1, e1, c1⟩ := h1
  obtain ⟨x2, n2, e2, c2⟩ := h2
  rcases c1 with rfl | rfl
  · exact ⟨x2, n2, by rw [List.map_append, e1, e2, List.map_append]; simp, c2⟩
  · obtain ⟨rfl, rfl⟩ := List.append_eq_nil_iff.mp hl.symm
    exact ⟨x1 ++ x2, n1.append n2, by rw [List.map_append, e1, e2]; simp, Or.inr rfl⟩

theorem noFailure_map {a b : List ReadOutcome} (h : a.map ReadOutcome.failure = b.map ReadOutcome.failure)
    (hb : NoFailure b) : NoFailure a := by
  intro o ho
  have := List.mem_map_of_mem (f := ReadOutcome.failure) ho
  rw [h] at this
  obtain ⟨o', ho', e⟩ := List.mem_map.mp this
  rw [← e]
  exact hb o' ho'

theorem Mirrors.noFailure {used sim left : List ReadOutcome} (h : Mirrors used sim left) (hn : NoFailure sim) :
    NoFailure used := by
  obtain ⟨x, _, e, _⟩ := h
  intro o ho
  have : o.failure ∈ sim.map ReadOutcome.failure := by
    rw [e]
    exact List.mem_append_left _ (List.mem_map_of_mem ho)
  obtain ⟨o', ho', e⟩ := List.mem_map.mp this
  rw [← e]
  exact hn o' ho'

theorem Mirrors.failed {used sim left : List ReadOutcome} {kind : IoKind} (h : Mirrors used sim left) (hf : Failed sim kind) :
    Failed used kind := by
  obtain ⟨x, hx, e, _⟩ := h
  obtain ⟨before, o, rfl, hb, ho⟩ := hf
  have hx0 : x = [] := by
    refine Classical.byContradiction fun hne => ?_
    have hl : (x.map ReadOutcome.failure).getLast? = some none := by
      rw [List.getLast?_map, List.getLast?_eq_some_getLast hne]
      exact congrArg some (hx _ (List.getLast_mem hne))
    have h1 : ((before ++ [o]).map ReadOutcome.failure).getLast? = some (some kind) := by
      rw [List.map_append, List.map_cons, ho]; simp
    rw [e, List.getLast?_append, hl] at h1
    cases h1
  subst hx0
  rw [List.map_nil, List.append_nil, List.map_append] at e
  obtain ⟨u1, u2, rfl, e1, e2⟩ := List.map_eq_append_iff.mp e.symm
  rw [List.map_cons, List.map_nil] at e2
  obtain ⟨o', rfl, e3⟩ : ∃ o', u2 = [o'] ∧ o'.failure = o.failure := by
    cases u2 with
    | nil => cases e2
    | cons a u2 =>
      rw [List.map_cons, List.cons.injEq, List.map_eq_nil_iff] at e2
      exact ⟨a, by rw [e2.2], e2.1⟩
  exact ⟨u1, o', rfl, noFailure_map e1 hb, by rw [e3, ho]⟩

theorem Growing.Later.refl (g : Growing) : g.Later g := ⟨[], rfl, by simp⟩

theorem Growing.Later.trans {g g1 g2 : Growing} (h : g.Later g1) (h' : g1.Later g2) : g.Later g2 := by
  obtain ⟨n1, a1, b1⟩ := h
  obtain ⟨n2, a2, b2⟩ := h'
  exact ⟨n1 ++ n2, by rw [a1, a2, List.append_assoc], by rw [b2, b1, List.flatten_append, List.append_assoc]⟩

theorem Growing.Later.grows {g g' : Growing} (h : g.Later g') : g.contents <+: g'.contents := by
  obtain ⟨n, _, h⟩ := h
  rw [h]
  exact List.prefix_append _ _

theorem Growing.Later.total {g g' : Growing} (h : g.Later g') : g'.total = g.total := by
  obtain ⟨n, h1, h2⟩ := h
  unfold Growing.total
  unfold Growing.contents at h2
  rw [h1, h2]
  simp [Nat.add_assoc]

/-- What happens on a stream that grows from `g` to `g'` happens on every stream with the contents of `g'`, and if it is `good` on
    every stream that begins with these: `f` is the operation there, `e` its result. -/
def Follows {β : Type} (g : Growing) (good : Prop) (g' : Growing) (f e : Device → β) : Prop :=
  ∃ used sim, g.dev.script = used ++ g'.dev.script ∧ Mirrors used sim g'.dev.script ∧ g.Later g' ∧
    ∀ C, (g'.contents = C ∨ good ∧ g'.contents <+: C) → ∀ rest,
      f ⟨C, g.dev.pos, sim ++ rest⟩ = e ⟨C, g'.dev.pos, rest⟩

theorem Follows.still {β : Type} (g : Growing) (good : Prop) {f e : Device → β} (h : ∀ d, f d = e d) : Follows g good g f e :=
  ⟨[], [], rfl, .nil _, .refl g, fun _ _ _ => h _⟩

theorem Follows.last {β γ : Type} {g g' : Growing} {good good' : Prop} {f e : Device → β} (h : Follows g good g' f e)
    (hg : good' → good) {f' e' : Device → γ} (hf : ∀ d d', f d = e d' → f' d = e' d') : Follows g good' g' f' e' := by
  obtain ⟨used, sim, h1, h2, h3, h4⟩ := h
  exact ⟨used, sim, h1, h2, h3, fun C hC rest => hf _ _ (h4 C (hC.imp id (And.imp hg id)) rest)⟩

theorem Follows.then {β γ : Type} {g g1 g2 : Growing} {good good' : Prop} {f e : Device → β} {f2 f' e' : Device → γ}
    (h : Follows g good g1 f e) (hg : good) (h' : Follows g1 good' g2 f2 e') (hf : ∀ d d1, f d = e d1 → f' d = f2 d1) :
    Follows g good' g2 f' e' := by
  obtain ⟨used, sim, h1, h2, h3, h4⟩ := h
  obtain ⟨used', sim', i1, i2, i3, i4⟩ := h'
  refine ⟨used ++ used', sim ++ sim', by rw [h1, i1, List.append_assoc], h2.append i2 i1, h3.trans i3, ?_⟩
  intro C hC rest
  rw [List.append_assoc]
  have hpre : g1.contents <+: C := by
    rcases hC with rfl | hC
    · exact i3.grows
    · exact i3.grows.trans hC.2
  rw [hf _ _ (h4 C (Or.inr ⟨hg, hpre⟩) (sim' ++ rest))]
  exact i4 C hC rest

/-! ## Operations of the stream -/

theorem Growing.grown_spec (g : Growing) : g.Later g.grown ∧ g.grown.dev.pos = g.dev.pos ∧
    g.grown.dev.script = g.dev.script := by
  unfold Growing.grown
  split
  · exact ⟨.refl g, rfl, rfl⟩
  · rename_i more growth h
    exact ⟨⟨[more], h, by simp [Growing.contents]⟩, rfl, rfl⟩

theorem take_front {t a : Bytes} (h : t <+: a) (hne : t ≠ [] ∨ a = []) : a.take (t.length - 1 + 1) = t := by
  rcases hne with hne | rfl
  · rw [Nat.sub_add_cancel (List.length_pos_iff.mpr hne)]
    exact (List.prefix_iff_eq_take.mp h).symm
  · rw [List.prefix_nil.mp h]; rfl

theorem window_prefix {c C : Bytes} (h : c <+: C) (p n : Nat) : (c.drop p).take n <+: (C.drop p).take n := by
  obtain ⟨t, rfl⟩ := h
  rw [List.drop_append, List.take_append]
  exact List.prefix_append _ _

theorem Growing.read_follows (g : Growing) (n : Nat) :
    Follows g ((g.read n).1 ≠ .got []) (g.read n).2 (fun d => d.read n) (fun d => ((g.read n).1, d)) := by
  obtain ⟨hc, hp, hs⟩ := g.grown_spec
  unfold Growing.read
  generalize hg : g.grown = g1 at *
  obtain ⟨⟨c, p, script⟩, growth⟩ := g1
  unfold Follows
  rw [← hs, ← hp]
  dsimp only [Growing.Later, Growing.contents] at hc ⊢
  cases script with
  | nil =>
    dsimp only [Device.read]
    refine ⟨[], [.short (((c.drop p).take n).length - 1)], rfl, ⟨[_], .single rfl, rfl, Or.inr rfl⟩, hc, ?_⟩
    intro C hC rest
    have hw : ((C.drop p).take n).take (((c.drop p).take n).length - 1 + 1) = (c.drop p).take n := by
      rcases hC with rfl | ⟨hne, hpre⟩
      · apply take_front List.prefix_rfl
        by_cases h : (c.drop p).take n = []
        · exact Or.inr h
        · exact Or.inl h
      · exact take_front (window_prefix hpre p n) (Or.inl fun h => hne (by rw [h]))
    show (ReadResult.got _, _) = _
    rw [hw]
    rfl
  | cons o script =>
    cases o with
    | short k =>
      dsimp only [Device.read]
      refine ⟨[.short k], [.short ((((c.drop p).take n).take (k + 1)).length - 1)], rfl,
        ⟨[], .nil, rfl, Or.inl rfl⟩, hc, ?_⟩
      intro C hC rest
      have hw : ((C.drop p).take n).take ((((c.drop p).take n).take (k + 1)).length - 1 + 1)
          = ((c.drop p).take n).take (k + 1) := by
        rcases hC with rfl | ⟨hne, hpre⟩
        · apply take_front (List.take_prefix _ _)
          by_cases h : (c.drop p).take n = []
          · exact Or.inr h
          · refine Or.inl fun h' => h ?_
            rcases List.take_eq_nil_iff.mp h' with h' | h'
            · omega
            · exact h'
        · exact take_front ((List.take_prefix _ _).trans (window_prefix hpre p n)) (Or.inl fun h => hne (by rw [h]))
      show (ReadResult.got _, _) = _
      rw [hw]
      rfl
    | interrupted =>
      exact ⟨[.interrupted], [.interrupted], rfl, ⟨[], .nil, rfl, Or.inl rfl⟩, hc, fun C hC rest => rfl⟩
    | fail code =>
      exact ⟨[.fail code], [.fail code], rfl, ⟨[], .nil, rfl, Or.inl rfl⟩, hc, fun C hC rest => rfl⟩
    | ended =>
      exact ⟨[.ended], [.ended], rfl, ⟨[], .nil, rfl, Or.inl rfl⟩, hc, fun C hC rest => rfl⟩

theorem Growing.seekStart_follows (g : Growing) (position : Nat) :
    Follows g True (g.seekStart position).2 (fun d => d.seekStart position) (fun d => ((g.seekStart position).1, d)) := by
  obtain ⟨hc, hp, hs⟩ := g.grown_spec
  unfold Growing.seekStart
  generalize hg : g.grown = g1 at *
  obtain ⟨⟨c, p, script⟩, growth⟩ := g1
  unfold Follows
  rw [← hs, ← hp]
  dsimp only [Growing.Later, Growing.contents] at hc ⊢
  cases script with
  | nil =>
    exact ⟨[], [.short 0], rfl, ⟨[_], .single rfl, rfl, Or.inr rfl⟩, hc, fun C hC rest => rfl⟩
  | cons o script =>
    refine ⟨[o], [o], ?_, ⟨[], .nil, rfl, Or.inl rfl⟩, ?_, ?_⟩
    · cases o <;> rfl
    · cases o <;> exact hc
    · intro C hC rest
      cases o <;> rfl

theorem Growing.seekCurrent_follows (g : Growing) (offset : Int) :
    Follows g True (g.seekCurrent offset).2 (fun d => d.seekCurrent offset) (fun d => ((g.seekCurrent offset).1, d)) := by
  obtain ⟨hc, hp, hs⟩ := g.grown_spec
  unfold Growing.seekCurrent
  generalize hg : g.grown = g1 at *
  obtain ⟨⟨c, p, script⟩, growth⟩ := g1
  unfold Follows
  rw [← hs, ← hp]
  dsimp only [Growing.Later, Growing.contents] at hc ⊢
  cases script with
  | nil =>
    refine ⟨[], [.short 0], ?_, ⟨[_], .single rfl, rfl, Or.inr ?_⟩, ?_, ?_⟩
    · unfold Device.seekCurrent Device.seekOutcome; dsimp only; split <;> rfl
    · unfold Device.seekCurrent Device.seekOutcome; dsimp only; split <;> rfl
    · unfold Device.seekCurrent Device.seekOutcome; dsimp only; split <;> exact hc
    · intro C hC rest
      unfold Device.seekCurrent Device.seekOutcome; dsimp only [ReadOutcome.failure, List.cons_append, List.nil_append]
      split <;> rfl
  | cons o script =>
    refine ⟨[o], [o], ?_, ⟨[], .nil, rfl, Or.inl rfl⟩, ?_, ?_⟩
    · unfold Device.seekCurrent Device.seekOutcome
      cases o <;> dsimp only [ReadOutcome.failure] <;> first | rfl | (split <;> rfl)
    · unfold Device.seekCurrent Device.seekOutcome
      cases o <;> dsimp only [ReadOutcome.failure] <;> first | exact hc | (split <;> exact hc)
    · intro C hC rest
      unfold Device.seekCurrent Device.seekOutcome
      cases o <;> dsimp only [ReadOutcome.failure, List.cons_append, List.nil_append] <;> first | rfl | (split <;> rfl)

/-! ## `BufReader` -/

/-- The same reader over another stream. -/
def GrowReader.on (b : GrowReader) (d : Device) : BufReader := ⟨b.capacity, b.filled, b.consumed, d⟩

theorem BufReader.read_empty (b : BufReader) (n : Nat) (h : b.consumed = b.filled.length) (hc : n ≥ b.capacity) :
    b.read n = ((b.dev.read n).1, { b with filled := [], consumed := 0, dev := (b.dev.read n).2 }) := by
  unfold BufReader.read
  rw [if_pos h, if_pos hc]

theorem BufReader.read_fill (b : BufReader) (n : Nat) (h : b.consumed = b.filled.length) (hc : ¬ n ≥ b.capacity) :
    b.read n = match b.dev.read b.capacity with
      | (.got bs, dev) => (.got (bs.take n), { b with filled := bs, consumed := (bs.take n).length, dev })
      | (r, dev) => (r, { b with filled := [], consumed := 0, dev }) := by
  unfold BufReader.read
  rw [if_pos h, if_neg hc]
  cases b.dev.read b.capacity with
  | mk r dev => cases r <;> rfl

theorem BufReader.read_buffer (b : BufReader) (n : Nat) (h : ¬ b.consumed = b.filled.length) :
    b.read n = (.got ((b.filled.drop b.consumed).take n),
      { b with consumed := b.consumed + ((b.filled.drop b.consumed).take n).length }) := by
  unfold BufReader.read
  rw [if_neg h]

theorem GrowReader.read_follows (b : GrowReader) (n : Nat) :
    Follows b.str ((b.read n).1 ≠ .got []) (b.read n).2.str (fun d => (b.on d).read n)
      (fun d => ((b.read n).1, (b.read n).2.on d)) := by
  unfold GrowReader.read
  by_cases h : b.consumed = b.filled.length
  · rw [if_pos h]
    by_cases hc : n ≥ b.capacity
    · rw [if_pos hc]
      refine (b.str.read_follows n).last id ?_
      intro d d' hd
      rw [BufReader.read_empty _ _ h hc]
      dsimp only [GrowReader.on] at hd ⊢
      rw [hd]
    · rw [if_neg hc]
      have hr := b.str.read_follows b.capacity
      cases hx : b.str.read b.capacity with
      | mk r str =>
        rw [hx] at hr
        cases r with
        | got bs =>
          refine hr.last ?_ ?_
          · intro hne hb
            cases hb
            exact hne (by dsimp only; rw [List.take_nil])
          · intro d d' hd
            rw [BufReader.read_fill _ _ h hc]
            dsimp only [GrowReader.on] at hd ⊢
            rw [hd]
        | interrupted =>
          refine hr.last (fun _ h => by cases h) ?_
          intro d d' hd
          rw [BufReader.read_fill _ _ h hc]
          dsimp only [GrowReader.on] at hd ⊢
          rw [hd]
        | failed c =>
          refine hr.last (fun _ h => by cases h) ?_
          intro d d' hd
          rw [BufReader.read_fill _ _ h hc]
          dsimp only [GrowReader.on] at hd ⊢
          rw [hd]
  · rw [if_neg h]
    exact .still _ _ fun d => BufReader.read_buffer _ _ h

theorem GrowReader.read_script (b : GrowReader) (n : Nat) : (b.read n).2.str.dev.script.length ≤ b.str.dev.script.length ∧
    ((b.read n).1 = .interrupted → (b.read n).2.str.dev.script.length < b.str.dev.script.length) := by
  have hg : ∀ m, (b.str.read m).2.dev.script.length ≤ b.str.dev.script.length ∧
      ((b.str.read m).1 = .interrupted → (b.str.read m).2.dev.script.length < b.str.dev.script.length) := by
    intro m
    have := b.str.grown.dev.read_script m
    rw [b.str.grown_spec.2.2] at this
    exact this
  unfold GrowReader.read
  split
  · split
    · exact hg n
    · have h := hg b.capacity
      cases hx : b.str.read b.capacity with
      | mk r str =>
        rw [hx] at h
        cases r with
        | got bs => exact ⟨h.1, fun h => by cases h⟩
        | interrupted => exact h
        | failed c => exact h
  · exact ⟨Nat.le_refl _, fun h => by cases h⟩

/-- Whether a result is `Ok`. -/
def IsGood {α : Type} (r : R α) : Prop := ∃ a, r = .ok a

theorem GrowReader.loop_follows : ∀ (fuel n : Nat) (acc : Bytes) (b : GrowReader), n + b.str.dev.script.length < fuel →
    Follows b.str (IsGood (readExactLoop fuel n acc b).1) (readExactLoop fuel n acc b).2.str
      (fun d => BufReader.readExactLoop (n + d.script.length + 1) n acc (b.on d))
      (fun d => ((readExactLoop fuel n acc b).1, (readExactLoop fuel n acc b).2.on d)) := by
  intro fuel
  induction fuel with
  | zero => intro n acc b h; omega
  | succ fuel ih =>
    intro n acc b hfuel
    unfold readExactLoop BufReader.readExactLoop
    by_cases hn : n = 0
    · simp only [if_pos hn]
      exact .still _ _ fun d => rfl
    · simp only [if_neg hn]
      have hr := b.read_follows n
      have hs := b.read_script n
      cases hx : b.read n with
      | mk r b' =>
        rw [hx] at hr hs
        have hsd : ∀ d d1, (b.on d).read n = (r, b'.on d1) → d1.script.length ≤ d.script.length ∧
            (r = .interrupted → d1.script.length < d.script.length) := by
          intro d d1 h
          have := (b.on d).read_script n
          rw [h] at this
          exact this
        cases r with
        | got bs =>
          dsimp only at hs ⊢
          by_cases hb : bs = []
          · simp only [if_pos hb]
            refine hr.last (fun h => by obtain ⟨a, h⟩ := h; cases h) ?_
            intro d d' hd
            dsimp only at hd
            rw [hd]
            dsimp only
            rw [if_pos hb]
          · simp only [if_neg hb]
            have hpos : 0 < bs.length := List.length_pos_iff.mpr hb
            refine hr.then (fun h => hb (ReadResult.got.inj h)) (ih _ _ _ (by dsimp only; omega)) ?_
            intro d d1 hd
            have h1 := (hsd d d1 hd).1
            dsimp only at hd
            rw [hd]
            dsimp only
            rw [if_neg hb]
            exact BufReader.loop_fuel _ _ _ _ _ (by dsimp only [GrowReader.on]; omega)
              (by dsimp only [GrowReader.on]; omega)
        | interrupted =>
          have h3 := hs.2 rfl
          dsimp only at h3 ⊢
          refine hr.then (fun h => by cases h) (ih _ _ _ (by dsimp only; omega)) ?_
          intro d d1 hd
          have h1 := (hsd d d1 hd).2 rfl
          dsimp only at hd
          rw [hd]
          exact BufReader.loop_fuel _ _ _ _ _ (by dsimp only [GrowReader.on]; omega)
            (by dsimp only [GrowReader.on]; omega)
        | failed c =>
          dsimp only
          refine hr.last (fun _ h => by cases h) ?_
          intro d d' hd
          dsimp only at hd
          rw [hd]

theorem GrowReader.readExact_follows (b : GrowReader) (n : Nat) :
    Follows b.str (IsGood (b.readExact n).1) (b.readExact n).2.str (fun d => (b.on d).readExact n)
      (fun d => ((b.readExact n).1, (b.readExact n).2.on d)) := by
  unfold GrowReader.readExact
  by_cases h : n ≤ b.filled.length - b.consumed
  · rw [if_pos h]
    exact .still _ _ fun d => if_pos h
  · rw [if_neg h]
    exact (loop_follows _ _ _ _ (by omega)).last id fun d d' hd => (if_neg h).trans hd

theorem GrowReader.seekStart_follows (b : GrowReader) (position : Nat) :
    Follows b.str True (b.seekStart position).2.str (fun d => (b.on d).seekStart position)
      (fun d => ((b.seekStart position).1, (b.seekStart position).2.on d)) := by
  unfold GrowReader.seekStart BufReader.seekStart
  have hr := b.str.seekStart_follows position
  cases hx : b.str.seekStart position with
  | mk r str =>
    rw [hx] at hr
    cases r with
    | some kind =>
      refine hr.last id ?_
      intro d d' hd
      dsimp only [GrowReader.on] at hd ⊢
      rw [hd]
    | none =>
      refine hr.last id ?_
      intro d d' hd
      dsimp only [GrowReader.on] at hd ⊢
      rw [hd]

theorem GrowReader.seekCurrent_follows (b : GrowReader) (offset : Int) :
    Follows b.str True (b.seekCurrent offset).2.str (fun d => (b.on d).seekCurrent offset)
      (fun d => ((b.seekCurrent offset).1, (b.seekCurrent offset).2.on d)) := by
  unfold GrowReader.seekCurrent
  dsimp only
  by_cases h : -(2 ^ 63) ≤ offset - ((b.filled.length : Int) - b.consumed)
  · rw [if_pos h]
    have hr := b.str.seekCurrent_follows (offset - ((b.filled.length : Int) - b.consumed))
    cases hx : b.str.seekCurrent (offset - ((b.filled.length : Int) - b.consumed)) with
    | mk r str =>
      rw [hx] at hr
      cases r with
      | some kind =>
        refine hr.last (fun _ => trivial) ?_
        intro d d' hd
        refine (if_pos h).trans ?_
        dsimp only [GrowReader.on] at hd ⊢
        rw [hd]
      | none =>
        refine hr.last (fun _ => trivial) ?_
        intro d d' hd
        refine (if_pos h).trans ?_
        dsimp only [GrowReader.on] at hd ⊢
        rw [hd]
  · rw [if_neg h]
    have hr := b.str.seekCurrent_follows (-((b.filled.length : Int) - b.consumed))
    cases hx : b.str.seekCurrent (-((b.filled.length : Int) - b.consumed)) with
    | mk r str =>
      rw [hx] at hr
      cases r with
      | some kind =>
        refine hr.last (fun _ => trivial) ?_
        intro d d' hd
        refine (if_neg h).trans ?_
        dsimp only [GrowReader.on] at hd ⊢
        rw [hd]
      | none =>
        have hr2 := str.seekCurrent_follows offset
        dsimp only
        cases hx2 : str.seekCurrent offset with
        | mk r2 str2 =>
          rw [hx2] at hr2
          have hlast : ∀ d d' : Device, d.seekCurrent offset = (r2, d') → (match d.seekCurrent offset with
              | (some kind, dev) => (some kind, BufReader.mk b.capacity [] 0 dev)
              | (none, dev) => (none, BufReader.mk b.capacity [] 0 dev)) = (r2, BufReader.mk b.capacity [] 0 d') := by
            intro d d' hd
            rw [hd]
            cases r2 <;> rfl
          have hstep : ∀ d d1 : Device, d.seekCurrent (-((b.filled.length : Int) - b.consumed)) = (none, d1) →
              (b.on d).seekCurrent offset = (match d1.seekCurrent offset with
                | (some kind, dev) => (some kind, BufReader.mk b.capacity [] 0 dev)
                | (none, dev) => (none, BufReader.mk b.capacity [] 0 dev)) := by
            intro d d1 hd
            refine (if_neg h).trans ?_
            dsimp only [GrowReader.on] at hd ⊢
            rw [hd]
            dsimp only
            cases d1.seekCurrent offset with
            | mk r3 d3 => cases r3 <;> rfl
          cases r2 with
          | some kind => exact hr.then trivial (hr2.last id hlast) hstep
          | none => exact hr.then trivial (hr2.last id hlast) hstep

theorem GrowReader.seekRelative_follows (b : GrowReader) (offset : Int) :
    Follows b.str True (b.seekRelative offset).2.str (fun d => (b.on d).seekRelative offset)
      (fun d => ((b.seekRelative offset).1, (b.seekRelative offset).2.on d)) := by
  unfold GrowReader.seekRelative
  dsimp only
  by_cases h : 0 ≤ (b.consumed : Int) + offset ∧ (b.consumed : Int) + offset ≤ b.filled.length
  · rw [if_pos h]
    exact .still _ _ fun d => if_pos h
  · rw [if_neg h]
    exact (b.seekCurrent_follows offset).last id fun d d' hd => (if_neg h).trans hd

theorem GrowReader.run_follows {α : Type} (a : Act α) : ∀ b : GrowReader,
    Follows b.str (IsGood (b.run a).1) (b.run a).2.str (fun d => (b.on d).run a)
      (fun d => ((b.run a).1, (b.run a).2.on d)) := by
  induction a with
  | ret a => intro b; exact .still _ _ fun d => rfl
  | stop e => intro b; exact .still _ _ fun d => rfl
  | exact n next ih =>
    intro b
    unfold GrowReader.run BufReader.run
    have hr := b.readExact_follows n
    cases hx : b.readExact n with
    | mk r b' =>
      rw [hx] at hr
      cases r with
      | error e =>
        refine hr.last (fun h => by obtain ⟨a, h⟩ := h; cases h) ?_
        intro d d' hd
        dsimp only at hd ⊢
        rw [hd]
      | ok bs =>
        refine hr.then ⟨_, rfl⟩ (ih bs b') ?_
        intro d d' hd
        dsimp only at hd ⊢
        rw [hd]
  | move o next ih =>
    intro b
    unfold GrowReader.run BufReader.run
    have hr := b.seekRelative_follows o
    cases hx : b.seekRelative o with
    | mk r b' =>
      rw [hx] at hr
      cases r with
      | some kind =>
        refine hr.last (fun _ => trivial) ?_
        intro d d' hd
        dsimp only at hd ⊢
        rw [hd]
      | none =>
        refine hr.then trivial (ih b') ?_
        intro d d' hd
        dsimp only at hd ⊢
        rw [hd]

theorem GrowReader.runProg_follows {σ α : Type} (a : Prog σ α) : ∀ b : GrowReader,
    Follows b.str (IsGood (b.runProg a).1.1) (b.runProg a).2.str (fun d => a.runBuf (b.on d))
      (fun d => ((b.runProg a).1, (b.runProg a).2.on d)) := by
  induction a with
  | ret a => intro b; exact .still _ _ fun d => rfl
  | stop e => intro b; exact .still _ _ fun d => rfl
  | exact n next ih =>
    intro b
    unfold GrowReader.runProg Prog.runBuf
    have hr := b.readExact_follows n
    cases hx : b.readExact n with
    | mk r b' =>
      rw [hx] at hr
      cases r with
      | error e =>
        refine hr.last (fun h => by obtain ⟨a, h⟩ := h; cases h) ?_
        intro d d' hd
        dsimp only at hd ⊢
        rw [hd]
      | ok bs =>
        refine hr.then ⟨_, rfl⟩ (ih bs b') ?_
        intro d d' hd
        dsimp only at hd ⊢
        rw [hd]
  | move o next ih =>
    intro b
    unfold GrowReader.runProg Prog.runBuf
    have hr := b.seekRelative_follows o
    cases hx : b.seekRelative o with
    | mk r b' =>
      rw [hx] at hr
      cases r with
      | some kind =>
        refine hr.last (fun _ => trivial) ?_
        intro d d' hd
        dsimp only at hd ⊢
        rw [hd]
      | none =>
        refine hr.then trivial (ih b') ?_
        intro d d' hd
        dsimp only at hd ⊢
        rw [hd]
  | store s next ih =>
    intro b
    unfold GrowReader.runProg Prog.runBuf
    refine (ih b).last id ?_
    intro d d' hd
    dsimp only at hd ⊢
    rw [hd]

/-! ## Opening -/

theorem Growing.readSegment_follows (al : Alloc) (capacity : Nat) (g : Growing) :
    Follows g (IsGood (g.readSegment al capacity).1) (g.readSegment al capacity).2 (fun d => d.readSegment al capacity)
      (fun d => ((g.readSegment al capacity).1, d)) := by
  unfold Growing.readSegment
  have hr : Follows g _ _ (fun d => (BufReader.new 0 d).readExact 4) _ := (GrowReader.new 0 g).readExact_follows 4
  generalize (GrowReader.new 0 g).readExact 4 = x at hr
  obtain ⟨r, b⟩ := x
  split
  · rename_i b' heq
    cases heq
    refine hr.last (fun h => by obtain ⟨a, h⟩ := h; cases h) ?_
    intro d d' hd
    unfold Device.readSegment
    rw [hd]
    rfl
  · rename_i e b' hne heq
    cases heq
    refine hr.last (fun h => by obtain ⟨a, h⟩ := h; cases h) ?_
    intro d d' hd
    unfold Device.readSegment
    rw [hd]
    dsimp only
    split
    · rename_i heq; cases heq; exact (hne rfl).elim
    · rename_i heq; cases heq; rfl
    · rename_i heq; cases heq
  · rename_i tag b' heq
    cases heq
    by_cases ht : tag ≠ tdsmTag
    · rw [if_pos ht]
      refine hr.last (fun _ => ⟨_, rfl⟩) ?_
      intro d d' hd
      unfold Device.readSegment
      rw [hd]
      dsimp only
      rw [if_pos ht]
      rfl
    · rw [if_neg ht]
      have hr2 := b.readExact_follows 4
      generalize hx2 : b.readExact 4 = x at hr2
      obtain ⟨r2, b2⟩ := x
      have hstep : ∀ d d1 : Device, (BufReader.new 0 d).readExact 4 = (.ok tag, b.on d1) →
          d.readSegment al capacity = (match (b.on d1).readExact 4 with
            | (.error e, b) => (.error e, b.dev)
            | (.ok buf, b) =>
              let toc := ToC.fromU32 (decNat .little buf)
              let (r, b) := (BufReader.new capacity b.dev).run (Act.segment al (if toc.bigEndian then .big else .little) toc)
              (r, b.dev)) := by
        intro d d1 hd
        unfold Device.readSegment
        rw [hd]
        dsimp only
        rw [if_neg ht]
        cases (b.on d1).readExact 4 with
        | mk r b => cases r <;> rfl
      cases r2 with
      | error e =>
        refine hr.then ⟨_, rfl⟩ (hr2.last (fun h => by obtain ⟨a, h⟩ := h; cases h) ?_) hstep
        intro d d' hd
        rw [hd]
        rfl
      | ok buf =>
        dsimp only
        have hr3 := (GrowReader.new capacity b2.str).run_follows (Act.segment al
          (if (ToC.fromU32 (decNat .little buf)).bigEndian then .big else .little) (ToC.fromU32 (decNat .little buf)))
        refine hr.then ⟨_, rfl⟩ (hr2.then ⟨_, rfl⟩ (hr3.last id (f' := fun d =>
          (((BufReader.new capacity d).run (Act.segment al
            (if (ToC.fromU32 (decNat .little buf)).bigEndian then .big else .little) (ToC.fromU32 (decNat .little buf)))).1,
          ((BufReader.new capacity d).run (Act.segment al
            (if (ToC.fromU32 (decNat .little buf)).bigEndian then .big else .little) (ToC.fromU32 (decNat .little buf)))).2.dev)) ?_) ?_) hstep
        · intro d d' hd
          rw [show (BufReader.new capacity d) = (GrowReader.new capacity b2.str).on d from rfl, hd]
          rfl
        · intro d d' hd
          rw [hd]
          rfl

theorem Growing.openLoop_error (al : Alloc) (capacity fuel : Nat) (ix : Index) {g g' : Growing} {e : Fail}
    (hs : g.readSegment al capacity = (.error e, g')) :
    g.openLoop al capacity (fuel + 1) ix = (if e = .err .endOfFile then .ok ix else .error e, g') := by
  unfold Growing.openLoop
  rw [hs]
  split
  · rename_i heq; cases heq; rfl
  · rename_i hne heq
    cases heq
    rw [if_neg (fun h => hne h)]
  · rename_i heq; cases heq

theorem Growing.openLoop_follows (al : Alloc) (capacity : Nat) : ∀ (fuel : Nat) (ix : Index) (g : Growing),
    Follows g False (g.openLoop al capacity fuel ix).2 (fun d => d.openLoop al capacity fuel ix)
      (fun d => ((g.openLoop al capacity fuel ix).1, d)) := by
  intro fuel
  induction fuel with
  | zero => intro ix g; exact .still _ _ fun d => rfl
  | succ fuel ih =>
    intro ix g
    have hr := g.readSegment_follows al capacity
    cases hx : g.readSegment al capacity with
    | mk r g1 =>
    rw [hx] at hr
    cases r with
    | error e =>
      rw [openLoop_error al capacity fuel ix hx]
      exact hr.last False.elim fun d d' hd => Device.openLoop_error al capacity fuel ix hd
    | ok s =>
      unfold Growing.openLoop
      rw [hx]
      dsimp only
      have hstep : ∀ d d1 : Device, d.readSegment al capacity = (.ok s, d1) →
          d.openLoop al capacity (fuel + 1) ix = (match ix.addSegment s with
            | (.error e, _) => (.error e, d1)
            | (.ok next, ix) =>
              match d1.seekStart next with
              | (some _, d) => (.ok ix, d)
              | (none, d) => Device.openLoop al capacity fuel ix d) := by
        intro d d1 hd
        conv => lhs; unfold Device.openLoop
        rw [hd]
        rfl
      cases hadd : ix.addSegment s with
      | mk r ix1 =>
        rw [hadd] at hstep
        cases r with
        | error e => exact hr.last False.elim hstep
        | ok next =>
          dsimp only at hstep ⊢
          have hr2 := g1.seekStart_follows next
          generalize g1.seekStart next = x at hr2
          obtain ⟨r2, g2⟩ := x
          cases r2 with
          | some kind =>
            refine hr.then ⟨_, rfl⟩ (hr2.last (fun _ => trivial) ?_) hstep
            intro d d' hd
            dsimp only at hd ⊢
            rw [hd]
          | none =>
            refine hr.then ⟨_, rfl⟩ (hr2.then trivial (ih ix1 g2) ?_) hstep
            intro d d' hd
            dsimp only at hd ⊢
            rw [hd]

/-! ## Reading -/

theorem Runner.growing_follows {α : Type} (capacity start : Nat) (a : Prog (CellStore α) (Nat × List (RecordEntry α)))
    (g : Growing) : Follows g (IsGood (Runner.growing capacity start a g).1.1) (Runner.growing capacity start a g).2
      (fun d => Runner.stream capacity start a d) (fun d => ((Runner.growing capacity start a g).1, d)) := by
  unfold Runner.growing
  have hr := (GrowReader.new capacity g).seekStart_follows start
  generalize (GrowReader.new capacity g).seekStart start = x at hr
  obtain ⟨r, b⟩ := x
  cases r with
  | some kind =>
    refine hr.last (fun _ => trivial) ?_
    intro d d' hd
    unfold Runner.stream
    rw [show (BufReader.new capacity d) = (GrowReader.new capacity g).on d from rfl, hd]
    rfl
  | none =>
    refine hr.then trivial ((b.runProg_follows a).last id (f' := fun d => ((a.runBuf (b.on d)).1, (a.runBuf (b.on d)).2.dev)) ?_) ?_
    · intro d d' hd
      dsimp only
      rw [hd]
      rfl
    · intro d d' hd
      unfold Runner.stream
      rw [show (BufReader.new capacity d) = (GrowReader.new capacity g).on d from rfl, hd]

section
variable {α : Type} (S : Storage α) (rd : Endian → Act α)

theorem executeBlockInto_follows (capacity : Nat) (ix : Index) (loc : BlockRead) (ps : List (Progress α)) (g : Growing) :
    Follows g (IsGood (executeBlockInto S rd (Runner.growing capacity) ix loc ps g).1)
      (executeBlockInto S rd (Runner.growing capacity) ix loc ps g).2.2
      (fun d => executeBlockInto S rd (Runner.stream capacity) ix loc ps d)
      (fun d => ((executeBlockInto S rd (Runner.growing capacity) ix loc ps g).1,
        (executeBlockInto S rd (Runner.growing capacity) ix loc ps g).2.1, d)) := by
  unfold executeBlockInto
  dsimp only
  cases ix.getDataBlock loc.dataBlock with
  | none => exact .still _ _ fun d => rfl
  | some block =>
    dsimp only
    cases block.program S rd _ (blockRequests 0 loc.channelIndexes ps) with
    | error e => exact .still _ _ fun d => rfl
    | ok a =>
      dsimp only
      have hr := Runner.growing_follows capacity block.start a g
      generalize Runner.growing capacity block.start a g = x at hr
      obtain ⟨⟨r, ss⟩, g1⟩ := x
      cases r with
      | error e =>
        refine hr.last (fun h => by obtain ⟨a, h⟩ := h; cases h) ?_
        intro d d' hd
        dsimp only at hd ⊢
        rw [hd]
      | ok v =>
        refine hr.last (fun _ => ⟨_, rfl⟩) ?_
        intro d d' hd
        dsimp only at hd ⊢
        rw [hd]

theorem executePlanInto_follows (capacity : Nat) (ix : Index) (locs : List BlockRead) : ∀ (ps : List (Progress α)) (g : Growing),
    Follows g (IsGood (executePlanInto S rd (Runner.growing capacity) ix locs ps g).1)
      (executePlanInto S rd (Runner.growing capacity) ix locs ps g).2.2
      (fun d => executePlanInto S rd (Runner.stream capacity) ix locs ps d)
      (fun d => ((executePlanInto S rd (Runner.growing capacity) ix locs ps g).1,
        (executePlanInto S rd (Runner.growing capacity) ix locs ps g).2.1, d)) := by
  induction locs with
  | nil => intro ps g; exact .still _ _ fun d => rfl
  | cons loc locs ih =>
    intro ps g
    unfold executePlanInto
    have hr := executeBlockInto_follows S rd capacity ix loc ps g
    generalize executeBlockInto S rd (Runner.growing capacity) ix loc ps g = x at hr
    obtain ⟨r, log, g1⟩ := x
    cases r with
    | error e =>
      refine hr.last (fun h => by obtain ⟨a, h⟩ := h; cases h) ?_
      intro d d' hd
      dsimp only at hd ⊢
      rw [hd]
    | ok ps1 =>
      dsimp only
      by_cases hc : ps1.all Progress.isComplete
      · rw [if_pos hc]
        refine hr.last (fun _ => ⟨_, rfl⟩) ?_
        intro d d' hd
        dsimp only at hd ⊢
        rw [hd]
        dsimp only
        rw [if_pos hc]
      · rw [if_neg hc]
        refine hr.then ⟨_, rfl⟩ ((ih ps1 g1).last id (f' := fun d =>
          ((executePlanInto S rd (Runner.stream capacity) ix locs ps1 d).1,
           log ++ (executePlanInto S rd (Runner.stream capacity) ix locs ps1 d).2.1,
           (executePlanInto S rd (Runner.stream capacity) ix locs ps1 d).2.2)) ?_) ?_
        · intro d d' hd
          dsimp only at hd ⊢
          rw [hd]
        · intro d d' hd
          dsimp only at hd ⊢
          rw [hd]
          dsimp only
          rw [if_neg hc]

end

end Tedium
