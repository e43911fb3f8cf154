import Verif.Spec.Device

/-! # `BufReader` is transparent -/

namespace Tedium

/-- The reader stands at position `p` of the file `f`. -/
structure Stands (f : Bytes) (p : Nat) (b : BufReader) : Prop where
  bytes : b.dev.bytes = f
  window : ∃ s, b.dev.pos = s + b.filled.length ∧ b.filled <+: f.drop s ∧ p = s + b.consumed
  le : b.consumed ≤ b.filled.length

theorem NoFailure.nil : NoFailure [] := nofun

theorem NoFailure.append {a b : List ReadOutcome} (ha : NoFailure a) (hb : NoFailure b) : NoFailure (a ++ b) := by
  intro o ho
  rcases List.mem_append.mp ho with h | h
  · exact ha o h
  · exact hb o h

theorem NoFailure.single {o : ReadOutcome} (h : o.failure = none) : NoFailure [o] := by
  intro x hx
  rw [List.mem_singleton.mp hx]
  exact h

theorem Failed.single {o : ReadOutcome} {kind : IoKind} (h : o.failure = some kind) : Failed [o] kind :=
  ⟨[], o, rfl, .nil, h⟩

theorem Failed.after {used more : List ReadOutcome} {kind : IoKind} (h : Failed used kind) (hm : NoFailure more) :
    Failed (more ++ used) kind := by
  obtain ⟨before, o, rfl, hb, h⟩ := h
  exact ⟨more ++ before, o, (List.append_assoc ..).symm, hm.append hb, h⟩

theorem Failed.failure {used : List ReadOutcome} {kind : IoKind} (h : Failed used kind) : ¬ NoFailure used := by
  obtain ⟨before, o, rfl, _, h⟩ := h
  intro hn
  rw [hn o (List.mem_append_right _ (List.mem_singleton.mpr rfl))] at h
  cases h

/-- A result `r` of an operation that used up `used`: no operation of the stream failed and it is the expected one, or
    the last one failed and it is the error of that one. -/
def Tells {α : Type} (used : List ReadOutcome) (r expected : R α) : Prop :=
  (NoFailure used ∧ r = expected) ∨ ∃ kind, Failed used kind ∧ r = R.err (.ioError kind)

theorem Tells.after {α : Type} {used more : List ReadOutcome} {r x : R α} (h : Tells used r x) (hm : NoFailure more) :
    Tells (more ++ used) r x := by
  rcases h with ⟨hn, h⟩ | ⟨c, hc, h⟩
  · exact Or.inl ⟨hm.append hn, h⟩
  · exact Or.inr ⟨c, hc.after hm, h⟩

theorem Tells.still {α : Type} (r : R α) : Tells [] r r := Or.inl ⟨.nil, rfl⟩

theorem Tells.ok {α : Type} {used : List ReadOutcome} {v : α} {x : R α} (h : Tells used (.ok v) x) :
    NoFailure used ∧ x = .ok v := by
  rcases h with ⟨hn, h⟩ | ⟨c, _, h⟩
  · exact ⟨hn, h.symm⟩
  · cases h

theorem Stands.new (cap : Nat) (dev : Device) : Stands dev.bytes dev.pos (.new cap dev) :=
  ⟨rfl, ⟨dev.pos, rfl, List.nil_prefix, rfl⟩, Nat.le_refl _⟩

/-- One `read` of the stream. -/
theorem Device.read_spec (d : Device) (n : Nat) : ∃ used, d.script = used ++ (d.read n).2.script ∧
    (d.read n).2.bytes = d.bytes ∧
    match (d.read n).1 with
    | .got bs => bs <+: (d.bytes.drop d.pos).take n ∧ (d.read n).2.pos = d.pos + bs.length ∧
        (NoFailure used ∧ (bs = [] → (d.bytes.drop d.pos).take n = []) ∨ bs = [] ∧ Failed used .unexpectedEof)
    | .interrupted => used ≠ [] ∧ NoFailure used ∧ (d.read n).2.pos = d.pos
    | .failed code => Failed used (.other code) := by
  obtain ⟨f, p, script⟩ := d
  cases script with
  | nil => exact ⟨[], rfl, rfl, List.prefix_rfl, rfl, Or.inl ⟨.nil, fun h => h⟩⟩
  | cons o script =>
    cases o with
    | short k =>
      refine ⟨[.short k], rfl, rfl, List.take_prefix _ _, rfl, Or.inl ⟨.single rfl, ?_⟩⟩
      intro h
      rw [List.take_eq_nil_iff] at h
      rcases h with h | h
      · omega
      · exact h
    | interrupted => exact ⟨[.interrupted], rfl, rfl, by simp, .single rfl, rfl⟩
    | fail c => exact ⟨[.fail c], rfl, rfl, .single rfl⟩
    | ended => exact ⟨[.ended], rfl, rfl, List.nil_prefix, rfl, Or.inr ⟨rfl, .single rfl⟩⟩

/-- One `read` of the buffered reader. -/
theorem BufReader.read_spec {f : Bytes} {p : Nat} {b : BufReader} (h : Stands f p b) {n : Nat} (hn : 0 < n) :
    ∃ used, b.dev.script = used ++ (b.read n).2.dev.script ∧ (b.read n).2.dev.bytes = f ∧
    match (b.read n).1 with
    | .got bs => bs <+: (f.drop p).take n ∧ Stands f (p + bs.length) (b.read n).2 ∧ 
        (NoFailure used ∧ (bs = [] → f.length ≤ p) ∨ bs = [] ∧ Failed used .unexpectedEof)
    | .interrupted => used ≠ [] ∧ NoFailure used ∧ Stands f p (b.read n).2
    | .failed code => Failed used (.other code) := by
  obtain ⟨hb, ⟨s, hpos, hwin, hp⟩, hle⟩ := h
  unfold BufReader.read
  by_cases hex : b.consumed = b.filled.length
  · rw [if_pos hex]
    have hpp : b.dev.pos = p := by omega
    have hempty : ∀ m, 0 < m → (f.drop p).take m = [] → f.length ≤ p := by
      intro m hm h
      rw [List.take_eq_nil_iff, List.drop_eq_nil_iff] at h
      omega
    by_cases hcap : n ≥ b.capacity
    · rw [if_pos hcap]
      obtain ⟨used, h1, h2, h3⟩ := b.dev.read_spec n
      refine ⟨used, h1, h2.trans hb, ?_⟩
      cases hr : (b.dev.read n).1 with
      | got bs =>
        rw [hr] at h3
        obtain ⟨h3, h4, h5⟩ := h3
        dsimp only
        rw [hb, hpp] at h3 h5
        refine ⟨h3, ⟨h2.trans hb, ⟨p + bs.length, ?_, List.nil_prefix, rfl⟩, Nat.le_refl _⟩, ?_⟩
        · show (b.dev.read n).2.pos = _ + 0
          rw [h4, hpp]
          rfl
        · exact h5.imp_left (fun h5 => ⟨h5.1, fun h => hempty n hn (h5.2 h)⟩)
      | interrupted =>
        rw [hr] at h3
        exact ⟨h3.1, h3.2.1, h2.trans hb, ⟨p, by show (b.dev.read n).2.pos = p + 0; rw [h3.2.2, hpp]; rfl, List.nil_prefix, rfl⟩, Nat.le_refl _⟩
      | failed c =>
        rw [hr] at h3
        exact h3
    · rw [if_neg hcap]
      obtain ⟨used, h1, h2, h3⟩ := b.dev.read_spec b.capacity
      refine ⟨used, ?_⟩
      cases hr : b.dev.read b.capacity with
      | mk r dev =>
      rw [hr] at h1 h2 h3
      cases r with
      | got bs =>
        dsimp only at h1 h2 h3 ⊢
        obtain ⟨h3, h4, h5⟩ := h3
        rw [hb, hpp] at h3 h5
        refine ⟨h1, h2.trans hb, ?_, ⟨h2.trans hb, ⟨p, ?_, h3.trans (List.take_prefix _ _), rfl⟩, ?_⟩, ?_⟩
        · have hpre := (List.take_prefix n bs).trans (h3.trans (List.take_prefix _ _))
          have hlen : (bs.take n).length ≤ n := by rw [List.length_take]; omega
          rw [List.prefix_take_iff]
          exact ⟨hpre, hlen⟩
        · show dev.pos = p + bs.length
          rw [h4, hpp]
        · show (bs.take n).length ≤ bs.length
          rw [List.length_take]; omega
        · rcases h5 with ⟨hnf, h5⟩ | ⟨h5, hf⟩
          · refine Or.inl ⟨hnf, fun h => ?_⟩
            rw [List.take_eq_nil_iff] at h
            rcases h with h | h
            · omega
            · exact hempty b.capacity (by omega) (h5 h)
          · exact Or.inr ⟨by rw [h5]; exact List.take_nil, hf⟩
      | interrupted =>
        dsimp only at h1 h2 h3 ⊢
        exact ⟨h1, h2.trans hb, h3.1, h3.2.1, h2.trans hb, ⟨p, by show dev.pos = p + 0; rw [h3.2.2, hpp]; rfl, List.nil_prefix, rfl⟩, Nat.le_refl _⟩
      | failed c =>
        dsimp only at h1 h2 h3 ⊢
        exact ⟨h1, h2.trans hb, h3⟩
  · rw [if_neg hex]
    refine ⟨[], rfl, hb, ?_⟩
    dsimp only
    have hdrop : b.filled.drop b.consumed <+: f.drop p := by
      obtain ⟨g, hg⟩ := hwin
      refine ⟨g, ?_⟩
      rw [hp, ← List.drop_drop, ← hg, List.drop_append_of_le_length hle]
    refine ⟨?_, ⟨hb, ⟨s, hpos, hwin, ?_⟩, ?_⟩, ?_⟩
    · rw [List.prefix_take_iff]
      exact ⟨(List.take_prefix _ _).trans hdrop, by rw [List.length_take]; omega⟩
    · show p + _ = s + (b.consumed + _)
      omega
    · show b.consumed + ((b.filled.drop b.consumed).take n).length ≤ b.filled.length
      rw [List.length_take, List.length_drop]
      omega
    · refine Or.inl ⟨.nil, fun h => ?_⟩
      rw [List.take_eq_nil_iff, List.drop_eq_nil_iff] at h
      omega

theorem BufReader.loop_spec {f : Bytes} : ∀ (fuel n : Nat) (acc : Bytes) (p : Nat) (b : BufReader), Stands f p b →
    n + b.dev.script.length < fuel →
    ∃ used, b.dev.script = used ++ (readExactLoop fuel n acc b).2.dev.script ∧
      (readExactLoop fuel n acc b).2.dev.bytes = f ∧
      Tells used (readExactLoop fuel n acc b).1
        (if n = 0 ∨ p + n ≤ f.length then .ok (acc ++ (f.drop p).take n) else R.err (.ioError .unexpectedEof)) ∧
      (∀ bs, (readExactLoop fuel n acc b).1 = .ok bs → Stands f (p + n) (readExactLoop fuel n acc b).2) := by
  intro fuel
  induction fuel with
  | zero => intro n acc p b _ h; omega
  | succ fuel ih =>
    intro n acc p b h hfuel
    unfold readExactLoop
    by_cases hn : n = 0
    · rw [if_pos hn, if_pos (Or.inl hn)]
      subst hn
      refine ⟨[], rfl, h.bytes, Or.inl ⟨.nil, ?_⟩, fun _ _ => h⟩
      simp
    · rw [if_neg hn]
      obtain ⟨used, h1, h2, h3⟩ := read_spec h (Nat.pos_of_ne_zero hn)
      cases hr : b.read n with
      | mk r b' =>
      rw [hr] at h1 h2 h3
      cases r with
      | interrupted =>
        dsimp only at h1 h2 h3 ⊢
        have hlen : n + b'.dev.script.length < fuel := by
          rw [h1, List.length_append] at hfuel
          have := List.length_pos_iff.mpr h3.1
          omega
        obtain ⟨used', i1, i2, i3, i4⟩ := ih n acc p b' h3.2.2 hlen
        refine ⟨used ++ used', by rw [List.append_assoc, ← i1]; exact h1, i2, i3.after h3.2.1, i4⟩
      | failed c =>
        dsimp only at h1 h2 h3 ⊢
        exact ⟨used, h1, h2, Or.inr ⟨_, h3, rfl⟩, fun bs hb => by cases hb⟩
      | got bs =>
        dsimp only at h1 h2 h3 ⊢
        obtain ⟨h3, h4, h5⟩ := h3
        by_cases hbs : bs = []
        · rw [if_pos hbs]
          rcases h5 with ⟨hnf, h5⟩ | ⟨_, h5⟩
          · have := h5 hbs
            rw [if_neg (by omega)]
            exact ⟨used, h1, h2, Or.inl ⟨hnf, rfl⟩, fun bs hb => by cases hb⟩
          · exact ⟨used, h1, h2, Or.inr ⟨_, h5, rfl⟩, fun bs hb => by cases hb⟩
        · rw [if_neg hbs]
          have hnf : NoFailure used := by
            rcases h5 with h5 | h5
            · exact h5.1
            · exact absurd h5.1 hbs
          have hpos := List.length_pos_iff.mpr hbs
          have hle := h3.length_le
          have hpre : bs <+: f.drop p := h3.trans (List.take_prefix _ _)
          have hle2 := hpre.length_le
          rw [List.length_take, List.length_drop] at hle
          have hlen : n - bs.length + b'.dev.script.length < fuel := by
            rw [h1, List.length_append] at hfuel
            omega
          obtain ⟨used', i1, i2, i3, i4⟩ := ih (n - bs.length) (acc ++ bs) (p + bs.length) b' h4 hlen
          refine ⟨used ++ used', by rw [List.append_assoc, ← i1]; exact h1, i2, ?_, ?_⟩
          · have hexp : (if n - bs.length = 0 ∨ p + bs.length + (n - bs.length) ≤ f.length
                then (.ok (acc ++ bs ++ (f.drop (p + bs.length)).take (n - bs.length)) : R Bytes)
                else R.err (.ioError .unexpectedEof))
              = if n = 0 ∨ p + n ≤ f.length then .ok (acc ++ (f.drop p).take n) else R.err (.ioError .unexpectedEof) := by
              have hiff : (n - bs.length = 0 ∨ p + bs.length + (n - bs.length) ≤ f.length) ↔ (n = 0 ∨ p + n ≤ f.length) := by
                omega
              simp only [hiff]
              split
              · obtain ⟨g, hg⟩ := hpre
                have hd : f.drop (p + bs.length) = g := by
                  rw [← List.drop_drop, ← hg, List.drop_left]
                rw [hd, ← hg, List.append_assoc, List.take_append, List.take_of_length_le (l := bs) (by omega)]
              · rfl
            rw [← hexp]
            exact i3.after hnf
          · intro x hx
            have := i4 x hx
            rwa [show p + bs.length + (n - bs.length) = p + n from by omega] at this

/-- `read_exact` of the buffered reader. -/
theorem BufReader.readExact_spec {f : Bytes} {p : Nat} {b : BufReader} (h : Stands f p b) (n : Nat) :
    ∃ used, b.dev.script = used ++ (b.readExact n).2.dev.script ∧ (b.readExact n).2.dev.bytes = f ∧
      Tells used (b.readExact n).1 ((Rd.exact n f p).map Prod.fst) ∧
      (∀ bs, (b.readExact n).1 = .ok bs → Rd.exact n f p = .ok (bs, p + n) ∧ Stands f (p + n) (b.readExact n).2) := by
  have hexact : (Rd.exact n f p).map Prod.fst
      = if n = 0 ∨ p + n ≤ f.length then .ok ([] ++ (f.drop p).take n) else R.err (.ioError .unexpectedEof) := by
    unfold Rd.exact
    split <;> rfl
  have hback : ∀ bs, (Rd.exact n f p).map Prod.fst = .ok bs → Rd.exact n f p = .ok (bs, p + n) := by
    intro bs
    unfold Rd.exact
    split
    · intro h
      cases h
      rfl
    · intro h; cases h
  suffices hs : ∃ used, b.dev.script = used ++ (b.readExact n).2.dev.script ∧ (b.readExact n).2.dev.bytes = f ∧
      Tells used (b.readExact n).1 ((Rd.exact n f p).map Prod.fst) ∧
      (∀ bs, (b.readExact n).1 = .ok bs → Stands f (p + n) (b.readExact n).2) by
    obtain ⟨used, h1, h2, h3, h4⟩ := hs
    refine ⟨used, h1, h2, h3, fun bs hbs => ⟨hback bs ?_, h4 bs hbs⟩⟩
    rw [hbs] at h3
    exact h3.ok.2
  unfold BufReader.readExact
  by_cases hn : n ≤ b.filled.length - b.consumed
  · rw [if_pos hn]
    obtain ⟨hb, ⟨s, hpos, hwin, hp⟩, hle⟩ := h
    have hdrop : b.filled.drop b.consumed <+: f.drop p := by
      obtain ⟨g, hg⟩ := hwin
      refine ⟨g, ?_⟩
      rw [hp, ← List.drop_drop, ← hg, List.drop_append_of_le_length hle]
    refine ⟨[], rfl, hb, Or.inl ⟨.nil, ?_⟩, fun bs _ => ⟨hb, ⟨s, hpos, hwin, ?_⟩, ?_⟩⟩
    · dsimp only
      have hl := hdrop.length_le
      rw [List.length_drop, List.length_drop] at hl
      rw [hexact, if_pos (by omega)]
      obtain ⟨g, hg⟩ := hdrop
      rw [← hg, List.take_append_of_le_length (by rw [List.length_drop]; omega)]
      rfl
    · show p + n = s + (b.consumed + n)
      omega
    · show b.consumed + n ≤ b.filled.length
      omega
  · rw [if_neg hn, hexact]
    exact loop_spec _ n [] p b h (by omega)

theorem Device.seekOutcome_spec (d : Device) : ∃ used, d.script = used ++ d.seekOutcome.2.script ∧
    d.seekOutcome.2.bytes = d.bytes ∧ d.seekOutcome.2.pos = d.pos ∧
    match d.seekOutcome.1 with
    | none => NoFailure used
    | some kind => Failed used kind := by
  obtain ⟨f, p, script⟩ := d
  cases script with
  | nil => exact ⟨[], rfl, rfl, rfl, .nil⟩
  | cons o script =>
    refine ⟨[o], rfl, rfl, rfl, ?_⟩
    show match o.failure with
      | none => NoFailure [o]
      | some kind => Failed [o] kind
    cases ho : o.failure with
    | none => exact .single ho
    | some kind => exact .single ho

/-- the answer of a seek as a result -/
def seekResult : Option IoKind → R Unit
  | some kind => R.err (.ioError kind)
  | none => .ok ()

theorem Device.seekCurrent_spec (d : Device) (o : Int) : ∃ used, d.script = used ++ (d.seekCurrent o).2.script ∧
    (d.seekCurrent o).2.bytes = d.bytes ∧
    Tells used (seekResult (d.seekCurrent o).1) ((Rd.move o d.bytes d.pos).map Prod.fst) ∧
    ((d.seekCurrent o).1 = none → Rd.move o d.bytes d.pos = .ok ((), (d.seekCurrent o).2.pos)) := by
  obtain ⟨used, h1, h2, h3, h4⟩ := d.seekOutcome_spec
  refine ⟨used, ?_⟩
  unfold Device.seekCurrent
  cases ho : d.seekOutcome with
  | mk r d' =>
  rw [ho] at h1 h2 h3 h4
  cases r with
  | some kind =>
    exact ⟨h1, h2, Or.inr ⟨kind, h4, rfl⟩, nofun⟩
  | none =>
    dsimp only at h1 h2 h3 h4 ⊢
    unfold Rd.move
    rw [h3]
    dsimp only
    split
    · exact ⟨h1, h2, Or.inl ⟨h4, rfl⟩, nofun⟩
    · exact ⟨h1, h2, Or.inl ⟨h4, rfl⟩, fun _ => rfl⟩

/-- `seek_relative` of the buffered reader. -/
theorem BufReader.seekRelative_spec {f : Bytes} {p : Nat} {b : BufReader} (h : Stands f p b) (hp64 : p < 2 ^ 64)
    (hf64 : f.length < 2 ^ 64) (o : Int) :
    ∃ used, b.dev.script = used ++ (b.seekRelative o).2.dev.script ∧ (b.seekRelative o).2.dev.bytes = f ∧
      Tells used (seekResult (b.seekRelative o).1) ((Rd.move o f p).map Prod.fst) ∧
      ((b.seekRelative o).1 = none →
        ∃ q, Rd.move o f p = .ok ((), q) ∧ q < 2 ^ 64 ∧ Stands f q (b.seekRelative o).2) := by
  have hh := h
  obtain ⟨hb, ⟨s, hpos, hwin, hp⟩, hle⟩ := h
  unfold BufReader.seekRelative
  dsimp only
  by_cases hin : 0 ≤ (b.consumed : Int) + o ∧ (b.consumed : Int) + o ≤ b.filled.length
  · rw [if_pos hin]
    have hlt : (p : Int) + o < 2 ^ 64 := by
      by_cases he : b.filled = []
      · rw [he] at hin hle
        simp only [List.length_nil] at hin hle
        omega
      · have h1 := hwin.length_le
        have h2 := List.length_pos_iff.mpr he
        rw [List.length_drop] at h1
        omega
    have hmove : Rd.move o f p = .ok ((), ((p : Int) + o).toNat) := by
      unfold Rd.move
      dsimp only
      rw [if_neg (by omega)]
    refine ⟨[], rfl, hb, Or.inl ⟨.nil, by rw [hmove]; rfl⟩, fun _ => ⟨_, hmove, by omega, hb, ⟨s, hpos, hwin, ?_⟩, ?_⟩⟩
    · show ((p : Int) + o).toNat = s + ((b.consumed : Int) + o).toNat
      omega
    · show ((b.consumed : Int) + o).toNat ≤ b.filled.length
      omega
  · rw [if_neg hin]
    have hmv : ∀ (o : Int) (f g : Bytes) (p : Nat), Rd.move o f p = Rd.move o g p := fun _ _ _ _ => rfl
    have hlt : ∀ (o : Int) (p q : Nat), Rd.move o f p = .ok ((), q) → q < 2 ^ 64 := by
      intro o p q h
      unfold Rd.move at h
      dsimp only at h
      split at h
      · cases h
      · injection h with h
        injection h with _ h
        omega
    have hfresh : ∀ (d : Device), d.bytes = f → Stands f d.pos { b with filled := [], consumed := 0, dev := d } :=
      fun d hd => ⟨hd, ⟨d.pos, rfl, List.nil_prefix, rfl⟩, Nat.le_refl _⟩
    unfold BufReader.seekCurrent
    dsimp only
    by_cases hone : -(2 ^ 63) ≤ o - ((b.filled.length : Int) - b.consumed)
    · rw [if_pos hone]
      obtain ⟨used, h1, h2, h3, h4⟩ := b.dev.seekCurrent_spec (o - ((b.filled.length : Int) - b.consumed))
      have heq : Rd.move (o - ((b.filled.length : Int) - b.consumed)) b.dev.bytes b.dev.pos = Rd.move o f p := by
        unfold Rd.move
        rw [show (b.dev.pos : Int) + (o - ((b.filled.length : Int) - b.consumed)) = (p : Int) + o from by omega]
      rw [heq] at h3 h4
      refine ⟨used, ?_⟩
      cases hd : b.dev.seekCurrent (o - ((b.filled.length : Int) - b.consumed)) with
      | mk r d' =>
      rw [hd] at h1 h2 h3 h4
      cases r with
      | some kind => exact ⟨h1, h2.trans hb, h3, nofun⟩
      | none => exact ⟨h1, h2.trans hb, h3, fun _ => ⟨_, h4 rfl, hlt _ _ _ (h4 rfl), hfresh d' (h2.trans hb)⟩⟩
    · rw [if_neg hone]
      obtain ⟨used, h1, h2, h3, h4⟩ := b.dev.seekCurrent_spec (-((b.filled.length : Int) - b.consumed))
      have heq : Rd.move (-((b.filled.length : Int) - b.consumed)) b.dev.bytes b.dev.pos = .ok ((), p) := by
        unfold Rd.move
        rw [show (b.dev.pos : Int) + -((b.filled.length : Int) - b.consumed) = (p : Int) from by omega]
        dsimp only
        rw [if_neg (by omega)]
        rfl
      rw [heq] at h3 h4
      cases hd : b.dev.seekCurrent (-((b.filled.length : Int) - b.consumed)) with
      | mk r d' =>
      rw [hd] at h1 h2 h3 h4
      cases r with
      | some kind =>
        refine ⟨used, h1, h2.trans hb, ?_, nofun⟩
        rcases h3 with ⟨_, h3⟩ | h3
        · cases h3
        · exact Or.inr h3
      | none =>
        dsimp only at h1 h2 h4 ⊢
        have hnf : NoFailure used := (show Tells used (.ok ()) _ from h3).ok.1
        have hpd : d'.pos = p := by
          have := h4 rfl
          injection this with this
          injection this with _ this
          exact this.symm
        obtain ⟨used', i1, i2, i3, i4⟩ := d'.seekCurrent_spec o
        rw [h2.trans hb, hpd] at i3 i4
        refine ⟨used ++ used', ?_⟩
        cases hd' : d'.seekCurrent o with
        | mk r d'' =>
        rw [hd'] at i1 i2 i3 i4
        cases r with
        | some kind => exact ⟨by rw [List.append_assoc, ← i1]; exact h1, i2.trans (h2.trans hb), i3.after hnf, nofun⟩
        | none =>
          exact ⟨by rw [List.append_assoc, ← i1]; exact h1, i2.trans (h2.trans hb), i3.after hnf,
            fun _ => ⟨_, i4 rfl, hlt _ _ _ (i4 rfl), hfresh d'' (i2.trans (h2.trans hb))⟩⟩

/-- Running a program over the buffered reader gives what it gives on the file contents, or the error of an
    operation of the stream that failed. -/
theorem BufReader.run_spec {α : Type} {f : Bytes} (hf64 : f.length < 2 ^ 64) : ∀ (a : Act α) (p : Nat) (b : BufReader),
    Stands f p b → p < 2 ^ 64 →
    ∃ used, b.dev.script = used ++ (run a b).2.dev.script ∧ (run a b).2.dev.bytes = f ∧
      Tells used (run a b).1 ((a.denote f p).map Prod.fst) := by
  intro a
  induction a with
  | ret a => intro p b h _; exact ⟨[], rfl, h.bytes, .still _⟩
  | stop e => intro p b h _; exact ⟨[], rfl, h.bytes, .still _⟩
  | exact n next ih =>
    intro p b h hp
    obtain ⟨used, h1, h2, h3, h4⟩ := readExact_spec h n
    unfold run
    cases hr : b.readExact n with
    | mk r b' =>
    rw [hr] at h1 h2 h3 h4
    cases r with
    | error e =>
      refine ⟨used, h1, h2, ?_⟩
      rcases h3 with ⟨hnf, h3⟩ | ⟨c, hc, h3⟩
      · refine Or.inl ⟨hnf, ?_⟩
        show _ = (Rd.bind (Rd.exact n) _ f p).map _
        unfold Rd.bind
        cases hx : Rd.exact n f p with
        | error e' => rw [hx] at h3; cases h3; rfl
        | ok x => rw [hx] at h3; cases h3
      · exact Or.inr ⟨c, hc, by cases h3; rfl⟩
    | ok bs =>
      obtain ⟨hx, hat⟩ := h4 bs rfl
      have hp' : p + n < 2 ^ 64 := by
        unfold Rd.exact at hx
        split at hx
        · omega
        · cases hx
      obtain ⟨used', i1, i2, i3⟩ := ih bs (p + n) b' hat hp'
      refine ⟨used ++ used', by rw [List.append_assoc, ← i1]; exact h1, i2, ?_⟩
      have : (Act.exact n next).denote f p = (next bs).denote f (p + n) := by
        show Rd.bind (Rd.exact n) _ f p = _
        unfold Rd.bind
        rw [hx]
      rw [this]
      exact i3.after h3.ok.1
  | move o next ih =>
    intro p b h hp
    obtain ⟨used, h1, h2, h3, h4⟩ := seekRelative_spec h hp hf64 o
    unfold run
    cases hr : b.seekRelative o with
    | mk r b' =>
    rw [hr] at h1 h2 h3 h4
    cases r with
    | some kind =>
      refine ⟨used, h1, h2, ?_⟩
      rcases h3 with ⟨hnf, h3⟩ | ⟨c, hc, h3⟩
      · refine Or.inl ⟨hnf, ?_⟩
        show _ = (Rd.bind (Rd.move o) _ f p).map _
        unfold Rd.bind
        cases hx : Rd.move o f p with
        | error e' => rw [hx] at h3; cases h3; rfl
        | ok x => rw [hx] at h3; cases h3
      · exact Or.inr ⟨c, hc, by cases h3; rfl⟩
    | none =>
      obtain ⟨q, hx, hq, hat⟩ := h4 rfl
      obtain ⟨used', i1, i2, i3⟩ := ih q b' hat hq
      refine ⟨used ++ used', by rw [List.append_assoc, ← i1]; exact h1, i2, ?_⟩
      have : (Act.move o next).denote f p = next.denote f q := by
        show Rd.bind (Rd.move o) _ f p = _
        unfold Rd.bind
        rw [hx]
      rw [this]
      exact i3.after (show Tells used (.ok ()) _ from h3).ok.1

end Tedium
