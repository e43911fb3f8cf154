import Verif.Proofs.StoresRead
import Verif.Proofs.SingleFile

/-! # Reads of one channel, and the length of the slice -/

namespace Tedium
namespace Prog

section
variable {α β γ ω : Type}

/-- A program that does not assign, and whose results satisfy `Q`. -/
def Quiet {σ : Type} (Q : β → Prop) : Prog σ β → Prop
  | .ret a => Q a
  | .stop _ => True
  | .exact _ next => ∀ bs, Quiet Q (next bs)
  | .move _ next => Quiet Q next
  | .store _ _ => False

theorem Quiet.bind {σ : Type} {Q : β → Prop} {Q' : γ → Prop} {k : β → Prog σ γ} (hk : ∀ b, Q b → Quiet Q' (k b)) :
    ∀ {x : Prog σ β}, Quiet Q x → Quiet Q' (x >>= k) := by
  intro x
  show Quiet Q x → Quiet Q' (Prog.bind x k)
  induction x with
  | ret a => exact hk a
  | stop e => exact fun _ => trivial
  | exact n next ih => exact fun h bs => ih bs (h bs)
  | move o next ih => exact ih
  | store s next ih => exact nofun

theorem Quiet.stores {σ : Type} {Q : β → Prop} {x : Prog σ β} (f : Bytes) : ∀ p, Quiet Q x → (x.runOn f p).2 = [] ∧
    ∀ a, (x.runOn f p).1 = .ok a → Q a := by
  induction x with
  | ret a => intro p h; exact ⟨rfl, fun b hb => by cases hb; exact h⟩
  | stop e => intro p h; exact ⟨rfl, nofun⟩
  | exact n next ih =>
    intro p h
    unfold runOn
    cases Rd.exact n f p with
    | error e => exact ⟨rfl, nofun⟩
    | ok r => exact ih _ _ (h _)
  | move o next ih =>
    intro p h
    unfold runOn
    cases Rd.move o f p with
    | error e => exact ⟨rfl, nofun⟩
    | ok r => exact ih _ h
  | store s next ih => intro p h; exact h.elim

/-- The first program fills the cells of one slice from number `k` on, of which there are `c`; the second does the same
    until these are full. `R` tells what is true of the results, if both have done the same, and of the results of the
    first if it is full. -/
inductive Cut (slot : Nat) (R : Nat → Nat → β → β → Prop) : Nat → Nat → Prog (CellStore α) β → Prog (CellStore α) β → Prop
  | ret {k c : Nat} {a b : β} : R k c a b → Cut slot R k c (.ret a) (.ret b)
  | stop {k c : Nat} (e : Fail) : Cut slot R k c (.stop e) (.stop e)
  | exact {k c : Nat} (n : Nat) {x y : Bytes → Prog (CellStore α) β} : (∀ bs, Cut slot R k c (x bs) (y bs)) →
      Cut slot R k c (.exact n x) (.exact n y)
  | move {k c : Nat} (o : Int) {x y : Prog (CellStore α) β} : Cut slot R k c x y → Cut slot R k c (.move o x) (.move o y)
  | store {k c : Nat} (v : α) {x y : Prog (CellStore α) β} : Cut slot R (k + 1) c x y →
      Cut slot R k (c + 1) (.store ⟨slot, k, v⟩ x) (.store ⟨slot, k, v⟩ y)
  | full {k : Nat} {x y : Prog (CellStore α) β} : Quiet (fun a => R k 0 a a) x → Cut slot R k 0 x y

/-- What is asked of `R`. -/
def Tame (R : Nat → Nat → β → β → Prop) : Prop := ∀ k a b, R k 0 a b → R k 0 a a

theorem Cut.quiet {slot : Nat} {R : Nat → Nat → β → β → Prop} (hR : Tame R) {k c : Nat} {x y : Prog (CellStore α) β}
    (h : Cut slot R k c x y) : c = 0 → Quiet (fun a => R k 0 a a) x := by
  induction h with
  | ret h => intro hc; subst hc; exact hR _ _ _ h
  | stop e => intro _; trivial
  | exact n _ ih => intro hc bs; exact ih bs hc
  | move o _ ih => exact ih
  | store v _ _ => intro hc; omega
  | full h => intro _; exact h

theorem Cut.bind {slot : Nat} {R : Nat → Nat → β → β → Prop} {R' : Nat → Nat → γ → γ → Prop} (hR : Tame R')
    {x y : Prog (CellStore α) β} {g : β → Prog (CellStore α) γ} {k c : Nat} (h : Cut slot R k c x y)
    (hg : ∀ k c a b, R k c a b → Cut slot R' k c (g a) (g b)) : Cut slot R' k c (x >>= g) (y >>= g) := by
  show Cut slot R' k c (Prog.bind x g) (Prog.bind y g)
  induction h with
  | ret h => exact hg _ _ _ _ h
  | stop e => exact .stop e
  | exact n _ ih => exact .exact n ih
  | move o _ ih => exact .move o ih
  | store v _ ih => exact .store v ih
  | full h => exact .full (h.bind (fun a ha => (hg _ _ _ _ ha).quiet hR rfl))

theorem Cut.mono {slot : Nat} {R R' : Nat → Nat → β → β → Prop} {x y : Prog (CellStore α) β} {k c : Nat}
    (h : Cut slot R k c x y) (hg : ∀ k c a b, R k c a b → R' k c a b) : Cut slot R' k c x y := by
  induction h with
  | ret h => exact .ret (hg _ _ _ _ h)
  | stop e => exact .stop e
  | exact n _ ih => exact .exact n ih
  | move o _ ih => exact .move o ih
  | store v _ ih => exact .store v ih
  | full h =>
    refine .full ?_
    have := h.bind (k := Prog.ret) (Q' := fun a => R' _ 0 a a) (fun a ha => hg _ _ _ _ ha)
    have hid : ∀ z : Prog (CellStore α) β, (z >>= Prog.ret) = z := by
      intro z
      show Prog.bind z Prog.ret = z
      induction z with
      | ret a => rfl
      | stop e => rfl
      | exact n next ih => exact congrArg (Prog.exact n) (funext ih)
      | move o next ih => exact congrArg (Prog.move o) ih
      | store s next ih => exact congrArg (Prog.store s) ih
    rw [hid] at this
    exact this

/-- A program that does not assign, and then the programs. -/
theorem Cut.after {slot : Nat} {R' : Nat → Nat → γ → γ → Prop} {Q : ω → Prop} {x : Prog (CellStore α) ω}
    {g g' : ω → Prog (CellStore α) γ} {k c : Nat} (hx : Quiet Q x) (hg : ∀ a, Q a → Cut slot R' k c (g a) (g' a)) :
    Cut slot R' k c (x >>= g) (x >>= g') := by
  show Cut slot R' k c (Prog.bind x g) (Prog.bind x g')
  induction x with
  | ret a => exact hg a hx
  | stop e => exact .stop e
  | exact n next ih => exact .exact n (fun bs => ih bs (hx bs))
  | move o next ih => exact .move o (ih hx)
  | store s next ih => exact hx.elim

theorem Cut.before {slot : Nat} {R' : Nat → Nat → γ → γ → Prop} {x : Prog (CellStore α) ω}
    {g g' : ω → Prog (CellStore α) γ} {k c : Nat} (hx : Quiet (fun _ => True) x) (hg : ∀ a, Cut slot R' k c (g a) (g' a)) :
    Cut slot R' k c (x >>= g) (x >>= g') := Cut.after hx (fun a _ => hg a)

theorem Quiet.ofAct {σ : Type} (a : Act β) : Quiet (fun _ => True) (ofAct a : Prog σ β) := by
  induction a with
  | ret a => trivial
  | stop e => trivial
  | exact n next ih => exact fun bs => ih bs
  | move o next ih => exact ih

theorem Quiet.lift {σ : Type} (x : R β) : Quiet (fun _ => True) (lift x : Prog σ β) := by
  cases x <;> trivial

theorem Quiet.skip {σ : Type} (o : Int) : Quiet (fun _ => True) (skip o : Prog σ Unit) := trivial

/-- The assignments to the cells from number `k` on. -/
def run (slot k : Nat) : List α → List (CellStore α)
  | [] => []
  | v :: vs => ⟨slot, k, v⟩ :: run slot (k + 1) vs

theorem run_length (slot : Nat) (vs : List α) : ∀ k, (run slot k vs).length = vs.length := by
  induction vs with
  | nil => intro k; rfl
  | cons v vs ih => intro k; exact congrArg (· + 1) (ih (k + 1))

theorem run_append (slot : Nat) (vs ws : List α) : ∀ k, run slot k (vs ++ ws) = run slot k vs ++ run slot (k + vs.length) ws := by
  induction vs with
  | nil => intro k; rfl
  | cons v vs ih =>
    intro k
    show _ :: run slot (k + 1) (vs ++ ws) = _
    rw [ih]
    show _ = _ :: (run slot (k + 1) vs ++ run slot (k + (vs.length + 1)) ws)
    rw [show k + 1 + vs.length = k + (vs.length + 1) by omega]

theorem run_take (slot : Nat) (vs : List α) : ∀ k n, (run slot k vs).take n = run slot k (vs.take n) := by
  induction vs with
  | nil => intro k n; cases n <;> rfl
  | cons v vs ih =>
    intro k n
    cases n with
    | zero => rfl
    | succ n => exact congrArg (_ :: ·) (ih (k + 1) n)

/-- What the runs of two such programs have in common: results, assignments and files `X` and `Y`. -/
def Alike {δ : Type} (slot : Nat) (Q : Nat → Nat → β → β → Prop) (k c : Nat) (X Y : (R β × List (CellStore α)) × δ) : Prop :=
  ∃ vs : List α, vs.length ≤ c ∧ X.1.2 = run slot k vs ∧ X.1.2 = Y.1.2.take c ∧
    (vs.length < c → X.2 = Y.2 ∧ ((∃ e, X.1.1 = .error e ∧ Y.1.1 = .error e) ∨
      ∃ a b, X.1.1 = .ok a ∧ Y.1.1 = .ok b ∧ Q (k + vs.length) (c - vs.length) a b)) ∧
    (vs.length = c → ∀ a, X.1.1 = .ok a → Q (k + c) 0 a a)

theorem Alike.error {δ : Type} {slot : Nat} {Q : Nat → Nat → β → β → Prop} {k c : Nat} (e : Fail) (d : δ) :
    Alike (α := α) slot Q k c ((.error e, []), d) ((.error e, []), d) :=
  ⟨[], Nat.zero_le _, rfl, List.take_nil.symm, fun _ => ⟨rfl, Or.inl ⟨_, rfl, rfl⟩⟩, fun _ => nofun⟩

theorem Alike.ret {δ : Type} {slot : Nat} {Q : Nat → Nat → β → β → Prop} (hQ : Tame Q) {k c : Nat} {a b : β} (h : Q k c a b) (d : δ) :
    Alike (α := α) slot Q k c ((.ok a, []), d) ((.ok b, []), d) := by
  refine ⟨[], Nat.zero_le _, rfl, List.take_nil.symm, fun _ => ⟨rfl, Or.inr ⟨_, _, rfl, rfl, h⟩⟩, fun hc a' ha => ?_⟩
  cases hc
  cases ha
  exact hQ _ _ _ h

theorem Alike.store {δ : Type} {slot : Nat} {Q : Nat → Nat → β → β → Prop} {k c : Nat} (v : α)
    {X Y : (R β × List (CellStore α)) × δ} (h : Alike slot Q (k + 1) c X Y) :
    Alike slot Q k (c + 1) ((X.1.1, ⟨slot, k, v⟩ :: X.1.2), X.2) ((Y.1.1, ⟨slot, k, v⟩ :: Y.1.2), Y.2) := by
  obtain ⟨vs, h1, h2, h3, h4, h5⟩ := h
  refine ⟨v :: vs, Nat.succ_le_succ h1, congrArg (_ :: ·) h2, congrArg (_ :: ·) h3, fun hlt => ?_, fun he => ?_⟩
  · rw [List.length_cons] at hlt ⊢
    have := h4 (by omega)
    rw [show k + 1 + vs.length = k + (vs.length + 1) by omega, show c - vs.length = c + 1 - (vs.length + 1) by omega] at this
    exact this
  · rw [List.length_cons] at he
    have := h5 (by omega)
    rw [show k + 1 + c = k + (c + 1) by omega] at this
    exact this

/-- The programs on the file contents. -/
theorem Cut.runs {slot : Nat} {Q : Nat → Nat → β → β → Prop} (hQ : Tame Q) {k c : Nat} {x y : Prog (CellStore α) β}
    (h : Cut slot Q k c x y) (f : Bytes) : ∀ p, Alike slot Q k c (x.runOn f p, f) (y.runOn f p, f) := by
  induction h with
  | ret h => intro p; exact .ret hQ h f
  | stop e => intro p; exact .error e f
  | exact n _ ih =>
    intro p
    unfold runOn
    cases Rd.exact n f p with
    | error e => exact .error e f
    | ok r => exact ih _ _
  | move o _ ih =>
    intro p
    unfold runOn
    cases Rd.move o f p with
    | error e => exact .error e f
    | ok r => exact ih _
  | store v _ ih => intro p; exact (ih p).store v
  | full h =>
    intro p
    obtain ⟨h1, h2⟩ := h.stores f p
    exact ⟨[], Nat.zero_le _, h1, h1, fun hlt => absurd hlt (Nat.lt_irrefl _), fun _ => h2⟩

theorem Quiet.storesBuf {σ : Type} {Q : β → Prop} {x : Prog σ β} : ∀ b, Quiet Q x → (x.runBuf b).1.2 = [] ∧
    ∀ a, (x.runBuf b).1.1 = .ok a → Q a := by
  induction x with
  | ret a => intro p h; exact ⟨rfl, fun b hb => by cases hb; exact h⟩
  | stop e => intro p h; exact ⟨rfl, nofun⟩
  | exact n next ih =>
    intro b h
    unfold runBuf
    cases b.readExact n with
    | mk r b' =>
    cases r with
    | error e => exact ⟨rfl, nofun⟩
    | ok r => exact ih _ _ (h _)
  | move o next ih =>
    intro b h
    unfold runBuf
    cases b.seekRelative o with
    | mk r b' =>
    cases r with
    | some e => exact ⟨rfl, nofun⟩
    | none => exact ih _ h
  | store s next ih => intro p h; exact h.elim

/-- The programs on a `BufReader`. -/
theorem Cut.runsBuf {slot : Nat} {Q : Nat → Nat → β → β → Prop} (hQ : Tame Q) {k c : Nat} {x y : Prog (CellStore α) β}
    (h : Cut slot Q k c x y) : ∀ b, Alike slot Q k c (x.runBuf b) (y.runBuf b) := by
  induction h with
  | ret h => intro b; exact .ret hQ h b
  | stop e => intro b; exact .error e b
  | exact n _ ih =>
    intro b
    unfold runBuf
    cases b.readExact n with
    | mk r b' =>
    cases r with
    | error e => exact .error e b'
    | ok r => exact ih _ _
  | move o _ ih =>
    intro b
    unfold runBuf
    cases b.seekRelative o with
    | mk r b' =>
    cases r with
    | some e => exact .error _ b'
    | none => exact ih _
  | store v _ ih => intro b; exact (ih b).store v
  | full h =>
    intro b
    obtain ⟨h1, h2⟩ := h.storesBuf b
    exact ⟨[], Nat.zero_le _, h1, h1, fun hlt => absurd hlt (Nat.lt_irrefl _), fun _ => h2⟩

end

/-! ## Data blocks -/

section
variable {α : Type} {S : Storage α} {rd : Act α} {slot : Nat}

/-- Two slices of which `k` cells are filled; the first has `c` more, and the second at least as many. -/
def Pair (k c : Nat) (it jt : OutIter α) : Prop :=
  it.done.length = k ∧ jt.done.length = k ∧ it.rest.length = c ∧ c ≤ jt.rest.length

theorem Pair.self {k : Nat} {it jt : OutIter α} (h : Pair k 0 it jt) : Pair k 0 it it :=
  ⟨h.1, h.1, h.2.2.1, Nat.zero_le _⟩

/-- The results after filling from `k` on: the number of values, and the slices. -/
abbrev Counted (k n : Nat) (k' c' : Nat) (a b : Nat × OutIter α) : Prop := a.1 = b.1 ∧ a.1 + k = n + k' ∧ Pair k' c' a.2 b.2

theorem Counted.tame (k n : Nat) : Tame (Counted (α := α) k n) := fun _ _ _ h => ⟨rfl, h.2.1, h.2.2.self⟩

theorem values_cut (n : Nat) : ∀ (k c : Nat) (it jt : OutIter α), Pair k c it jt →
    Cut slot (Counted k 0) k c (values rd slot n it) (values rd slot n jt) := by
  induction n with
  | zero => intro k c it jt h; exact .ret ⟨rfl, rfl, h⟩
  | succ n ih =>
    intro k c it jt h
    obtain ⟨done, rest⟩ := it
    obtain ⟨done', rest'⟩ := jt
    obtain ⟨h1, h2, h3, h4⟩ := h
    dsimp only at h1 h2 h3 h4
    cases rest with
    | nil =>
      cases h3
      exact .full ⟨rfl, rfl, h1, h1, rfl, Nat.zero_le _⟩
    | cons v rest =>
      cases h3
      cases rest' with
      | nil => cases h4
      | cons v' rest' =>
        unfold values
        dsimp only
        refine Cut.before (Quiet.ofAct rd) (fun w => ?_)
        rw [h1, h2]
        refine .store w ?_
        refine Cut.bind (Counted.tame _ _) (ih (k + 1) rest.length ⟨done ++ [w], rest⟩ ⟨done' ++ [w], rest'⟩
          ⟨by simp [h1], by simp [h2], rfl, Nat.le_of_succ_le_succ h4⟩) ?_
        intro k' c' a b hab
        refine .ret ⟨by dsimp only; rw [hab.1], ?_, hab.2.2⟩
        have := hab.2.1
        dsimp only
        omega

theorem sequential_cut (n k c : Nat) (it jt : OutIter α) (h : Pair k c it jt) :
    Cut slot (Counted k 0) k c (sequential S rd slot it n) (sequential S rd slot jt n) := by
  unfold sequential
  refine Cut.bind (Counted.tame _ _) (values_cut n k c it jt h) ?_
  intro k' c' a b hab
  dsimp only
  rw [← hab.1]
  split
  · refine Cut.before (Quiet.lift _) (fun off => ?_)
    exact Cut.before (Quiet.skip _) (fun _ => .ret ⟨rfl, hab.2⟩)
  · exact .ret ⟨rfl, hab.2⟩

/-- The results for plans. -/
def PlanPair (pre post : List (RecordEntry α)) (len slot : Nat) (k c : Nat) (p q : List (RecordEntry α)) : Prop :=
  ∃ skip it jt, p = onePlan pre post len slot skip it ∧ q = onePlan pre post len slot skip jt ∧ Pair k c it jt

theorem PlanPair.self {pre post : List (RecordEntry α)} {len slot k : Nat} {p q : List (RecordEntry α)}
    (h : PlanPair pre post len slot k 0 p q) : PlanPair pre post len slot k 0 p p := by
  obtain ⟨skip, it, jt, h1, _, h⟩ := h
  exact ⟨skip, it, it, h1, h1, h.self⟩

/-- The results for plans, with the number of values. -/
def PlanCounted (pre post : List (RecordEntry α)) (len slot k n : Nat) (k' c' : Nat) (a b : Nat × List (RecordEntry α)) : Prop :=
  a.1 = b.1 ∧ a.1 + k = n + k' ∧ PlanPair pre post len slot k' c' a.2 b.2

theorem PlanCounted.tame (pre post : List (RecordEntry α)) (len slot k n : Nat) : Tame (PlanCounted pre post len slot k n) :=
  fun _ _ _ h => ⟨rfl, h.2.1, h.2.2.self⟩

theorem Quiet.before {σ β γ : Type} {Q' : γ → Prop} {k : β → Prog σ γ} {x : Prog σ β} (hx : Quiet (fun _ => True) x)
    (hk : ∀ b, Quiet Q' (k b)) : Quiet Q' (x >>= k) := hx.bind (fun b _ => hk b)

theorem subBlock_skips {plan : List (RecordEntry α)} (h : AllSkip plan) (l : Nat) :
    Quiet (fun r => r = (l, plan)) (subBlock S rd l plan) := by
  induction plan with
  | nil => exact rfl
  | cons en rest ih =>
    obtain ⟨b, hb⟩ := h en List.mem_cons_self
    obtain ⟨len, pl⟩ := en
    dsimp only at hb
    subst hb
    unfold subBlock
    dsimp only
    refine Quiet.before (Quiet.lift _) (fun off => ?_)
    refine Quiet.before (Quiet.skip _) (fun _ => ?_)
    refine Quiet.bind ?_ (ih (fun x hx => h x (List.mem_cons_of_mem _ hx)))
    intro a ha
    subst ha
    exact rfl

theorem subBlock_cut {pre post : List (RecordEntry α)} (hpre : AllSkip pre) (hpost : AllSkip post) (len skip : Nat)
    (k c : Nat) (it jt : OutIter α) (h : Pair k c it jt) : ∀ l,
    Cut slot (PlanCounted pre post len slot k 0) k c (subBlock S rd l (onePlan pre post len slot skip it))
      (subBlock S rd l (onePlan pre post len slot skip jt)) := by
  induction pre with
  | nil =>
    intro l
    show Cut slot _ k c (subBlock S rd l (⟨len, .read slot it skip⟩ :: post)) (subBlock S rd l (⟨len, .read slot jt skip⟩ :: post))
    have main : Cut slot (PlanCounted [] post len slot k 0) k c (do
          let x ← sequential S rd slot it (len - min skip len)
          let y ← subBlock S rd x.1 post
          Pure.pure (y.1, (⟨len, .read slot x.2 skip⟩ : RecordEntry α) :: y.2)) (do
          let x ← sequential S rd slot jt (len - min skip len)
          let y ← subBlock S rd x.1 post
          Pure.pure (y.1, (⟨len, .read slot x.2 skip⟩ : RecordEntry α) :: y.2)) := by
      refine Cut.bind (PlanCounted.tame _ _ _ _ _ _) (sequential_cut _ k c it jt h) ?_
      intro k' c' a b hab
      have hb := hab.1
      rw [← hb]
      refine Cut.after (subBlock_skips hpost a.1) ?_
      intro z hz
      subst hz
      exact .ret ⟨rfl, hab.2.1, skip, a.2, b.2, rfl, rfl, hab.2.2⟩
    unfold subBlock
    dsimp only
    split
    · refine Cut.before (Quiet.lift _) (fun off => ?_)
      exact Cut.before (Quiet.skip _) (fun _ => main)
    · exact main
  | cons en rest ih =>
    intro l
    obtain ⟨b, hb⟩ := hpre en List.mem_cons_self
    obtain ⟨len', pl⟩ := en
    dsimp only at hb
    subst hb
    show Cut slot _ k c (subBlock S rd l (⟨len', .skip b⟩ :: onePlan rest post len slot skip it))
      (subBlock S rd l (⟨len', .skip b⟩ :: onePlan rest post len slot skip jt))
    unfold subBlock
    dsimp only
    refine Cut.before (Quiet.lift _) (fun off => ?_)
    refine Cut.before (Quiet.skip _) (fun _ => ?_)
    refine Cut.bind (PlanCounted.tame _ _ _ _ _ _) (ih (fun x hx => hpre x (List.mem_cons_of_mem _ hx)) l) ?_
    intro k' c' x y hxy
    obtain ⟨h1, h2, sk, it', jt', h3, h4, h5⟩ := hxy
    refine .ret ⟨h1, h2, sk, it', jt', ?_, ?_, h5⟩
    · dsimp only; rw [h3]; rfl
    · dsimp only; rw [h4]; rfl

theorem contigLoop_cut {pre post : List (RecordEntry α)} (hpre : AllSkip pre) (hpost : AllSkip post) (len bs toSkip remainder : Nat) :
    ∀ (remaining idx k c : Nat) (p q : List (RecordEntry α)) (length : Nat), PlanPair pre post len slot k c p q →
    Cut slot (PlanCounted pre post len slot k length) k c (contigLoop S rd bs toSkip remainder remaining idx p length)
      (contigLoop S rd bs toSkip remainder remaining idx q length) := by
  intro remaining
  induction remaining with
  | zero => intro idx k c p q length h; exact .ret ⟨rfl, rfl, h⟩
  | succ remaining ih =>
    intro idx k c p q length h
    have step : ∀ g : Nat → Nat, Cut slot (PlanCounted pre post len slot k length) k c (do
        let x ← subBlock S rd 0 (mapSkips g p)
        contigLoop S rd bs toSkip remainder remaining (idx + 1) x.2 (length + x.1)) (do
        let x ← subBlock S rd 0 (mapSkips g q)
        contigLoop S rd bs toSkip remainder remaining (idx + 1) x.2 (length + x.1)) := by
      intro g
      obtain ⟨skip, it, jt, rfl, rfl, hp⟩ := h
      rw [mapSkips_one g hpre hpost, mapSkips_one g hpre hpost]
      refine Cut.bind (PlanCounted.tame _ _ _ _ _ _) (subBlock_cut hpre hpost len (g skip) k c it jt hp 0) ?_
      intro k' c' a b hab
      rw [← hab.1]
      refine (ih (idx + 1) k' c' a.2 b.2 (length + a.1) hab.2.2).mono ?_
      intro k₂ c₂ a₂ b₂ h2
      refine ⟨h2.1, ?_, h2.2.2⟩
      have h3 := h2.2.1
      have h4 := hab.2.1
      omega
    unfold contigLoop
    split
    · exact Cut.before (Quiet.skip _) (fun _ => ih _ _ _ _ _ _ h)
    · split
      · exact step _
      · exact step _

theorem setSkips_any {pre post : List (RecordEntry α)} (hpre : AllSkip pre) (hpost : AllSkip post) (ss : List Nat)
    (len slot skip : Nat) : ∃ s, ∀ it : OutIter α, setSkips ss (onePlan pre post len slot skip it) = onePlan pre post len slot s it := by
  cases ss with
  | nil => exact ⟨skip, fun it => setSkips_nil _⟩
  | cons s ss =>
    refine ⟨s, fun it => ?_⟩
    induction pre with
    | nil =>
      show setSkips (s :: ss) (⟨len, .read slot it skip⟩ :: post) = ⟨len, .read slot it s⟩ :: post
      unfold setSkips
      dsimp only
      rw [setSkips_skips _ hpost]
    | cons en rest ih =>
      obtain ⟨b, hb⟩ := hpre en List.mem_cons_self
      obtain ⟨len', pl⟩ := en
      dsimp only at hb
      subst hb
      show setSkips (s :: ss) (⟨len', .skip b⟩ :: onePlan rest post len slot skip it)
        = ⟨len', .skip b⟩ :: onePlan rest post len slot s it
      unfold setSkips
      dsimp only
      rw [ih (fun x hx => hpre x (List.mem_cons_of_mem _ hx))]

theorem contigSkipLoop_cut {pre post : List (RecordEntry α)} (hpre : AllSkip pre) (hpost : AllSkip post) (len bs : Nat)
    (toSkip remainders : List Nat) :
    ∀ (remaining idx k c : Nat) (p q : List (RecordEntry α)) (length : Nat), PlanPair pre post len slot k c p q →
    Cut slot (PlanCounted pre post len slot k length) k c (contigSkipLoop S rd bs toSkip remainders remaining idx p length)
      (contigSkipLoop S rd bs toSkip remainders remaining idx q length) := by
  intro remaining
  induction remaining with
  | zero => intro idx k c p q length h; exact .ret ⟨rfl, rfl, h⟩
  | succ remaining ih =>
    intro idx k c p q length h
    unfold contigSkipLoop
    split
    · dsimp only
      generalize hss : List.map _ (List.zip toSkip remainders) = ss
      obtain ⟨skip, it, jt, rfl, rfl, hp⟩ := h
      obtain ⟨s, hs⟩ := setSkips_any hpre hpost ss len slot skip
      rw [hs, hs]
      refine Cut.bind (PlanCounted.tame _ _ _ _ _ _) (subBlock_cut hpre hpost len s k c it jt hp 0) ?_
      intro k' c' a b hab
      rw [← hab.1]
      refine (ih (idx + 1) k' c' a.2 b.2 (length + a.1) hab.2.2).mono ?_
      intro k₂ c₂ a₂ b₂ h2
      refine ⟨h2.1, ?_, h2.2.2⟩
      have h3 := h2.2.1
      have h4 := hab.2.1
      omega
    · exact Cut.before (Quiet.skip _) (fun _ => ih _ _ _ _ _ _ h)

theorem contigReadFrom_cut {pre post : List (RecordEntry α)} (hpre : AllSkip pre) (hpost : AllSkip post) (size len skip : Nat)
    (it jt : OutIter α) (k c : Nat) (h : Pair k c it jt) (startSample : Nat) :
    Cut slot (PlanCounted pre post len slot k 0) k c (contigReadFrom S rd size (onePlan pre post len slot skip it) startSample)
      (contigReadFrom S rd size (onePlan pre post len slot skip jt) startSample) := by
  unfold contigReadFrom
  have hb : ∀ it, blockSize S (onePlan pre post len slot skip it) = blockSize S (onePlan pre post len 0 0 ⟨[], []⟩) := by
    intro it; unfold blockSize; rw [(sizes_one S pre post len slot skip it).1]
  rw [hb it, hb jt, firstLength_one, firstLength_one pre post len slot skip jt]
  refine Cut.before (Quiet.lift _) (fun bs => ?_)
  refine Cut.before (Quiet.lift _) (fun total => ?_)
  refine Cut.before (Quiet.lift _) (fun sub => ?_)
  refine Cut.before (Quiet.lift _) (fun toSkip => ?_)
  exact contigLoop_cut hpre hpost _ _ _ _ _ _ _ _ _ _ _ ⟨skip, it, jt, rfl, rfl, h⟩

theorem contigReadSkip_cut {pre post : List (RecordEntry α)} (hpre : AllSkip pre) (hpost : AllSkip post) (size len skip : Nat)
    (it jt : OutIter α) (k c : Nat) (h : Pair k c it jt) (skips : List Nat) :
    Cut slot (PlanCounted pre post len slot k 0) k c (contigReadSkip S rd size (onePlan pre post len slot skip it) skips)
      (contigReadSkip S rd size (onePlan pre post len slot skip jt) skips) := by
  unfold contigReadSkip
  have hb : ∀ it, blockSize S (onePlan pre post len slot skip it) = blockSize S (onePlan pre post len 0 0 ⟨[], []⟩) := by
    intro it; unfold blockSize; rw [(sizes_one S pre post len slot skip it).1]
  rw [hb it, hb jt, firstLength_one, firstLength_one pre post len slot skip jt]
  refine Cut.before (Quiet.lift _) (fun bs => ?_)
  refine Cut.before (Quiet.lift _) (fun total => ?_)
  refine Cut.before (Quiet.lift _) (fun sub => ?_)
  refine Cut.before (Quiet.lift _) (fun toSkip => ?_)
  exact contigSkipLoop_cut hpre hpost _ _ _ _ _ _ _ _ _ _ _ ⟨skip, it, jt, rfl, rfl, h⟩

theorem row_skips {plan : List (RecordEntry α)} (h : AllSkip plan) (r : Nat) (any' : Bool) :
    Quiet (fun x => x = (any', plan)) (row rd r any' plan) := by
  induction plan with
  | nil => exact rfl
  | cons en rest ih =>
    obtain ⟨b, hb⟩ := h en List.mem_cons_self
    obtain ⟨len, pl⟩ := en
    dsimp only at hb
    subst hb
    unfold row
    dsimp only
    refine Quiet.before (Quiet.skip _) (fun _ => ?_)
    refine Quiet.bind ?_ (ih (fun x hx => h x (List.mem_cons_of_mem _ hx)))
    intro a ha
    subst ha
    exact rfl

/-- The results of a row: whether a value was assigned. -/
def PlanRow (pre post : List (RecordEntry α)) (len slot k : Nat) (k' c' : Nat) (a b : Bool × List (RecordEntry α)) : Prop :=
  a.1 = b.1 ∧ k' = k + a.1.toNat ∧ PlanPair pre post len slot k' c' a.2 b.2

theorem PlanRow.tame (pre post : List (RecordEntry α)) (len slot k : Nat) : Tame (PlanRow pre post len slot k) :=
  fun _ _ _ h => ⟨rfl, h.2.1, h.2.2.self⟩

theorem row_cut {pre post : List (RecordEntry α)} (hpre : AllSkip pre) (hpost : AllSkip post) (r len skip : Nat)
    (k c : Nat) (it jt : OutIter α) (h : Pair k c it jt) :
    Cut slot (PlanRow pre post len slot k) k c (row rd r false (onePlan pre post len slot skip it))
      (row rd r false (onePlan pre post len slot skip jt)) := by
  induction pre with
  | nil =>
    show Cut slot _ k c (row rd r false (⟨len, .read slot it skip⟩ :: post)) (row rd r false (⟨len, .read slot jt skip⟩ :: post))
    unfold row
    dsimp only
    refine Cut.before (Quiet.ofAct rd) (fun v => ?_)
    refine Cut.bind (R := fun k' c' (a b : OutIter α × Bool) => a.2 = b.2 ∧ k' = k + a.2.toNat ∧ Pair k' c' a.1 b.1)
      (PlanRow.tame _ _ _ _ _) ?_ ?_
    · split
      · obtain ⟨done, rest⟩ := it
        obtain ⟨done', rest'⟩ := jt
        obtain ⟨h1, h2, h3, h4⟩ := h
        dsimp only at h1 h2 h3 h4
        cases rest with
        | nil =>
          cases h3
          exact .full ⟨rfl, rfl, h1, h1, rfl, Nat.zero_le _⟩
        | cons w rest =>
          cases h3
          cases rest' with
          | nil => cases h4
          | cons w' rest' =>
            dsimp only
            rw [h1, h2]
            refine .store v ?_
            exact .ret ⟨rfl, rfl, by simp [h1], by simp [h2], rfl, Nat.le_of_succ_le_succ h4⟩
      · exact .ret ⟨rfl, rfl, h⟩
    · intro k' c' a b hab
      rw [← hab.1]
      refine Cut.after (row_skips hpost r a.2) ?_
      intro z hz
      subst hz
      exact .ret ⟨rfl, hab.2.1, skip, a.1, b.1, rfl, rfl, hab.2.2⟩
  | cons en rest ih =>
    obtain ⟨b, hb⟩ := hpre en List.mem_cons_self
    obtain ⟨len', pl⟩ := en
    dsimp only at hb
    subst hb
    show Cut slot _ k c (row rd r false (⟨len', .skip b⟩ :: onePlan rest post len slot skip it))
      (row rd r false (⟨len', .skip b⟩ :: onePlan rest post len slot skip jt))
    unfold row
    dsimp only
    refine Cut.before (Quiet.skip _) (fun _ => ?_)
    refine Cut.bind (PlanRow.tame _ _ _ _ _) (ih (fun x hx => hpre x (List.mem_cons_of_mem _ hx))) ?_
    intro k' c' x y hxy
    obtain ⟨h1, h2, sk, it', jt', h3, h4, h5⟩ := hxy
    refine .ret ⟨h1, h2, sk, it', jt', ?_, ?_, h5⟩
    · dsimp only; rw [h3]; rfl
    · dsimp only; rw [h4]; rfl

theorem interLoop_cut {pre post : List (RecordEntry α)} (hpre : AllSkip pre) (hpost : AllSkip post) (len : Nat) :
    ∀ (remaining r k c : Nat) (p q : List (RecordEntry α)) (samples : Nat), PlanPair pre post len slot k c p q →
    Cut slot (PlanCounted pre post len slot k samples) k c (interLoop rd remaining r p samples)
      (interLoop rd remaining r q samples) := by
  intro remaining
  induction remaining with
  | zero => intro r k c p q samples h; exact .ret ⟨rfl, rfl, h⟩
  | succ remaining ih =>
    intro r k c p q samples h
    unfold interLoop
    obtain ⟨skip, it, jt, rfl, rfl, hp⟩ := h
    refine Cut.bind (PlanCounted.tame _ _ _ _ _ _) (row_cut hpre hpost r len skip k c it jt hp) ?_
    intro k' c' a b hab
    obtain ⟨any', p'⟩ := a
    obtain ⟨any'', q'⟩ := b
    obtain ⟨h1, h2, h3⟩ := hab
    dsimp only at h1 h2 h3
    subst h1
    cases any' with
    | true =>
      dsimp only
      rw [if_pos rfl, if_pos rfl]
      refine (ih (r + 1) k' c' p' q' (samples + 1) h3).mono ?_
      intro k₂ c₂ a₂ b₂ h4
      refine ⟨h4.1, ?_, h4.2.2⟩
      have h5 := h4.2.1
      simp only [Bool.toNat_true] at h2
      omega
    | false =>
      dsimp only
      rw [if_neg (by simp), if_neg (by simp)]
      refine .ret ⟨rfl, ?_, h3⟩
      simp only [Bool.toNat_false] at h2
      dsimp only
      omega

theorem interRead_cut {pre post : List (RecordEntry α)} (hpre : AllSkip pre) (hpost : AllSkip post) (size len skip : Nat)
    (it jt : OutIter α) (k c : Nat) (h : Pair k c it jt) :
    Cut slot (PlanCounted pre post len slot k 0) k c (interRead S rd size (onePlan pre post len slot skip it))
      (interRead S rd size (onePlan pre post len slot skip jt)) := by
  unfold interRead
  have hb : ∀ it, rowSize S (onePlan pre post len slot skip it) = rowSize S (onePlan pre post len 0 0 ⟨[], []⟩) := by
    intro it; unfold rowSize; rw [(sizes_one S pre post len slot skip it).2]
  rw [hb it, hb jt, blockSkips_one hpre hpost, blockSkips_one hpre hpost]
  refine Cut.before (Quiet.lift _) (fun total => ?_)
  have main := fun n s => interLoop_cut (rd := rd) (slot := slot) hpre hpost len n 0 k c _ _ 0 ⟨s, it, jt, rfl, rfl, h⟩
  dsimp only
  rw [mapSkips_one _ hpre hpost, mapSkips_one _ hpre hpost]
  split
  · refine Cut.before (Quiet.lift _) (fun off => ?_)
    exact Cut.before (Quiet.skip _) (fun _ => main _ _)
  · exact main _ _

end
end Prog

section
variable {α : Type} {S : Storage α} {rd : Endian → Act α}
open Prog

/-- A block read into two slices, one of them shorter: no program for either, or programs that do the same until the
    shorter slice is full. -/
theorem program_cut (b : DataBlock) (anySkip : Bool) (idx slot skip : Nat) (out out' : List α) (h : out.length ≤ out'.length) :
    (∃ e, b.program S rd anySkip [⟨idx, slot, out, skip⟩] = .error e ∧
      b.program S rd anySkip [⟨idx, slot, out', skip⟩] = .error e) ∨
    ∃ x y Q, b.program S rd anySkip [⟨idx, slot, out, skip⟩] = .ok x ∧ b.program S rd anySkip [⟨idx, slot, out', skip⟩] = .ok y ∧
      Tame Q ∧ (∀ k c a b, Q k c a b → a.1 = b.1 ∧ a.1 = k) ∧ Cut slot Q 0 out.length x y := by
  unfold DataBlock.program
  rw [buildRecordPlan_one, buildRecordPlan_one]
  dsimp only
  cases b.channels[idx]? with
  | none => exact Or.inl ⟨_, rfl, rfl⟩
  | some c =>
    dsimp only
    by_cases hs : S.supported.contains c.dataType = true
    · rw [if_pos hs, if_pos hs]
      right
      have hpre : AllSkip (baseRecord (b.channels.take idx) : List (RecordEntry α)) := baseRecord_skips _
      have hpost : AllSkip (baseRecord (b.channels.drop (idx + 1)) : List (RecordEntry α)) := baseRecord_skips _
      have hp : Pair 0 out.length (⟨[], out⟩ : OutIter α) ⟨[], out'⟩ := ⟨rfl, rfl, rfl, h⟩
      dsimp only
      split
      · exact ⟨_, _, _, rfl, rfl, PlanCounted.tame _ _ _ _ _ _, (fun k c a b' hab => ⟨hab.1, by have := hab.2.1; omega⟩),
          contigReadFrom_cut hpre hpost _ _ _ _ _ _ _ hp _⟩
      · exact ⟨_, _, _, rfl, rfl, PlanCounted.tame _ _ _ _ _ _, (fun k c a b' hab => ⟨hab.1, by have := hab.2.1; omega⟩),
          contigReadSkip_cut hpre hpost _ _ _ _ _ _ _ hp _⟩
      · exact ⟨_, _, _, rfl, rfl, PlanCounted.tame _ _ _ _ _ _, (fun k c a b' hab => ⟨hab.1, by have := hab.2.1; omega⟩),
          interRead_cut hpre hpost _ _ _ _ _ _ _ hp⟩
      · show ∃ x y R, Except.ok (Prog.interRead S (rd b.byteOrder) b.length (setSkips [skip] _)) = Except.ok x ∧
          Except.ok (Prog.interRead S (rd b.byteOrder) b.length (setSkips [skip] _)) = Except.ok y ∧ _
        rw [setSkips_one hpre, setSkips_one hpre]
        exact ⟨_, _, _, rfl, rfl, PlanCounted.tame _ _ _ _ _ _, (fun k c a b' hab => ⟨hab.1, by have := hab.2.1; omega⟩),
          interRead_cut hpre hpost _ _ _ _ _ _ _ hp⟩
    · rw [if_neg hs, if_neg hs]
      exact Or.inl ⟨_, rfl, rfl⟩

theorem run_inSlice (m : Nat) (out : List α) (vs : List α) : ∀ k,
    (run 0 k vs).map (CellStore.inSlice [⟨out, m⟩]) = run 0 (m + k) vs := by
  induction vs with
  | nil => intro k; rfl
  | cons v vs ih =>
    intro k
    show _ :: (run 0 (k + 1) vs).map _ = _ :: run 0 (m + k + 1) vs
    rw [ih (k + 1)]
    rfl

theorem inSlice_one (m : Nat) (out out' : List α) :
    CellStore.inSlice [(⟨out, m⟩ : Progress α)] = CellStore.inSlice [⟨out', m⟩] := by
  funext s
  unfold CellStore.inSlice
  cases s.slot <;> rfl

/-- Assignments to one slice leave its length. -/
theorem applyTo_one (log : List (CellStore α)) (m : Nat) : ∀ out : List α, ∃ out' : List α, out'.length = out.length ∧
    log.foldl CellStore.applyTo [(⟨out, m⟩ : Progress α)] = [⟨out', m⟩] := by
  induction log with
  | nil => intro out; exact ⟨out, rfl, rfl⟩
  | cons s log ih =>
    intro out
    rw [List.foldl_cons]
    have : ∃ out1 : List α, out1.length = out.length ∧ CellStore.applyTo [(⟨out, m⟩ : Progress α)] s = [⟨out1, m⟩] := by
      unfold CellStore.applyTo
      cases s.slot with
      | zero => exact ⟨out.set s.cell s.value, List.length_set, rfl⟩
      | succ n => exact ⟨out, rfl, by cases n <;> rfl⟩
    obtain ⟨out1, h1, h2⟩ := this
    obtain ⟨out2, h3, h4⟩ := ih out1
    exact ⟨out2, h3.trans h1, by rw [h2, h4]⟩

/-- The plans for one channel. -/
def SinglePlan (locs : List BlockRead) : Prop := ∀ loc ∈ locs, ∃ idx skip, loc.channelIndexes = [some ⟨idx, skip⟩]

/-- The assignments for the first block come first. -/
theorem executePlanInto_front {δ : Type} (run : Runner δ α) (ix : Index) (loc : BlockRead) (locs : List BlockRead)
    (ps : List (Progress α)) (d : δ) : (executeBlockInto S rd run ix loc ps d).2.1
      <+: (executePlanInto S rd run ix (loc :: locs) ps d).2.1 := by
  unfold executePlanInto
  cases executeBlockInto S rd run ix loc ps d with
  | mk r x =>
  obtain ⟨log, d'⟩ := x
  cases r with
  | error e => exact List.prefix_rfl
  | ok ps' =>
    dsimp only
    split
    · exact List.prefix_rfl
    · exact List.prefix_append _ _

/-- A way of running programs for which the length of a slice makes no difference until it is full. -/
def Runner.Fair {δ : Type} (rn : Runner δ α) : Prop := ∀ (slot : Nat) (Q : Nat → Nat → Nat × List (RecordEntry α) → _ → Prop)
  (k c : Nat) (x y : Prog (CellStore α) (Nat × List (RecordEntry α))), Prog.Tame Q → Prog.Cut slot Q k c x y →
    ∀ start d, Prog.Alike slot Q k c (rn start x d) (rn start y d)

omit S rd in
theorem Runner.contents_fair : Runner.Fair (Runner.contents : Runner Bytes α) :=
  fun _ _ _ _ _ _ hQ h start f => h.runs hQ f start

theorem Runner.stream_fair (capacity : Nat) : Runner.Fair (Runner.stream capacity : Runner Device α) := by
  intro slot Q k c x y hQ h start d
  unfold Runner.stream
  cases (BufReader.new capacity d).seekStart start with
  | mk r b =>
  cases r with
  | some kind => exact .error _ _
  | none =>
    obtain ⟨vs, h1, h2, h3, h4, h5⟩ := h.runsBuf hQ b
    exact ⟨vs, h1, h2, h3, fun hlt => ⟨congrArg BufReader.dev (h4 hlt).1, (h4 hlt).2⟩, h5⟩

/-- One block: both slices, with the results. -/
theorem executeBlockInto_cut {δ : Type} {rn : Runner δ α} (hrn : Runner.Fair rn) (ix : Index) (loc : BlockRead) (idx skip : Nat) (hci : loc.channelIndexes = [some ⟨idx, skip⟩])
    (f : δ) (k : Nat) (out out' : List α) (hk : k < out.length) (hle : out.length ≤ out'.length) :
    ∃ vs, k + vs.length ≤ out.length ∧ (executeBlockInto S rd rn ix loc [⟨out, k⟩] f).2.1 = run 0 k vs ∧
      run 0 k vs = (executeBlockInto S rd rn ix loc [⟨out', k⟩] f).2.1.take (out.length - k) ∧
      (k + vs.length < out.length → (executeBlockInto S rd rn ix loc [⟨out, k⟩] f).2.2 =
          (executeBlockInto S rd rn ix loc [⟨out', k⟩] f).2.2 ∧
        ((∃ e, (executeBlockInto S rd rn ix loc [⟨out, k⟩] f).1 = .error e ∧
          (executeBlockInto S rd rn ix loc [⟨out', k⟩] f).1 = .error e) ∨
        ∃ o o' : List α, o.length = out.length ∧ o'.length = out'.length ∧
          (executeBlockInto S rd rn ix loc [⟨out, k⟩] f).1 = .ok [⟨o, k + vs.length⟩] ∧
          (executeBlockInto S rd rn ix loc [⟨out', k⟩] f).1 = .ok [⟨o', k + vs.length⟩])) ∧
      (k + vs.length = out.length →
        (∃ e, (executeBlockInto S rd rn ix loc [⟨out, k⟩] f).1 = .error e) ∨
        ∃ o : List α, o.length = out.length ∧
          (executeBlockInto S rd rn ix loc [⟨out, k⟩] f).1 = .ok [⟨o, k + vs.length⟩]) := by
  have hreq : ∀ o : List α, k < o.length → blockRequests 0 loc.channelIndexes [(⟨o, k⟩ : Progress α)]
      = [{ channelIndex := idx, slot := 0, output := o.drop k, skip := skip }] := by
    intro o ho
    rw [hci]
    unfold blockRequests
    rw [if_neg (by unfold Progress.isComplete; simp; omega)]
    rfl
  unfold executeBlockInto
  dsimp only
  generalize List.any loc.channelIndexes _ = anySkip
  cases ix.getDataBlock loc.dataBlock with
  | none => exact ⟨[], by simp; omega, rfl, List.take_nil.symm, fun _ => ⟨rfl, Or.inl ⟨_, rfl, rfl⟩⟩, fun _ => Or.inl ⟨_, rfl⟩⟩
  | some b =>
    dsimp only
    rw [hreq out hk, hreq out' (by omega)]
    rcases program_cut (S := S) (rd := rd) b anySkip idx 0 skip (out.drop k) (out'.drop k)
      (by rw [List.length_drop, List.length_drop]; omega) with ⟨e, h1, h2⟩ | ⟨x, y, Q, hx, hy, hQ, hn, hcut⟩
    · rw [h1, h2]
      exact ⟨[], by simp; omega, rfl, List.take_nil.symm, fun _ => ⟨rfl, Or.inl ⟨_, rfl, rfl⟩⟩, fun _ => Or.inl ⟨_, rfl⟩⟩
    · rw [hx, hy]
      obtain ⟨vs, hv, h1, h2, h3, h4⟩ := hrn _ _ _ _ _ _ hQ hcut b.start f
      rw [List.length_drop] at hv h2 h3 h4
      dsimp only
      rw [← inSlice_one k out out']
      revert h1 h2 h3 h4
      generalize rn b.start x f = X
      generalize rn b.start y f = Y
      obtain ⟨⟨rx, sx⟩, dx⟩ := X
      obtain ⟨⟨ry, sy⟩, dy⟩ := Y
      intro h1 h2 h3 h4
      dsimp only at h1 h2 h3 h4 ⊢
      subst h1
      have hm : (run 0 0 vs).map (CellStore.inSlice [(⟨out, k⟩ : Progress α)]) = run 0 k vs := run_inSlice k out vs 0
      rw [hm]
      have hlx : (match (generalizing := false) rx with
          | .error e => (.error e, run 0 k vs, dx)
          | .ok (n, _) => (.ok (addSamples n loc.channelIndexes ((run 0 k vs).foldl CellStore.applyTo [⟨out, k⟩])), run 0 k vs, dx) :
            R (List (Progress α)) × List (CellStore α) × δ).2.1 = run 0 k vs := by cases rx <;> rfl
      have hly : (match (generalizing := false) ry with
          | .error e => (.error e, sy.map (CellStore.inSlice [(⟨out, k⟩ : Progress α)]), dy)
          | .ok (n, _) => (.ok (addSamples n loc.channelIndexes ((sy.map (CellStore.inSlice [(⟨out, k⟩ : Progress α)])).foldl
              CellStore.applyTo [⟨out', k⟩])), sy.map (CellStore.inSlice [(⟨out, k⟩ : Progress α)]), dy) :
            R (List (Progress α)) × List (CellStore α) × δ).2.1 = sy.map (CellStore.inSlice [(⟨out, k⟩ : Progress α)]) := by
        cases ry <;> rfl
      refine ⟨vs, by omega, hlx, ?_, ?_, ?_⟩
      · refine Eq.trans ?_ (congrArg (List.take (out.length - k)) hly).symm
        rw [← List.map_take, ← h2, hm]
      · intro hlt
        obtain ⟨hdev, h6⟩ := h3 (by omega)
        subst hdev
        rcases h6 with ⟨e, rfl, rfl⟩ | ⟨a, a', rfl, rfl, hRab⟩
        · exact ⟨rfl, Or.inl ⟨e, rfl, rfl⟩⟩
        · refine ⟨rfl, Or.inr ?_⟩
          obtain ⟨hn1, hn2⟩ := hn _ _ _ _ hRab
          obtain ⟨n, p1⟩ := a
          obtain ⟨n', p2⟩ := a'
          dsimp only at hn1 hn2
          subst hn1
          rw [Nat.zero_add] at hn2
          subst hn2
          obtain ⟨o1, ho1, he1⟩ := applyTo_one (run 0 k vs) k out
          obtain ⟨o2, ho2, he2⟩ := applyTo_one (sy.map (CellStore.inSlice [(⟨out, k⟩ : Progress α)])) k out'
          refine ⟨o1, o2, ho1, ho2, ?_, ?_⟩
          · dsimp only; rw [he1, hci]; rfl
          · dsimp only; rw [he2, hci]; rfl
      · intro heq
        cases rx with
        | error e => exact Or.inl ⟨e, rfl⟩
        | ok a =>
          right
          obtain ⟨hn1, hn2⟩ := hn _ _ _ _ (h4 (by omega) a rfl)
          obtain ⟨n, p1⟩ := a
          dsimp only at hn2
          have hn3 : n = vs.length := by omega
          subst hn3
          obtain ⟨o1, ho1, he1⟩ := applyTo_one (run 0 k vs) k out
          refine ⟨o1, ho1, ?_⟩
          dsimp only; rw [he1, hci]; rfl

/-- Reading one channel into two slices: the assignments fill the slice from the front, and are the same until the
    shorter slice is full. -/
theorem executePlanInto_cut {δ : Type} {rn : Runner δ α} (hrn : Runner.Fair rn) (ix : Index) (locs : List BlockRead) : ∀ (f : δ) (k : Nat) (out out' : List α),
    SinglePlan locs → k < out.length → out.length ≤ out'.length →
    ∃ vs, k + vs.length ≤ out.length ∧ (executePlanInto S rd rn ix locs [⟨out, k⟩] f).2.1 = run 0 k vs ∧
      run 0 k vs = (executePlanInto S rd rn ix locs [⟨out', k⟩] f).2.1.take (out.length - k) := by
  induction locs with
  | nil => intro f k out out' _ hk _; exact ⟨[], by simp; omega, rfl, List.take_nil.symm⟩
  | cons loc locs ih =>
    intro f k out out' hs hk hle
    obtain ⟨idx, skip, hci⟩ := hs loc List.mem_cons_self
    obtain ⟨vs, h1, h2, h3, h4, h5⟩ := executeBlockInto_cut (S := S) (rd := rd) hrn ix loc idx skip hci f k out out' hk hle
    obtain ⟨more, hmore⟩ := executePlanInto_front (S := S) (rd := rd) rn ix loc locs [⟨out', k⟩] f
    have hc : ∀ (o : List α) (n : Nat), [(⟨o, n⟩ : Progress α)].all Progress.isComplete = decide (n ≥ o.length) := by
      intro o n
      simp only [List.all_cons, List.all_nil, Bool.and_true]
      rfl
    have hunf : ∀ ps : List (Progress α), (executePlanInto S rd rn ix (loc :: locs) ps f).2.1 =
        match (executeBlockInto S rd rn ix loc ps f).1 with
        | .error _ => (executeBlockInto S rd rn ix loc ps f).2.1
        | .ok ps' => if ps'.all Progress.isComplete then (executeBlockInto S rd rn ix loc ps f).2.1
          else (executeBlockInto S rd rn ix loc ps f).2.1 ++
            (executePlanInto S rd rn ix locs ps' (executeBlockInto S rd rn ix loc ps f).2.2).2.1 := by
      intro ps
      rw [executePlanInto]
      cases executeBlockInto S rd rn ix loc ps f with
      | mk r x =>
      obtain ⟨log, d⟩ := x
      cases r with
      | error e => rfl
      | ok ps' =>
        dsimp only
        split <;> rfl
    rcases Nat.lt_or_ge (k + vs.length) out.length with hlt | hge
    · have hsy : (executeBlockInto S rd rn ix loc [⟨out', k⟩] f).2.1 = run 0 k vs := by
        have hl := congrArg List.length h3
        rw [run_length, List.length_take] at hl
        rw [h3, List.take_of_length_le (by omega)]
      obtain ⟨hdev, h4⟩ := h4 hlt
      rcases h4 with ⟨e, e1, e2⟩ | ⟨o, o', l1, l2, e1, e2⟩
      · refine ⟨vs, h1, ?_, ?_⟩
        · rw [hunf, e1]; exact h2
        · rw [hunf, e2]; exact h3
      · rw [hunf, hunf, e1, e2]
        dsimp only
        rw [hc, hc, if_neg (by simp; omega), if_neg (by simp; omega)]
        rw [← hdev]
        obtain ⟨ws, hw1, hw2, hw3⟩ := ih (executeBlockInto S rd rn ix loc [⟨out, k⟩] f).2.2 (k + vs.length) o o' (fun l hl => hs l (List.mem_cons_of_mem _ hl)) (by omega) (by omega)
        refine ⟨vs ++ ws, by rw [List.length_append]; omega, ?_, ?_⟩
        · rw [run_append, ← hw2, h2]
        · rw [hsy, List.take_append, run_length, List.take_of_length_le (by rw [run_length]; omega), run_append, hw3,
            show o.length - (k + vs.length) = out.length - k - vs.length by omega]
    · have hlen : k + vs.length = out.length := by omega
      refine ⟨vs, h1, ?_, ?_⟩
      · rw [hunf]
        rcases h5 hlen with ⟨e, e1⟩ | ⟨o, l1, e1⟩
        · rw [e1]; exact h2
        · rw [e1]
          dsimp only
          rw [hc, if_pos (by simp; omega)]
          exact h2
      · rw [← hmore, List.take_append_of_le_length, ← h3]
        have hl := congrArg List.length h3
        rw [run_length, List.length_take] at hl
        omega

end
end Tedium
