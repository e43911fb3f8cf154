import Verif.Model.File

/-!
# Two reads side by side

A read that uses one storage type and a read that uses another, into buffers whose cells are related, do the same
things and leave related cells; the first may end early with a failure for which `bad` holds.
-/

namespace Tedium

/-- both fail in the same way, or succeed with related results, or the first has a bad failure -/
def ResRel {α β : Type} (bad : Fail → Prop) (rel : α → β → Prop) : R α → R β → Prop
  | .error e, y => bad e ∨ y = .error e
  | .ok a, .ok b => rel a b
  | .ok _, .error _ => False

section res
variable {α β γ δ : Type} {bad : Fail → Prop} {rel : α → β → Prop} {rel' : γ → δ → Prop}

theorem ResRel.bind {x : R α} {y : R β} {k : α → R γ} {l : β → R δ} (h : ResRel bad rel x y)
    (hk : ∀ a b, rel a b → ResRel bad rel' (k a) (l b)) : ResRel bad rel' (x >>= k) (y >>= l) := by
  cases x with
  | error e =>
    rcases h with h | rfl
    · exact Or.inl h
    · exact Or.inr rfl
  | ok a =>
    cases y with
    | error e => exact h.elim
    | ok b => exact hk a b h

theorem ResRel.imp {rel2 : α → β → Prop} {x : R α} {y : R β} (h : ResRel bad rel x y) (hi : ∀ a b, rel a b → rel2 a b) :
    ResRel bad rel2 x y := by
  cases x with
  | error e => exact h
  | ok a =>
    cases y with
    | error e => exact h.elim
    | ok b => exact hi a b h

/-- the same for reading actions, which also have to end at the same position -/
def RdRel (bad : Fail → Prop) (rel : α → β → Prop) (x : Rd α) (y : Rd β) : Prop :=
  ∀ f p, ResRel bad (fun u v => rel u.1 v.1 ∧ u.2 = v.2) (x f p) (y f p)

theorem RdRel.bind {x : Rd α} {y : Rd β} {k : α → Rd γ} {l : β → Rd δ} (h : RdRel bad rel x y)
    (hk : ∀ a b, rel a b → RdRel bad rel' (k a) (l b)) : RdRel bad rel' (x >>= k) (y >>= l) := by
  intro f p
  show ResRel bad _ (Rd.bind x k f p) (Rd.bind y l f p)
  unfold Rd.bind
  have := h f p
  revert this
  cases x f p with
  | error e =>
    intro h
    rcases h with h | h
    · exact Or.inl h
    · rw [h]; exact Or.inr rfl
  | ok u =>
    cases y f p with
    | error e => intro h; exact h.elim
    | ok v =>
      obtain ⟨a, q⟩ := u
      obtain ⟨b, q'⟩ := v
      rintro ⟨h1, rfl⟩
      exact hk a b h1 f q

theorem RdRel.pure {a : α} {b : β} (h : rel a b) : RdRel bad rel (Pure.pure a) (Pure.pure b) :=
  fun _ _ => ⟨h, rfl⟩

theorem RdRel.pure' {a : α} {b : β} (h : rel a b) : RdRel bad rel (Rd.pure a) (Rd.pure b) :=
  fun _ _ => ⟨h, rfl⟩

theorem RdRel.refl (x : Rd α) : RdRel bad (fun a b => a = b) x x := by
  intro f p
  cases x f p with
  | error e => exact Or.inr rfl
  | ok u => exact ⟨rfl, rfl⟩

/-- the same action first -/
theorem RdRel.step {ε : Type} (x : Rd ε) {k : ε → Rd γ} {l : ε → Rd δ} (hk : ∀ a, RdRel bad rel' (k a) (l a)) :
    RdRel bad rel' (x >>= k) (x >>= l) :=
  (RdRel.refl x).bind (fun a b h => by subst h; exact hk a)

theorem RdRel.ite {c : Prop} [Decidable c] {x x' : Rd α} {y y' : Rd β} (h : RdRel bad rel x y) (h' : RdRel bad rel x' y') :
    RdRel bad rel (if c then x else x') (if c then y else y') := by
  split
  · exact h
  · exact h'

end res

/-! ## Lists, cells, plans -/

/-- related lists -/
def All2 {α β : Type} (rel : α → β → Prop) : List α → List β → Prop
  | [], [] => True
  | a :: as, b :: bs => rel a b ∧ All2 rel as bs
  | _, _ => False

/-- related cells; the relation may depend on the number of the cell, which starts at `k`; `E` holds for the number
    of the cells -/
def Cells {α β : Type} (P : Nat → α → β → Prop) (E : Nat → Prop) : Nat → List α → List β → Prop
  | k, [], [] => E k
  | k, a :: as, b :: bs => P k a b ∧ Cells P E (k + 1) as bs
  | _, _, _ => False

section cells
variable {α β : Type} {P : Nat → α → β → Prop} {E E' : Nat → Prop}

theorem All2.length {rel : α → β → Prop} : ∀ {as : List α} {bs : List β}, All2 rel as bs → as.length = bs.length
  | [], [], _ => rfl
  | _ :: _, _ :: _, h => congrArg (· + 1) h.2.length

theorem All2.getElem? {rel : α → β → Prop} : ∀ {as : List α} {bs : List β}, All2 rel as bs → ∀ i : Nat,
    (∃ a b, as[i]? = some a ∧ bs[i]? = some b ∧ rel a b) ∨ (as[i]? = none ∧ bs[i]? = none)
  | [], [], _, _ => Or.inr ⟨rfl, rfl⟩
  | a :: _, b :: _, h, 0 => Or.inl ⟨a, b, rfl, rfl, h.1⟩
  | _ :: _, _ :: _, h, i + 1 => h.2.getElem? i

theorem All2.set {rel : α → β → Prop} {a : α} {b : β} (hr : rel a b) : ∀ {as : List α} {bs : List β}, All2 rel as bs →
    ∀ i : Nat, All2 rel (as.set i a) (bs.set i b)
  | [], [], _, _ => trivial
  | _ :: _, _ :: _, h, 0 => ⟨hr, h.2⟩
  | _ :: _, _ :: _, h, i + 1 => ⟨h.1, h.2.set hr i⟩

theorem All2.map {γ δ : Type} {rel : α → β → Prop} {rel' : γ → δ → Prop} {f : α → γ} {g : β → δ}
    (hf : ∀ a b, rel a b → rel' (f a) (g b)) : ∀ {as : List α} {bs : List β}, All2 rel as bs →
    All2 rel' (as.map f) (bs.map g)
  | [], [], _ => trivial
  | _ :: _, _ :: _, h => ⟨hf _ _ h.1, h.2.map hf⟩

theorem All2.map_eq {γ : Type} {rel : α → β → Prop} {f : α → γ} {g : β → γ}
    (hf : ∀ a b, rel a b → f a = g b) : ∀ {as : List α} {bs : List β}, All2 rel as bs → as.map f = bs.map g
  | [], [], _ => rfl
  | _ :: _, _ :: _, h => by rw [List.map_cons, List.map_cons, hf _ _ h.1, h.2.map_eq hf]

theorem All2.self {rel : α → α → Prop} (h : ∀ a, rel a a) : ∀ as : List α, All2 rel as as
  | [] => trivial
  | a :: as => ⟨h a, All2.self h as⟩

theorem Cells.length : ∀ {k : Nat} {as : List α} {bs : List β}, Cells P E k as bs → as.length = bs.length
  | _, [], [], _ => rfl
  | _, _ :: _, _ :: _, h => congrArg (· + 1) h.2.length

theorem Cells.append : ∀ {k : Nat} {as : List α} {bs : List β} {as' : List α} {bs' : List β}, Cells P E' k as bs →
    Cells P E (k + as.length) as' bs' → Cells P E k (as ++ as') (bs ++ bs')
  | k, [], [], as', bs', _, h' => by simpa using h'
  | k, a :: as, b :: bs, as', bs', h, h' =>
    ⟨h.1, h.2.append (by rw [List.length_cons] at h'; rw [Nat.add_assoc, Nat.add_comm 1]; exact h')⟩

theorem Cells.drop : ∀ {k : Nat} {as : List α} {bs : List β} (n : Nat), Cells P E k as bs → n ≤ as.length →
    Cells P E (k + n) (as.drop n) (bs.drop n)
  | k, as, bs, 0, h, _ => h
  | k, [], [], n + 1, _, hn => by cases hn
  | k, a :: as, b :: bs, n + 1, h, hn => by
    have := h.2.drop n (Nat.le_of_succ_le_succ hn)
    rw [show k + (n + 1) = k + 1 + n by omega]
    exact this

theorem Cells.take : ∀ {k : Nat} {as : List α} {bs : List β} (n : Nat), Cells P E k as bs →
    Cells P (fun _ => True) k (as.take n) (bs.take n)
  | _, [], [], _, _ => by simp [Cells]
  | _, _ :: _, _ :: _, 0, _ => trivial
  | _, _ :: _, _ :: _, n + 1, h => ⟨h.1, h.2.take n⟩

/-- related iterators over an output slice that starts at cell `k` -/
def IterRel (P : Nat → α → β → Prop) (E : Nat → Prop) (k : Nat) (it : OutIter α) (jt : OutIter β) : Prop :=
  Cells P (fun _ => True) k it.done jt.done ∧ Cells P E (k + it.done.length) it.rest jt.rest

/-- related entries of a record plan; the slice of slot `s` starts at cell `off s` -/
def EntryRel (P : Nat → Nat → α → β → Prop) (E : Nat → Nat → Prop) (off : Nat → Nat) (en : RecordEntry α) (fn : RecordEntry β) :
    Prop :=
  en.length = fn.length ∧
  match en.plan, fn.plan with
  | .skip b, .skip b' => b = b'
  | .read s it k, .read s' jt k' => s = s' ∧ k = k' ∧ IterRel (P s) (E s) (off s) it jt
  | _, _ => False

end cells

/-! ## Reading a block -/

/-- two storage types of which the first reads what the second reads, or fails badly -/
structure StorageRel {α β : Type} (bad : Fail → Prop) (V : α → β → Prop) (S : Storage α) (T : Storage β) : Prop where
  natural : S.natural = T.natural
  supported : S.supported = T.supported
  memSize : S.memSize = T.memSize
  read : ∀ e, RdRel bad V (S.read e) (T.read e)

section block
variable {α β : Type} {bad : Fail → Prop} {V : α → β → Prop} {S : Storage α} {T : Storage β}
variable {P : Nat → Nat → α → β → Prop} {E : Nat → Nat → Prop} {off : Nat → Nat}
variable (hS : StorageRel bad V S T) (hV : ∀ s k a0 b0 a b, P s k a0 b0 → V a b → P s k a b)

/-- the count and the plan after a read -/
def CountRel (P : Nat → Nat → α → β → Prop) (E : Nat → Nat → Prop) (off : Nat → Nat) (x : Nat × List (RecordEntry α)) (y : Nat × List (RecordEntry β)) :
    Prop := x.1 = y.1 ∧ All2 (EntryRel P E off) x.2 y.2

include hS hV

theorem readValues_rel (e : Endian) (s k : Nat) : ∀ (n : Nat) (it : OutIter α) (jt : OutIter β), IterRel (P s) (E s) k it jt →
    RdRel bad (fun x y => x.1 = y.1 ∧ IterRel (P s) (E s) k x.2 y.2) (readValues S e n it) (readValues T e n jt) := by
  intro n
  induction n with
  | zero => intro it jt h; exact .pure' ⟨rfl, h⟩
  | succ n ih =>
    rintro ⟨done, rest⟩ ⟨done', rest'⟩ h
    unfold readValues
    cases rest with
    | nil =>
      cases rest' with
      | nil => exact .pure' ⟨rfl, h⟩
      | cons b bs => exact h.2.elim
    | cons a as =>
      cases rest' with
      | nil => exact h.2.elim
      | cons b bs =>
        dsimp only
        refine (hS.read e).bind (fun v w hvw => ?_)
        refine (ih ⟨done ++ [v], as⟩ ⟨done' ++ [w], bs⟩ ?_).bind (fun x y hxy => ?_)
        · refine ⟨h.1.append ⟨hV _ _ _ _ _ _ h.2.1 hvw, trivial⟩, ?_⟩
          have := h.2.2
          dsimp only at this ⊢
          rw [List.length_append, List.length_singleton, ← Nat.add_assoc]
          exact this
        · obtain ⟨n1, it1⟩ := x
          obtain ⟨n2, it2⟩ := y
          obtain ⟨h1, h2⟩ := hxy
          dsimp only at h1
          subst h1
          exact .pure ⟨rfl, h2⟩

theorem readSequential_rel (e : Endian) (s k : Nat) (it : OutIter α) (jt : OutIter β) (n : Nat) (h : IterRel (P s) (E s) k it jt) :
    RdRel bad (fun x y => x.1 = y.1 ∧ IterRel (P s) (E s) k x.2 y.2) (readSequential S e it n) (readSequential T e jt n) := by
  unfold readSequential
  refine (readValues_rel hS hV e s k n it jt h).bind (fun x y hxy => ?_)
  obtain ⟨n1, it1⟩ := x
  obtain ⟨n2, it2⟩ := y
  obtain ⟨h1, h2⟩ := hxy
  dsimp only at h1 h2 ⊢
  subst h1
  rw [hS.memSize]
  refine RdRel.ite ?_ (.pure ⟨rfl, h2⟩)
  exact RdRel.step _ (fun _ => RdRel.step _ (fun _ => .pure ⟨rfl, h2⟩))

theorem readSubBlock_rel (e : Endian) : ∀ (plan : List (RecordEntry α)) (plan' : List (RecordEntry β)) (length : Nat),
    All2 (EntryRel P E off) plan plan' →
    RdRel bad (CountRel P E off) (readSubBlock S e length plan) (readSubBlock T e length plan') := by
  intro plan
  induction plan with
  | nil =>
    intro plan' length h
    cases plan' with
    | nil => exact .pure' ⟨rfl, trivial⟩
    | cons b bs => exact h.elim
  | cons en rest ih =>
    intro plan' length h
    cases plan' with
    | nil => exact h.elim
    | cons fn rest' =>
      obtain ⟨⟨hlen, hplan⟩, hrest⟩ := h
      obtain ⟨len, pl⟩ := en
      obtain ⟨len', pl'⟩ := fn
      dsimp only at hlen
      subst hlen
      unfold readSubBlock
      cases pl with
      | skip b =>
        cases pl' with
        | skip b' =>
          dsimp only at hplan ⊢
          subst hplan
          refine RdRel.step _ (fun _ => RdRel.step _ (fun _ => ?_))
          refine (ih _ _ hrest).bind (fun x y hxy => ?_)
          obtain ⟨h1, h2⟩ := hxy
          exact .pure ⟨h1, ⟨rfl, rfl⟩, h2⟩
        | read s jt k => exact hplan.elim
      | read s it k =>
        cases pl' with
        | skip b' => exact hplan.elim
        | read s' jt k' =>
          dsimp only at hplan ⊢
          obtain ⟨rfl, rfl, hit⟩ := hplan
          have hgo : ∀ (u : Unit), RdRel bad (CountRel P E off)
              (do
                let __discr ← readSequential S e it (len - min k len)
                match __discr with
                  | (n, out) => do
                    let __discr ← readSubBlock S e n rest
                    match __discr with
                      | (length, rest) => pure (length, { length := len, plan := EntryPlan.read s out k } :: rest))
              (do
                let __discr ← readSequential T e jt (len - min k len)
                match __discr with
                  | (n, out) => do
                    let __discr ← readSubBlock T e n rest'
                    match __discr with
                      | (length, rest) => pure (length, { length := len, plan := EntryPlan.read s out k } :: rest)) := by
            intro _
            refine (readSequential_rel hS hV e s (off s) it jt _ hit).bind (fun x y hxy => ?_)
            obtain ⟨n1, it1⟩ := x
            obtain ⟨n2, it2⟩ := y
            obtain ⟨h1, h2⟩ := hxy
            dsimp only at h1 h2 ⊢
            subst h1
            refine (ih _ _ hrest).bind (fun x y hxy => ?_)
            obtain ⟨h3, h4⟩ := hxy
            exact .pure ⟨h3, ⟨rfl, rfl, rfl, h2⟩, h4⟩
          rw [hS.memSize]
          refine RdRel.ite (RdRel.step _ (fun _ => RdRel.step _ (fun _ => hgo ()))) (hgo ())

omit hS hV in
theorem mapSkips_rel (g : Nat → Nat) {plan : List (RecordEntry α)} {plan' : List (RecordEntry β)}
    (h : All2 (EntryRel P E off) plan plan') : All2 (EntryRel P E off) (mapSkips g plan) (mapSkips g plan') := by
  refine All2.map ?_ h
  rintro ⟨len, pl⟩ ⟨len', pl'⟩ ⟨h1, h2⟩
  cases pl with
  | skip b =>
    cases pl' with
    | skip b' => exact ⟨h1, h2⟩
    | read s jt k => exact h2.elim
  | read s it k =>
    cases pl' with
    | skip b' => exact h2.elim
    | read s' jt k' => exact ⟨h1, h2.1, congrArg g h2.2.1, h2.2.2⟩

omit hS hV in
theorem setSkips_rel : ∀ {ss : List Nat} {plan : List (RecordEntry α)} {plan' : List (RecordEntry β)},
    All2 (EntryRel P E off) plan plan' → All2 (EntryRel P E off) (setSkips ss plan) (setSkips ss plan')
  | ss, [], [], _ => by cases ss <;> exact trivial
  | [], _ :: _, _ :: _, h => h
  | k :: ss, ⟨len, pl⟩ :: rest, ⟨len', pl'⟩ :: rest', h => by
    obtain ⟨⟨h1, h2⟩, h3⟩ := h
    unfold setSkips
    cases pl with
    | skip b =>
      cases pl' with
      | skip b' => exact ⟨⟨h1, h2⟩, setSkips_rel h3⟩
      | read s jt k => exact h2.elim
    | read s it k =>
      cases pl' with
      | skip b' => exact h2.elim
      | read s' jt k' => exact ⟨⟨h1, h2.1, rfl, h2.2.2⟩, setSkips_rel h3⟩

theorem contigLoop_rel (e : Endian) (bs toSkip remainder : Nat) : ∀ (n idx : Nat) (plan : List (RecordEntry α))
    (plan' : List (RecordEntry β)) (length : Nat), All2 (EntryRel P E off) plan plan' →
    RdRel bad (CountRel P E off) (contigLoop S e bs toSkip remainder n idx plan length)
      (contigLoop T e bs toSkip remainder n idx plan' length) := by
  intro n
  induction n with
  | zero => intro idx plan plan' length h; exact .pure' ⟨rfl, h⟩
  | succ n ih =>
    intro idx plan plan' length h
    unfold contigLoop
    refine RdRel.ite (RdRel.step _ (fun _ => ih _ _ _ _ h)) (RdRel.ite ?_ ?_)
    all_goals
      refine (readSubBlock_rel hS hV e _ _ 0 (mapSkips_rel _ h)).bind (fun x y hxy => ?_)
      obtain ⟨n1, p1⟩ := x
      obtain ⟨n2, p2⟩ := y
      obtain ⟨h1, h2⟩ := hxy
      dsimp only at h1 h2 ⊢
      subst h1
      exact ih _ _ _ _ h2

omit hV in
theorem sizeBytes_rel {en : RecordEntry α} {fn : RecordEntry β} (h : EntryRel P E off en fn) :
    en.plan.sizeBytes S = fn.plan.sizeBytes T ∧ en.length = fn.length := by
  obtain ⟨len, pl⟩ := en
  obtain ⟨len', pl'⟩ := fn
  obtain ⟨h1, h2⟩ := h
  refine ⟨?_, h1⟩
  cases pl with
  | skip b =>
    cases pl' with
    | skip b' => exact h2
    | read s jt k => exact h2.elim
  | read s it k =>
    cases pl' with
    | skip b' => exact h2.elim
    | read s' jt k' => exact hS.memSize

omit hV in
theorem rowSize_rel {plan : List (RecordEntry α)} {plan' : List (RecordEntry β)} (h : All2 (EntryRel P E off) plan plan') :
    rowSize S plan = rowSize T plan' :=
  congrArg List.sum (h.map_eq (f := fun e => e.plan.sizeBytes S) (g := fun e => e.plan.sizeBytes T)
    (fun _ _ hr => (sizeBytes_rel hS hr).1))

omit hV in
theorem blockSize_rel {plan : List (RecordEntry α)} {plan' : List (RecordEntry β)} (h : All2 (EntryRel P E off) plan plan') :
    blockSize S plan = blockSize T plan' := by
  unfold blockSize
  rw [h.map_eq (f := fun e => e.plan.sizeBytes S * e.length) (g := fun e => e.plan.sizeBytes T * e.length)
    (fun _ _ hr => by rw [(sizeBytes_rel hS hr).1, (sizeBytes_rel hS hr).2])]

omit hS hV in
theorem firstLength_rel : ∀ {plan : List (RecordEntry α)} {plan' : List (RecordEntry β)}, All2 (EntryRel P E off) plan plan' →
    firstLength plan = firstLength plan'
  | [], [], _ => rfl
  | _ :: _, _ :: _, h => congrArg Except.ok h.1.1

omit hS hV in
theorem blockSkips_rel : ∀ {plan : List (RecordEntry α)} {plan' : List (RecordEntry β)}, All2 (EntryRel P E off) plan plan' →
    blockSkips plan = blockSkips plan'
  | [], [], _ => rfl
  | ⟨len, pl⟩ :: rest, ⟨len', pl'⟩ :: rest', h => by
    obtain ⟨⟨h1, h2⟩, h3⟩ := h
    have ih := blockSkips_rel h3
    unfold blockSkips at ih ⊢
    cases pl with
    | skip b =>
      cases pl' with
      | skip b' => exact ih
      | read s jt k => exact h2.elim
    | read s it k =>
      cases pl' with
      | skip b' => exact h2.elim
      | read s' jt k' =>
        obtain ⟨_, rfl, _⟩ := h2
        rw [List.filterMap_cons, List.filterMap_cons]
        dsimp only
        rw [ih]

theorem contigReadFrom_rel (e : Endian) (start size : Nat) {plan : List (RecordEntry α)} {plan' : List (RecordEntry β)}
    (k : Nat) (h : All2 (EntryRel P E off) plan plan') :
    RdRel bad (CountRel P E off) (contigReadFrom S e start size plan k) (contigReadFrom T e start size plan' k) := by
  unfold contigReadFrom
  rw [blockSize_rel hS h, firstLength_rel h]
  exact RdRel.step _ (fun _ => RdRel.step _ (fun _ => RdRel.step _ (fun _ => RdRel.step _ (fun _ => RdRel.step _ (fun _ =>
    contigLoop_rel hS hV e _ _ _ _ _ _ _ _ h)))))

theorem contigSkipLoop_rel (e : Endian) (bs : Nat) (toSkip rem : List Nat) : ∀ (n idx : Nat) (plan : List (RecordEntry α))
    (plan' : List (RecordEntry β)) (length : Nat), All2 (EntryRel P E off) plan plan' →
    RdRel bad (CountRel P E off) (contigSkipLoop S e bs toSkip rem n idx plan length)
      (contigSkipLoop T e bs toSkip rem n idx plan' length) := by
  intro n
  induction n with
  | zero => intro idx plan plan' length h; exact .pure' ⟨rfl, h⟩
  | succ n ih =>
    intro idx plan plan' length h
    unfold contigSkipLoop
    refine RdRel.ite ?_ (RdRel.step _ (fun _ => ih _ _ _ _ h))
    refine (readSubBlock_rel hS hV e _ _ 0 (setSkips_rel h)).bind (fun x y hxy => ?_)
    obtain ⟨n1, p1⟩ := x
    obtain ⟨n2, p2⟩ := y
    obtain ⟨h1, h2⟩ := hxy
    dsimp only at h1 h2 ⊢
    subst h1
    exact ih _ _ _ _ h2

theorem contigReadSkip_rel (e : Endian) (start size : Nat) {plan : List (RecordEntry α)} {plan' : List (RecordEntry β)}
    (ks : List Nat) (h : All2 (EntryRel P E off) plan plan') :
    RdRel bad (CountRel P E off) (contigReadSkip S e start size plan ks) (contigReadSkip T e start size plan' ks) := by
  unfold contigReadSkip
  rw [blockSize_rel hS h, firstLength_rel h]
  exact RdRel.step _ (fun _ => RdRel.step _ (fun _ => RdRel.step _ (fun _ => RdRel.step _ (fun _ => RdRel.step _ (fun _ =>
    contigSkipLoop_rel hS hV e _ _ _ _ _ _ _ _ h)))))

theorem readRow_rel (e : Endian) (row : Nat) : ∀ (plan : List (RecordEntry α)) (plan' : List (RecordEntry β)) (any : Bool),
    All2 (EntryRel P E off) plan plan' →
    RdRel bad (fun x y => x.1 = y.1 ∧ All2 (EntryRel P E off) x.2 y.2) (readRow S e row any plan) (readRow T e row any plan') := by
  intro plan
  induction plan with
  | nil =>
    intro plan' any h
    cases plan' with
    | nil => exact .pure' ⟨rfl, trivial⟩
    | cons b bs => exact h.elim
  | cons en rest ih =>
    intro plan' any h
    cases plan' with
    | nil => exact h.elim
    | cons fn rest' =>
      obtain ⟨⟨hlen, hplan⟩, hrest⟩ := h
      obtain ⟨len, pl⟩ := en
      obtain ⟨len', pl'⟩ := fn
      dsimp only at hlen
      subst hlen
      unfold readRow
      cases pl with
      | skip b =>
        cases pl' with
        | skip b' =>
          dsimp only at hplan ⊢
          subst hplan
          refine RdRel.step _ (fun _ => ?_)
          refine (ih _ _ hrest).bind (fun x y hxy => ?_)
          exact .pure ⟨hxy.1, ⟨rfl, rfl⟩, hxy.2⟩
        | read s jt k => exact hplan.elim
      | read s it k =>
        cases pl' with
        | skip b' => exact hplan.elim
        | read s' jt k' =>
          dsimp only at hplan ⊢
          obtain ⟨rfl, rfl, hit⟩ := hplan
          refine (hS.read e).bind (fun v w hvw => ?_)
          obtain ⟨done, cells⟩ := it
          obtain ⟨done', cells'⟩ := jt
          by_cases hrow : row ≥ k
          · rw [if_pos hrow, if_pos hrow]
            cases cells with
            | nil =>
              cases cells' with
              | nil =>
                dsimp only
                refine (ih _ _ hrest).bind (fun x y hxy => ?_)
                exact .pure ⟨hxy.1, ⟨rfl, rfl, rfl, hit⟩, hxy.2⟩
              | cons b bs => exact hit.2.elim
            | cons a as =>
              cases cells' with
              | nil => exact hit.2.elim
              | cons b bs =>
                dsimp only
                refine (ih _ _ hrest).bind (fun x y hxy => ?_)
                refine .pure ⟨hxy.1, ⟨rfl, rfl, rfl, ?_⟩, hxy.2⟩
                refine ⟨hit.1.append ⟨hV _ _ _ _ _ _ hit.2.1 hvw, trivial⟩, ?_⟩
                have := hit.2.2
                dsimp only at this ⊢
                rw [List.length_append, List.length_singleton, ← Nat.add_assoc]
                exact this
          · rw [if_neg hrow, if_neg hrow]
            dsimp only
            refine (ih _ _ hrest).bind (fun x y hxy => ?_)
            exact .pure ⟨hxy.1, ⟨rfl, rfl, rfl, hit⟩, hxy.2⟩

theorem interLoop_rel (e : Endian) : ∀ (n row : Nat) (plan : List (RecordEntry α)) (plan' : List (RecordEntry β)) (k : Nat),
    All2 (EntryRel P E off) plan plan' →
    RdRel bad (CountRel P E off) (interLoop S e n row plan k) (interLoop T e n row plan' k) := by
  intro n
  induction n with
  | zero => intro row plan plan' k h; exact .pure' ⟨rfl, h⟩
  | succ n ih =>
    intro row plan plan' k h
    unfold interLoop
    refine (readRow_rel hS hV e row _ _ false h).bind (fun x y hxy => ?_)
    obtain ⟨b1, p1⟩ := x
    obtain ⟨b2, p2⟩ := y
    obtain ⟨h1, h2⟩ := hxy
    dsimp only at h1 h2 ⊢
    subst h1
    exact RdRel.ite (ih _ _ _ _ h2) (.pure ⟨rfl, h2⟩)

theorem interRead_rel (e : Endian) (start size : Nat) {plan : List (RecordEntry α)} {plan' : List (RecordEntry β)}
    (h : All2 (EntryRel P E off) plan plan') :
    RdRel bad (CountRel P E off) (interRead S e start size plan) (interRead T e start size plan') := by
  unfold interRead
  rw [rowSize_rel hS h, blockSkips_rel h]
  refine RdRel.step _ (fun _ => RdRel.step _ (fun _ => ?_))
  refine RdRel.ite (RdRel.step _ (fun _ => RdRel.step _ (fun _ => ?_))) ?_
  all_goals exact interLoop_rel hS hV e _ _ _ _ _ (mapSkips_rel _ h)

/-! ## Requests -/

omit hS hV in
/-- related requests -/
def ReqRel (P : Nat → Nat → α → β → Prop) (E : Nat → Nat → Prop) (off : Nat → Nat) (r : ChannelRequest α) (r' : ChannelRequest β) : Prop :=
  r.channelIndex = r'.channelIndex ∧ r.slot = r'.slot ∧ r.skip = r'.skip ∧ Cells (P r.slot) (E r.slot) (off r.slot) r.output r'.output

omit hV in
theorem validateTypes_rel (channels : List RawDataMeta) : ∀ {rs : List (ChannelRequest α)} {rs' : List (ChannelRequest β)},
    All2 (ReqRel P E off) rs rs' → validateTypes S channels rs = validateTypes T channels rs'
  | [], [], _ => rfl
  | r :: rs, r' :: rs', h => by
    unfold validateTypes
    rw [h.1.1, hS.supported, hS.natural, validateTypes_rel channels h.2]

omit hS hV in
theorem setReadable_rel : ∀ {rs : List (ChannelRequest α)} {rs' : List (ChannelRequest β)} {plan : List (RecordEntry α)}
    {plan' : List (RecordEntry β)}, All2 (ReqRel P E off) rs rs' → All2 (EntryRel P E off) plan plan' →
    ResRel bad (All2 (EntryRel P E off)) (setReadable plan rs) (setReadable plan' rs')
  | [], [], _, _, _, h => h
  | r :: rs, r' :: rs', plan, plan', h, hp => by
    obtain ⟨⟨h1, h2, h3, h4⟩, hrs⟩ := h
    unfold setReadable
    rw [← h1]
    rcases hp.getElem? r.channelIndex with ⟨a, b, ha, hb, hab⟩ | ⟨ha, hb⟩
    · rw [ha, hb]
      dsimp only
      refine setReadable_rel hrs (hp.set ?_ _)
      refine ⟨hab.1, h2, rfl, trivial, ?_⟩
      exact h4
    · rw [ha, hb]
      exact Or.inr rfl

omit hV in
theorem buildRecordPlan_rel (channels : List RawDataMeta) {rs : List (ChannelRequest α)} {rs' : List (ChannelRequest β)}
    (h : All2 (ReqRel P E off) rs rs') :
    ResRel bad (All2 (EntryRel P E off)) (buildRecordPlan S channels rs) (buildRecordPlan T channels rs') := by
  unfold buildRecordPlan
  rw [validateTypes_rel hS channels h]
  have hb : All2 (EntryRel P E off) (baseRecord channels : List (RecordEntry α)) (baseRecord channels : List (RecordEntry β)) := by
    unfold baseRecord
    exact All2.map (fun a b (hab : a = b) => by subst hab; exact ⟨rfl, rfl⟩) (All2.self (rel := fun a b => a = b) (fun _ => rfl) channels)
  cases validateTypes T channels rs' with
  | error e => exact Or.inr rfl
  | ok u => exact setReadable_rel h hb

omit hS hV in
theorem ResRel.fst {x : R ((Nat × List (RecordEntry α)) × Nat)} {y : R ((Nat × List (RecordEntry β)) × Nat)}
    (h : ResRel bad (fun u v => CountRel P E off u.1 v.1 ∧ u.2 = v.2) x y) :
    ResRel bad (CountRel P E off) (do let r ← x; return r.1) (do let r ← y; return r.1) :=
  h.bind (fun _ _ hab => hab.1)

theorem DataBlock.read_rel (f : Bytes) (b : DataBlock) {rs : List (ChannelRequest α)} {rs' : List (ChannelRequest β)}
    (h : All2 (ReqRel P E off) rs rs') : ResRel bad (CountRel P E off) (b.read S f rs) (b.read T f rs') := by
  unfold DataBlock.read
  refine (buildRecordPlan_rel hS b.channels h).bind (fun plan plan' hp => ?_)
  cases b.layout with
  | contigious => exact ResRel.fst (contigReadFrom_rel hS hV _ _ _ _ hp f 0)
  | interleaved => exact ResRel.fst (interRead_rel hS hV _ _ _ hp f 0)

theorem DataBlock.readWithSkip_rel (f : Bytes) (b : DataBlock) {rs : List (ChannelRequest α)} {rs' : List (ChannelRequest β)}
    (h : All2 (ReqRel P E off) rs rs') : ResRel bad (CountRel P E off) (b.readWithSkip S f rs) (b.readWithSkip T f rs') := by
  unfold DataBlock.readWithSkip
  rw [h.map_eq (f := (·.skip)) (g := (·.skip)) (fun _ _ hr => hr.2.2.1)]
  refine (buildRecordPlan_rel hS b.channels h).bind (fun plan plan' hp => ?_)
  cases b.layout with
  | contigious => exact ResRel.fst (contigReadSkip_rel hS hV _ _ _ _ hp f 0)
  | interleaved => exact ResRel.fst (interRead_rel hS hV _ _ _ (setSkips_rel hp) f 0)

/-! ## Executing a plan -/

omit hS hV in
/-- related outputs; the first has number `s` -/
def OutRel (P : Nat → Nat → α → β → Prop) (E : Nat → Nat → Prop) : Nat → List (Progress α) → List (Progress β) → Prop
  | _, [], [] => True
  | s, p :: ps, q :: qs => p.samplesRead = q.samplesRead ∧ Cells (P s) (E s) 0 p.output q.output ∧ OutRel P E (s + 1) ps qs
  | _, _, _ => False

omit hS hV in
/-- where the free part of the outputs starts; the first has number `s` -/
def Offsets (off : Nat → Nat) : Nat → List (Progress α) → Prop
  | _, [] => True
  | s, p :: ps => off s = min p.samplesRead p.output.length ∧ Offsets off (s + 1) ps

omit hS hV in
theorem Offsets.exists : ∀ (s : Nat) (ps : List (Progress α)), ∃ off, Offsets off s ps
  | _, [] => ⟨fun _ => 0, trivial⟩
  | s, p :: ps => by
    obtain ⟨off, h⟩ := Offsets.exists (s + 1) ps
    have : ∀ (ps : List (Progress α)) (s' : Nat), s < s' → Offsets off s' ps →
        Offsets (fun i => if i = s then min p.samplesRead p.output.length else off i) s' ps := by
      intro ps
      induction ps with
      | nil => intro _ _ _; trivial
      | cons p ps ih => intro s' hs' ho; exact ⟨by dsimp only; rw [if_neg (by omega)]; exact ho.1, ih _ (by omega) ho.2⟩
    refine ⟨fun i => if i = s then min p.samplesRead p.output.length else off i, ?_, this ps (s + 1) (by omega) h⟩
    exact if_pos rfl

omit hS hV in
theorem blockRequests_rel : ∀ {s : Nat} {plans : List (Option ChannelReadPlan)} {ps : List (Progress α)} {qs : List (Progress β)},
    OutRel P E s ps qs → Offsets off s ps → All2 (ReqRel P E off) (blockRequests s plans ps) (blockRequests s plans qs)
  | _, [], _, _, _, _ => by unfold blockRequests; trivial
  | _, _ :: _, [], [], _, _ => by unfold blockRequests; trivial
  | s, none :: plans, p :: ps, q :: qs, h, ho => blockRequests_rel (plans := plans) h.2.2 ho.2
  | s, some plan :: plans, p :: ps, q :: qs, h, ho => by
    obtain ⟨h1, h2, h3⟩ := h
    have hc : p.isComplete = q.isComplete := by
      unfold Progress.isComplete
      rw [h1, h2.length]
    unfold blockRequests
    rw [← hc]
    cases hcc : p.isComplete with
    | true => exact blockRequests_rel h3 ho.2
    | false =>
      refine ⟨⟨rfl, rfl, rfl, ?_⟩, blockRequests_rel h3 ho.2⟩
      have hlt : p.samplesRead ≤ p.output.length := by
        unfold Progress.isComplete at hcc
        have := of_decide_eq_false hcc
        omega
      dsimp only
      rw [ho.1, ← h1, Nat.min_eq_left hlt]
      have := h2.drop p.samplesRead hlt
      rw [Nat.zero_add] at this
      exact this

omit hS hV in
theorem planOutputs_rel : ∀ {plan : List (RecordEntry α)} {plan' : List (RecordEntry β)}, All2 (EntryRel P E off) plan plan' →
    All2 (fun x y => x.1 = y.1 ∧ Cells (P x.1) (E x.1) (off x.1) x.2 y.2) (planOutputs plan) (planOutputs plan')
  | [], [], _ => trivial
  | ⟨len, pl⟩ :: rest, ⟨len', pl'⟩ :: rest', h => by
    obtain ⟨⟨h1, h2⟩, h3⟩ := h
    have ih := planOutputs_rel h3
    unfold planOutputs at ih ⊢
    cases pl with
    | skip b =>
      cases pl' with
      | skip b' => exact ih
      | read s jt k => exact h2.elim
    | read s it k =>
      cases pl' with
      | skip b' => exact h2.elim
      | read s' jt k' =>
        obtain ⟨rfl, _, hit⟩ := h2
        exact ⟨⟨rfl, hit.1.append hit.2⟩, ih⟩

omit hS hV in
theorem lookup_rel (s : Nat) : ∀ {xs : List (Nat × List α)} {ys : List (Nat × List β)},
    All2 (fun x y => x.1 = y.1 ∧ Cells (P x.1) (E x.1) (off x.1) x.2 y.2) xs ys →
    (∃ a b, xs.lookup s = some a ∧ ys.lookup s = some b ∧ Cells (P s) (E s) (off s) a b) ∨
      (xs.lookup s = none ∧ ys.lookup s = none)
  | [], [], _ => Or.inr ⟨rfl, rfl⟩
  | (i, a) :: xs, (j, b) :: ys, h => by
    obtain ⟨⟨h1, h2⟩, h3⟩ := h
    dsimp only at h1 h2
    subst h1
    by_cases hs : s = i
    · subst hs
      exact Or.inl ⟨a, b, by simp, by simp, h2⟩
    · have : (s == i) = false := by simp [hs]
      rw [List.lookup_cons, List.lookup_cons, this]
      exact lookup_rel s h3

omit hS hV in
theorem storeOutputs_rel {xs : List (Nat × List α)} {ys : List (Nat × List β)}
    (h : All2 (fun x y => x.1 = y.1 ∧ Cells (P x.1) (E x.1) (off x.1) x.2 y.2) xs ys) : ∀ {s : Nat} {ps : List (Progress α)}
    {qs : List (Progress β)}, OutRel P E s ps qs → Offsets off s ps →
    OutRel P E s (storeOutputs xs s ps) (storeOutputs ys s qs)
  | _, [], [], _, _ => trivial
  | s, p :: ps, q :: qs, hr, ho => by
    obtain ⟨h1, h2, h3⟩ := hr
    refine ⟨?_, ?_, storeOutputs_rel h h3 ho.2⟩
    · rcases lookup_rel s h with ⟨a, b, ha, hb, _⟩ | ⟨ha, hb⟩
      · rw [ha, hb]; exact h1
      · rw [ha, hb]; exact h1
    · rcases lookup_rel s h with ⟨a, b, ha, hb, hab⟩ | ⟨ha, hb⟩
      · rw [ha, hb]
        dsimp only
        rw [← h1]
        refine (h2.take p.samplesRead).append ?_
        rw [Nat.zero_add, List.length_take, ← ho.1]
        exact hab
      · rw [ha, hb]; exact h2

omit hS hV in
theorem addSamples_rel (n : Nat) : ∀ {s : Nat} {plans : List (Option ChannelReadPlan)} {ps : List (Progress α)}
    {qs : List (Progress β)}, OutRel P E s ps qs → OutRel P E s (addSamples n plans ps) (addSamples n plans qs)
  | _, [], [], [], _ => by unfold addSamples; trivial
  | _, [], _ :: _, _ :: _, h => by unfold addSamples; exact h
  | _, _ :: _, [], [], _ => by unfold addSamples; trivial
  | s, plan :: plans, p :: ps, q :: qs, h => by
    obtain ⟨h1, h2, h3⟩ := h
    unfold addSamples
    refine ⟨?_, ?_, addSamples_rel n h3⟩
    · split
      · exact congrArg (· + n) h1
      · exact h1
    · split <;> exact h2

theorem executeBlock_rel (t : TdmsFile) (loc : BlockRead) {ps : List (Progress α)} {qs : List (Progress β)}
    (h : OutRel P E 0 ps qs) : ResRel bad (OutRel P E 0) (executeBlock S t loc ps) (executeBlock T t loc qs) := by
  obtain ⟨off, ho⟩ := Offsets.exists 0 ps
  have hreq := blockRequests_rel (plans := loc.channelIndexes) h ho
  unfold executeBlock
  dsimp only
  cases t.index.getDataBlock loc.dataBlock with
  | none => exact Or.inr rfl
  | some b =>
    dsimp only
    generalize hany : List.any loc.channelIndexes _ = anySkip
    have hres : ResRel bad (CountRel P E off)
        (if anySkip = true then b.readWithSkip S t.bytes (blockRequests 0 loc.channelIndexes ps)
          else b.read S t.bytes (blockRequests 0 loc.channelIndexes ps))
        (if anySkip = true then b.readWithSkip T t.bytes (blockRequests 0 loc.channelIndexes qs)
          else b.read T t.bytes (blockRequests 0 loc.channelIndexes qs)) := by
      cases anySkip
      · exact DataBlock.read_rel hS hV t.bytes b hreq
      · exact DataBlock.readWithSkip_rel hS hV t.bytes b hreq
    revert hres
    cases (if anySkip = true then b.readWithSkip S t.bytes (blockRequests 0 loc.channelIndexes ps)
          else b.read S t.bytes (blockRequests 0 loc.channelIndexes ps)) with
    | error e =>
      intro hres
      rcases hres with hres | hres
      · exact Or.inl hres
      · rw [hres]; exact Or.inr rfl
    | ok x =>
      cases (if anySkip = true then b.readWithSkip T t.bytes (blockRequests 0 loc.channelIndexes qs)
          else b.read T t.bytes (blockRequests 0 loc.channelIndexes qs)) with
      | error e => intro hres; exact hres.elim
      | ok y =>
        obtain ⟨n, plan⟩ := x
        obtain ⟨n', plan'⟩ := y
        rintro ⟨h1, h2⟩
        dsimp only at h1 h2 ⊢
        subst h1
        exact addSamples_rel n (storeOutputs_rel (planOutputs_rel h2) h ho)

omit hS hV in
theorem complete_rel : ∀ {s : Nat} {ps : List (Progress α)} {qs : List (Progress β)}, OutRel P E s ps qs →
    ps.all Progress.isComplete = qs.all Progress.isComplete
  | _, [], [], _ => rfl
  | _, p :: ps, q :: qs, h => by
    rw [List.all_cons, List.all_cons, complete_rel h.2.2]
    congr 1
    unfold Progress.isComplete
    rw [h.1, h.2.1.length]

theorem executePlan_rel (t : TdmsFile) : ∀ (plan : List BlockRead) {ps : List (Progress α)} {qs : List (Progress β)},
    OutRel P E 0 ps qs → ResRel bad (OutRel P E 0) (executePlan S t plan ps) (executePlan T t plan qs) := by
  intro plan
  induction plan with
  | nil => intro ps qs h; exact h
  | cons loc locs ih =>
    intro ps qs h
    have hb := executeBlock_rel hS hV t loc h
    unfold executePlan
    revert hb
    cases executeBlock S t loc ps with
    | error e =>
      intro hb
      rcases hb with hb | hb
      · exact Or.inl hb
      · rw [hb]; exact Or.inr rfl
    | ok ps' =>
      cases executeBlock T t loc qs with
      | error e => intro hb; exact hb.elim
      | ok qs' =>
        intro hb
        dsimp only
        rw [complete_rel hb]
        split
        · exact hb
        · exact ih hb

omit hS hV in
/-- related buffers; the first has number `s` -/
def BufRel (P : Nat → Nat → α → β → Prop) (E : Nat → Nat → Prop) : Nat → List (List α) → List (List β) → Prop
  | _, [], [] => True
  | s, o :: os, o' :: os' => Cells (P s) (E s) 0 o o' ∧ BufRel P E (s + 1) os os'
  | _, _, _ => False

omit hS hV in
theorem BufRel.start : ∀ {s : Nat} {os : List (List α)} {os' : List (List β)}, BufRel P E s os os' →
    OutRel P E s (os.map (fun o => ⟨o, 0⟩)) (os'.map (fun o => ⟨o, 0⟩))
  | _, [], [], _ => trivial
  | _, _ :: _, _ :: _, h => ⟨rfl, h.1, h.2.start⟩

omit hS hV in
theorem OutRel.finish : ∀ {s : Nat} {ps : List (Progress α)} {qs : List (Progress β)}, OutRel P E s ps qs →
    BufRel P E s (ps.map (·.output)) (qs.map (·.output))
  | _, [], [], _ => trivial
  | _, _ :: _, _ :: _, h => ⟨h.2.1, h.2.2.finish⟩

theorem readChannelsFrom_rel (t : TdmsFile) (cs : List ChannelPath) (start : Nat) {os : List (List α)} {os' : List (List β)}
    (h : BufRel P E 0 os os') :
    ResRel bad (BufRel P E 0) (t.readChannelsFrom S cs start os) (t.readChannelsFrom T cs start os') := by
  unfold TdmsFile.readChannelsFrom
  cases t.lookupPositions cs with
  | error e => exact Or.inr rfl
  | ok pos =>
    show ResRel bad _ ((readPlan pos start) >>= _) ((readPlan pos start) >>= _)
    cases readPlan pos start with
    | error e => exact Or.inr rfl
    | ok plan => exact (executePlan_rel hS hV t plan h.start).bind (fun ps qs hpq => hpq.finish)

end block
end Tedium
