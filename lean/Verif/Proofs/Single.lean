import Verif.Proofs.BlockValues
import Verif.Proofs.Mono

/-!
# Reading one channel

The readers of a block fill the cells of output slices. When one channel is read, what they do depends
only on the number of cells: here are the same readers as functions from that number to the values
delivered.
-/

namespace Tedium

theorem Rd.ext {α : Type} {x y : Rd α} (h : ∀ f p, x f p = y f p) : x = y := by
  funext f p; exact h f p

instance : LawfulMonad Rd := LawfulMonad.mk' Rd
  (id_map := by
    intro α x
    apply Rd.ext
    intro f p
    show Rd.bind x (fun a => Rd.pure a) f p = x f p
    unfold Rd.bind Rd.pure
    cases x f p <;> rfl)
  (pure_bind := by intro α β a k; rfl)
  (bind_assoc := by
    intro α β γ x k l
    apply Rd.ext
    intro f p
    show Rd.bind (Rd.bind x k) l f p = Rd.bind x (fun a => Rd.bind (k a) l) f p
    unfold Rd.bind
    cases x f p <;> rfl)

section
variable {α : Type} (S : Storage α) (e : Endian)

/-- Read `n` values. -/
def valuesRead : Nat → Rd (List α)
  | 0 => pure []
  | n + 1 => do
    let v ← S.read e
    let vs ← valuesRead n
    return v :: vs

theorem valuesRead_length (n : Nat) : ∀ {f : Bytes} {p q : Nat} {vs : List α},
    valuesRead S e n f p = .ok (vs, q) → vs.length = n := by
  induction n with
  | zero => intro f p q vs h; cases h; rfl
  | succ n ih =>
    intro f p q vs h
    unfold valuesRead at h
    rw [Rd.bind_eq] at h
    cases h1 : S.read e f p with
    | error er => rw [h1] at h; cases h
    | ok x =>
      rw [h1] at h
      dsimp only at h
      rw [Rd.bind_eq] at h
      cases h2 : valuesRead S e n f x.2 with
      | error er => rw [h2] at h; cases h
      | ok y =>
        rw [h2] at h
        cases h
        exact congrArg (· + 1) (ih h2)

theorem readValues_one (n : Nat) : ∀ it : OutIter α,
    readValues S e n it = do
      let vs ← valuesRead S e (min n it.rest.length)
      return (vs.length, ⟨it.done ++ vs, it.rest.drop vs.length⟩) := by
  induction n with
  | zero =>
    intro it
    rw [Nat.zero_min]
    show Rd.pure (0, it) = Rd.pure (0, (⟨it.done ++ [], it.rest⟩ : OutIter α))
    rw [List.append_nil]
  | succ n ih =>
    intro it
    obtain ⟨done, rest⟩ := it
    cases rest with
    | nil =>
      show Rd.pure (0, (⟨done, []⟩ : OutIter α)) = Rd.pure (0, (⟨done ++ [], []⟩ : OutIter α))
      rw [List.append_nil]
    | cons c cells =>
      show (do
        let v ← S.read e
        let x ← readValues S e n ⟨done ++ [v], cells⟩
        Pure.pure (x.1 + 1, x.2) : Rd (Nat × OutIter α)) = _
      have hmin : min (n + 1) (c :: cells).length = min n cells.length + 1 := by
        rw [List.length_cons]; omega
      dsimp only
      rw [hmin]
      unfold valuesRead
      simp only [ih, bind_assoc, pure_bind, List.append_assoc, List.singleton_append, List.length_cons,
        List.drop_succ_cons]

/-- `read_sequential_samples` into `cells` cells. -/
def seqOne (samples cells : Nat) : Rd (List α) := do
  let vs ← valuesRead S e (min samples cells)
  if samples - vs.length > 0 then
    let off ← Rd.lift (mulI64 (toI64 (samples - vs.length)) (toI64 S.memSize))
    Rd.move off
  return vs

theorem readSequential_one (samples : Nat) (it : OutIter α) :
    readSequential S e it samples = do
      let vs ← seqOne S e samples it.rest.length
      return (vs.length, ⟨it.done ++ vs, it.rest.drop vs.length⟩) := by
  unfold readSequential seqOne
  rw [readValues_one]
  simp only [bind_assoc, pure_bind]
  congr 1
  funext vs
  split <;> simp only [bind_assoc, pure_bind]

/-- The entries of channels that are not read. -/
def AllSkip (plan : List (RecordEntry α)) : Prop := ∀ en ∈ plan, ∃ b, en.plan = .skip b

/-- Move over the channels that are not read. -/
def skipAll : List (RecordEntry α) → Rd Unit
  | [] => pure ()
  | en :: rest => do
    let off ← Rd.lift (mulI64 (en.plan.sizeBytes S : Int) (toI64 en.length))
    Rd.move off
    skipAll rest

theorem readSubBlock_skips {plan : List (RecordEntry α)} (h : AllSkip plan) (l : Nat) :
    readSubBlock S e l plan = do
      skipAll S plan
      return (l, plan) := by
  induction plan with
  | nil => rfl
  | cons en rest ih =>
    obtain ⟨b, hb⟩ := h en List.mem_cons_self
    obtain ⟨len, pl⟩ := en
    dsimp only at hb
    subst hb
    unfold readSubBlock skipAll
    dsimp only [EntryPlan.sizeBytes]
    rw [ih (fun x hx => h x (List.mem_cons_of_mem _ hx))]
    simp only [bind_assoc, pure_bind]

/-- `read_sub_block` for one channel of `len` values, of which `skip` are left out, between channels that
    are not read. -/
def subOne (pre post : List (RecordEntry α)) (len skip cells : Nat) : Rd (List α) := do
  skipAll S pre
  if min skip len > 0 then
    let off ← Rd.lift (mulI64 (toI64 (min skip len)) (toI64 S.memSize))
    Rd.move off
  let vs ← seqOne S e (len - min skip len) cells
  skipAll S post
  return vs

/-- A plan in which one channel is read. -/
def onePlan (pre post : List (RecordEntry α)) (len slot skip : Nat) (it : OutIter α) : List (RecordEntry α) :=
  pre ++ ⟨len, .read slot it skip⟩ :: post

theorem readSubBlock_one {pre post : List (RecordEntry α)} (hpre : AllSkip pre) (hpost : AllSkip post)
    (len slot skip l : Nat) (it : OutIter α) :
    readSubBlock S e l (onePlan pre post len slot skip it) = do
      let vs ← subOne S e pre post len skip it.rest.length
      return (vs.length, onePlan pre post len slot skip ⟨it.done ++ vs, it.rest.drop vs.length⟩) := by
  induction pre with
  | nil =>
    unfold onePlan subOne
    rw [List.nil_append, show skipAll S ([] : List (RecordEntry α)) = pure () from rfl]
    unfold readSubBlock
    simp only [readSequential_one, readSubBlock_skips S e hpost, bind_assoc, pure_bind, List.nil_append]
    split <;> simp only [bind_assoc, pure_bind]
  | cons en rest ih =>
    obtain ⟨b, hb⟩ := hpre en List.mem_cons_self
    obtain ⟨len', pl⟩ := en
    dsimp only at hb
    subst hb
    have ih := ih (fun x hx => hpre x (List.mem_cons_of_mem _ hx))
    show readSubBlock S e l (⟨len', .skip b⟩ :: onePlan rest post len slot skip it) = _
    unfold readSubBlock
    dsimp only
    rw [ih]
    unfold subOne
    rw [skipAll]
    simp only [bind_assoc, pure_bind, EntryPlan.sizeBytes]
    rfl

theorem mapSkips_skips (g : Nat → Nat) {plan : List (RecordEntry α)} (h : AllSkip plan) : mapSkips g plan = plan := by
  induction plan with
  | nil => rfl
  | cons en rest ih =>
    obtain ⟨b, hb⟩ := h en List.mem_cons_self
    obtain ⟨len, pl⟩ := en
    dsimp only at hb
    subst hb
    show ⟨len, .skip b⟩ :: mapSkips g rest = _
    rw [ih (fun x hx => h x (List.mem_cons_of_mem _ hx))]

theorem mapSkips_one (g : Nat → Nat) {pre post : List (RecordEntry α)} (hpre : AllSkip pre) (hpost : AllSkip post)
    (len slot skip : Nat) (it : OutIter α) :
    mapSkips g (onePlan pre post len slot skip it) = onePlan pre post len slot (g skip) it := by
  unfold onePlan
  have happ : ∀ a b : List (RecordEntry α), mapSkips g (a ++ b) = mapSkips g a ++ mapSkips g b := fun a b => List.map_append
  rw [happ, mapSkips_skips g hpre]
  show pre ++ (⟨len, .read slot it (g skip)⟩ :: mapSkips g post) = _
  rw [mapSkips_skips g hpost]

/-- the loop of `read_from` for one channel -/
def contigOne (pre post : List (RecordEntry α)) (len bs toSkip remainder : Nat) :
    (remaining idx cells : Nat) → Rd (List α)
  | 0, _, _ => pure []
  | remaining + 1, idx, cells =>
    if idx < toSkip then do
      Rd.move (toI64 bs)
      contigOne pre post len bs toSkip remainder remaining (idx + 1) cells
    else do
      let vs ← subOne S e pre post len (if idx = toSkip then remainder else 0) cells
      let ws ← contigOne pre post len bs toSkip remainder remaining (idx + 1) (cells - vs.length)
      return vs ++ ws

/-- the skip that the loop leaves in the plan -/
def lastSkip (toSkip remainder : Nat) : (remaining idx skip : Nat) → Nat
  | 0, _, skip => skip
  | remaining + 1, idx, skip =>
    lastSkip toSkip remainder remaining (idx + 1)
      (if idx < toSkip then skip else if idx = toSkip then remainder else 0)

theorem contigLoop_one {pre post : List (RecordEntry α)} (hpre : AllSkip pre) (hpost : AllSkip post)
    (len slot bs toSkip remainder : Nat) : ∀ (remaining idx skip l : Nat) (it : OutIter α),
    contigLoop S e bs toSkip remainder remaining idx (onePlan pre post len slot skip it) l = (do
      let vs ← contigOne S e pre post len bs toSkip remainder remaining idx it.rest.length
      return (l + vs.length, onePlan pre post len slot (lastSkip toSkip remainder remaining idx skip)
        ⟨it.done ++ vs, it.rest.drop vs.length⟩)) := by
  intro remaining
  induction remaining with
  | zero =>
    intro idx skip l it
    show Rd.pure (l, onePlan pre post len slot skip it) =
      Rd.pure (l, onePlan pre post len slot skip (⟨it.done ++ [], it.rest⟩ : OutIter α))
    rw [List.append_nil]
  | succ remaining ih =>
    intro idx skip l it
    unfold contigLoop contigOne lastSkip
    by_cases h1 : idx < toSkip
    · simp only [if_pos h1, ih, bind_assoc]
    · by_cases h2 : idx = toSkip
      · simp only [if_neg h1, if_pos h2, mapSkips_one _ hpre hpost, readSubBlock_one S e hpre hpost, ih, bind_assoc, pure_bind,
          List.length_drop, List.length_append, List.drop_drop, List.append_assoc, Nat.add_assoc]
      · simp only [if_neg h1, if_neg h2, mapSkips_one _ hpre hpost, readSubBlock_one S e hpre hpost, ih, bind_assoc, pure_bind,
          List.length_drop, List.length_append, List.drop_drop, List.append_assoc, Nat.add_assoc]

/-! ### Interleaved blocks -/

/-- one row of the channels that are not read -/
def skipRow : List (RecordEntry α) → Rd Unit
  | [] => pure ()
  | en :: rest => do
    Rd.move (en.plan.sizeBytes S : Int)
    skipRow rest

theorem readRow_skips {plan : List (RecordEntry α)} (h : AllSkip plan) (row : Nat) (any : Bool) :
    readRow S e row any plan = do
      skipRow S plan
      return (any, plan) := by
  induction plan with
  | nil => rfl
  | cons en rest ih =>
    obtain ⟨b, hb⟩ := h en List.mem_cons_self
    obtain ⟨len, pl⟩ := en
    dsimp only at hb
    subst hb
    unfold readRow skipRow
    dsimp only [EntryPlan.sizeBytes]
    rw [ih (fun x hx => h x (List.mem_cons_of_mem _ hx))]
    simp only [bind_assoc, pure_bind]

/-- one row of which one value is read -/
def rowOne (pre post : List (RecordEntry α)) : Rd α := do
  skipRow S pre
  let v ← S.read e
  skipRow S post
  return v

theorem readRow_one {pre post : List (RecordEntry α)} (hpre : AllSkip pre) (hpost : AllSkip post)
    (len slot skip row : Nat) (it : OutIter α) :
    readRow S e row false (onePlan pre post len slot skip it) = do
      let v ← rowOne S e pre post
      return (if row ≥ skip ∧ it.rest ≠ [] then
          (true, onePlan pre post len slot skip ⟨it.done ++ [v], it.rest.drop 1⟩)
        else (false, onePlan pre post len slot skip it)) := by
  induction pre with
  | nil =>
    unfold onePlan rowOne
    rw [List.nil_append, show skipRow S ([] : List (RecordEntry α)) = pure () from rfl]
    unfold readRow
    simp only [readRow_skips S e hpost, bind_assoc, pure_bind, List.nil_append]
    congr 1
    funext v
    obtain ⟨done, rest⟩ := it
    by_cases h1 : row ≥ skip
    · cases rest with
      | nil => simp [h1]
      | cons c cells => simp [h1]
    · simp [h1]
  | cons en rest ih =>
    obtain ⟨b, hb⟩ := hpre en List.mem_cons_self
    obtain ⟨len', pl⟩ := en
    dsimp only at hb
    subst hb
    have ih := ih (fun x hx => hpre x (List.mem_cons_of_mem _ hx))
    show readRow S e row false (⟨len', .skip b⟩ :: onePlan rest post len slot skip it) = _
    unfold readRow
    dsimp only
    rw [ih]
    unfold rowOne
    rw [skipRow]
    simp only [bind_assoc, pure_bind, EntryPlan.sizeBytes]
    congr 1
    funext _
    congr 1
    funext _
    congr 1
    funext v
    congr 1
    funext _
    split <;> rfl

/-- the loop of the interleaved reader for one channel -/
def interOne (pre post : List (RecordEntry α)) (skip : Nat) : (remaining row cells : Nat) → Rd (List α)
  | 0, _, _ => pure []
  | remaining + 1, row, cells => do
    let v ← rowOne S e pre post
    if row ≥ skip ∧ cells ≠ 0 then
      let vs ← interOne pre post skip remaining (row + 1) (cells - 1)
      return v :: vs
    else return []

theorem interLoop_one {pre post : List (RecordEntry α)} (hpre : AllSkip pre) (hpost : AllSkip post)
    (len slot skip : Nat) : ∀ (remaining row k : Nat) (it : OutIter α),
    interLoop S e remaining row (onePlan pre post len slot skip it) k = (do
      let vs ← interOne S e pre post skip remaining row it.rest.length
      return (k + vs.length, onePlan pre post len slot skip ⟨it.done ++ vs, it.rest.drop vs.length⟩)) := by
  intro remaining
  induction remaining with
  | zero =>
    intro row k it
    show Rd.pure (k, onePlan pre post len slot skip it) =
      Rd.pure (k, onePlan pre post len slot skip (⟨it.done ++ [], it.rest⟩ : OutIter α))
    rw [List.append_nil]
  | succ remaining ih =>
    intro row k it
    unfold interLoop interOne
    have hc : (it.rest ≠ []) ↔ (it.rest.length ≠ 0) := by simp
    simp only [readRow_one S e hpre hpost, bind_assoc, pure_bind, hc]
    congr 1
    funext v
    by_cases h : row ≥ skip ∧ it.rest.length ≠ 0
    · simp only [if_pos h, if_true, ih, bind_assoc, pure_bind, List.length_cons, List.drop_drop, List.length_drop,
        List.append_assoc, List.singleton_append]
      congr 1
      funext vs
      rw [show k + 1 + vs.length = k + (vs.length + 1) by omega, show 1 + vs.length = vs.length + 1 by omega]
    · simp only [if_neg h, pure_bind, Bool.false_eq_true, if_false]
      show (Pure.pure (k, onePlan pre post len slot skip it) : Rd _) =
        Pure.pure (k, onePlan pre post len slot skip (⟨it.done ++ [], it.rest⟩ : OutIter α))
      rw [List.append_nil]

/-! ### More cells -/

/-- `x` and `y` read into `cells` cells and into at least as many. If both succeed they deliver the same
    and end at the same position, or `x` fills its cells with the first values that `y` delivers. -/
def Ext (cells : Nat) (x y : Rd (List α)) : Prop :=
  ∀ f p vs q vs' q', x f p = .ok (vs, q) → y f p = .ok (vs', q') →
    vs.length ≤ cells ∧ ((vs = vs' ∧ q = q') ∨ (vs.length = cells ∧ vs = vs'.take cells))

/-- `x` delivers at most `cells` values. -/
def AtMost (cells : Nat) (x : Rd (List α)) : Prop := ∀ f p vs q, x f p = .ok (vs, q) → vs.length ≤ cells

theorem bind_ok {β γ : Type} {x : Rd β} {k : β → Rd γ} {f : Bytes} {p q : Nat} {c : γ}
    (h : (x >>= k) f p = .ok (c, q)) : ∃ b r, x f p = .ok (b, r) ∧ k b f r = .ok (c, q) := by
  rw [Rd.bind_eq] at h
  cases hx : x f p with
  | error er => rw [hx] at h; cases h
  | ok y => rw [hx] at h; exact ⟨y.1, y.2, rfl, h⟩

theorem Ext.before {β : Type} {cells : Nat} {m : Rd β} {x y : β → Rd (List α)} (h : ∀ b, Ext cells (x b) (y b)) :
    Ext cells (m >>= x) (m >>= y) := by
  intro f p vs q vs' q' h1 h2
  obtain ⟨b, r, hb, h1⟩ := bind_ok h1
  obtain ⟨b', r', hb', h2⟩ := bind_ok h2
  rw [hb] at hb'
  cases hb'
  exact h b f r vs q vs' q' h1 h2

theorem Ext.after {cells : Nat} {m : List α → Rd PUnit} {x y : Rd (List α)} (h : Ext cells x y) :
    Ext cells (do let vs ← x; m vs; return vs) (do let vs ← y; m vs; return vs) := by
  intro f p vs q vs' q' h1 h2
  obtain ⟨b, r, hb, h1⟩ := bind_ok h1
  obtain ⟨b', r', hb', h2⟩ := bind_ok h2
  obtain ⟨u, s, hu, h1⟩ := bind_ok h1
  obtain ⟨u', s', hu', h2⟩ := bind_ok h2
  cases h1
  cases h2
  obtain ⟨hle, h | h⟩ := h f p vs r vs' r' hb hb'
  · obtain ⟨rfl, rfl⟩ := h
    rw [hu] at hu'
    cases hu'
    exact ⟨hle, Or.inl ⟨rfl, rfl⟩⟩
  · exact ⟨hle, Or.inr h⟩

theorem AtMost.before {β : Type} {cells : Nat} {m : Rd β} {x : β → Rd (List α)} (h : ∀ b, AtMost cells (x b)) :
    AtMost cells (m >>= x) := by
  intro f p vs q h1
  obtain ⟨b, r, hb, h1⟩ := bind_ok h1
  exact h b f r vs q h1

theorem AtMost.after {cells : Nat} {m : List α → Rd PUnit} {x : Rd (List α)} (h : AtMost cells x) :
    AtMost cells (do let vs ← x; m vs; return vs) := by
  intro f p vs q h1
  obtain ⟨b, r, hb, h1⟩ := bind_ok h1
  obtain ⟨u, s, hu, h1⟩ := bind_ok h1
  cases h1
  exact h f p vs r hb

theorem valuesRead_add (a b : Nat) : valuesRead S e (a + b) = do
    let vs ← valuesRead S e a
    let ws ← valuesRead S e b
    return vs ++ ws := by
  induction a with
  | zero =>
    rw [Nat.zero_add]
    show _ = (do let vs ← (pure [] : Rd (List α)); let ws ← valuesRead S e b; return vs ++ ws)
    simp only [pure_bind, List.nil_append, bind_pure]
  | succ a ih =>
    have hs : ∀ n, valuesRead S e (n + 1) = (do let v ← S.read e; let vs ← valuesRead S e n; return v :: vs) :=
      fun _ => rfl
    rw [show a + 1 + b = (a + b) + 1 by omega, hs, hs]
    simp only [ih, bind_assoc, pure_bind, List.cons_append]

theorem seqOne_atMost (samples cells : Nat) : AtMost cells (seqOne S e samples cells) := by
  have : seqOne S e samples cells = (do
      let vs ← valuesRead S e (min samples cells)
      (if samples - vs.length > 0 then do
        let off ← Rd.lift (mulI64 (toI64 (samples - vs.length)) (toI64 S.memSize))
        Rd.move off
       else pure () : Rd PUnit)
      return vs) := by
    unfold seqOne
    congr 1
    funext vs
    split <;> simp only [bind_assoc, pure_bind]
  rw [this]
  apply AtMost.after
  intro f p vs q h
  have := valuesRead_length S e _ h
  omega

theorem seqOne_ext (samples cells cells' : Nat) (h : cells ≤ cells') :
    Ext cells (seqOne S e samples cells) (seqOne S e samples cells') := by
  by_cases hs : samples ≤ cells
  · intro f p vs q vs' q' h1 h2
    have hle := seqOne_atMost S e samples cells f p vs q h1
    unfold seqOne at h1 h2
    rw [Nat.min_eq_left hs] at h1
    rw [Nat.min_eq_left (Nat.le_trans hs h)] at h2
    rw [h1] at h2
    cases h2
    exact ⟨hle, Or.inl ⟨rfl, rfl⟩⟩
  · intro f p vs q vs' q' h1 h2
    have hle := seqOne_atMost S e samples cells f p vs q h1
    refine ⟨hle, Or.inr ?_⟩
    unfold seqOne at h1 h2
    obtain ⟨b, r, hb, h1⟩ := bind_ok h1
    obtain ⟨b', r', hb', h2⟩ := bind_ok h2
    have e1 : vs = b := by
      dsimp only at h1
      split at h1
      · obtain ⟨_, _, _, h1⟩ := bind_ok h1
        obtain ⟨_, _, _, h1⟩ := bind_ok h1
        cases h1; rfl
      · cases h1; rfl
    have e2 : vs' = b' := by
      dsimp only at h2
      split at h2
      · obtain ⟨_, _, _, h2⟩ := bind_ok h2
        obtain ⟨_, _, _, h2⟩ := bind_ok h2
        cases h2; rfl
      · cases h2; rfl
    subst e1 e2
    rw [Nat.min_eq_right (by omega)] at hb
    rw [show min samples cells' = cells + (min samples cells' - cells) by omega, valuesRead_add] at hb'
    obtain ⟨c, s, hc, hb'⟩ := bind_ok hb'
    rw [hb] at hc
    cases hc
    obtain ⟨d, s', hd, hb'⟩ := bind_ok hb'
    cases hb'
    have hlen := valuesRead_length S e _ hb
    exact ⟨hlen, by rw [← hlen, List.take_left]⟩

theorem subOne_eq (pre post : List (RecordEntry α)) (len skip cells : Nat) :
    subOne S e pre post len skip cells = (do
      skipAll S pre
      (if min skip len > 0 then do
        let off ← Rd.lift (mulI64 (toI64 (min skip len)) (toI64 S.memSize))
        Rd.move off
       else pure () : Rd PUnit)
      let vs ← seqOne S e (len - min skip len) cells
      (fun _ => skipAll S post) vs
      return vs) := by
  unfold subOne
  congr 1
  funext _
  split <;> simp only [bind_assoc, pure_bind]

theorem subOne_atMost (pre post : List (RecordEntry α)) (len skip cells : Nat) :
    AtMost cells (subOne S e pre post len skip cells) := by
  rw [subOne_eq]
  exact .before fun _ => .before fun _ => .after (seqOne_atMost S e _ _)

theorem subOne_ext (pre post : List (RecordEntry α)) (len skip cells cells' : Nat) (h : cells ≤ cells') :
    Ext cells (subOne S e pre post len skip cells) (subOne S e pre post len skip cells') := by
  rw [subOne_eq, subOne_eq]
  exact .before fun _ => .before fun _ => .after (seqOne_ext S e _ _ _ h)

theorem contigOne_atMost (pre post : List (RecordEntry α)) (len bs toSkip remainder : Nat) :
    ∀ remaining idx cells, AtMost cells (contigOne S e pre post len bs toSkip remainder remaining idx cells) := by
  intro remaining
  induction remaining with
  | zero => intro idx cells f p vs q h; cases h; exact Nat.zero_le _
  | succ remaining ih =>
    intro idx cells
    unfold contigOne
    split
    · exact .before fun _ => ih _ _
    · intro f p vs q h
      obtain ⟨b, r, hb, h⟩ := bind_ok h
      obtain ⟨c, s, hc, h⟩ := bind_ok h
      cases h
      have h1 := subOne_atMost S e _ _ _ _ _ _ _ _ _ hb
      have h2 := ih _ _ _ _ _ _ hc
      rw [List.length_append]
      omega

theorem contigOne_ext (pre post : List (RecordEntry α)) (len bs toSkip remainder : Nat) :
    ∀ remaining idx cells cells', cells ≤ cells' →
      Ext cells (contigOne S e pre post len bs toSkip remainder remaining idx cells)
        (contigOne S e pre post len bs toSkip remainder remaining idx cells') := by
  intro remaining
  induction remaining with
  | zero =>
    intro idx cells cells' h f p vs q vs' q' h1 h2
    cases h1; cases h2
    exact ⟨Nat.zero_le _, Or.inl ⟨rfl, rfl⟩⟩
  | succ remaining ih =>
    intro idx cells cells' h
    unfold contigOne
    split
    · exact .before fun _ => ih _ _ _ h
    · intro f p vs q vs' q' h1 h2
      obtain ⟨b, r, hb, h1⟩ := bind_ok h1
      obtain ⟨c, s, hc, h1⟩ := bind_ok h1
      obtain ⟨b', r', hb', h2⟩ := bind_ok h2
      obtain ⟨c', s', hc', h2⟩ := bind_ok h2
      cases h1; cases h2
      have l1 := contigOne_atMost S e _ _ _ _ _ _ _ _ _ _ _ _ _ hc
      obtain ⟨hle, ⟨rfl, rfl⟩ | ⟨hfull, htake⟩⟩ := subOne_ext S e pre post len _ cells cells' h f p b r b' r' hb hb'
      · obtain ⟨hle', ⟨rfl, rfl⟩ | ⟨hfull, htake⟩⟩ := ih (idx + 1) (cells - b.length) (cells' - b.length) (by omega) f r
          c q c' q' hc hc'
        · refine ⟨?_, Or.inl ⟨rfl, rfl⟩⟩
          rw [List.length_append]; omega
        · have hl : (b ++ c).length = cells := by rw [List.length_append]; omega
          refine ⟨Nat.le_of_eq hl, Or.inr ⟨hl, ?_⟩⟩
          rw [List.take_append, List.take_of_length_le hle, ← htake]
      · have hc0 : c = [] := List.length_eq_zero_iff.mp (by omega)
        subst hc0
        rw [List.append_nil]
        refine ⟨hle, Or.inr ⟨hfull, ?_⟩⟩
        rw [List.take_append_of_le_length, ← htake]
        have := congrArg List.length htake
        rw [List.length_take] at this
        omega

theorem interOne_atMost (pre post : List (RecordEntry α)) (skip : Nat) :
    ∀ remaining row cells, AtMost cells (interOne S e pre post skip remaining row cells) := by
  intro remaining
  induction remaining with
  | zero => intro row cells f p vs q h; cases h; exact Nat.zero_le _
  | succ remaining ih =>
    intro row cells f p vs q h
    unfold interOne at h
    obtain ⟨v, r, hv, h⟩ := bind_ok h
    split at h
    · obtain ⟨b, s, hb, h⟩ := bind_ok h
      cases h
      have := ih _ _ _ _ _ _ hb
      rw [List.length_cons]; omega
    · cases h; exact Nat.zero_le _

theorem interOne_ext (pre post : List (RecordEntry α)) (skip : Nat) :
    ∀ remaining row cells cells', cells ≤ cells' →
      Ext cells (interOne S e pre post skip remaining row cells) (interOne S e pre post skip remaining row cells') := by
  intro remaining
  induction remaining with
  | zero =>
    intro row cells cells' h f p vs q vs' q' h1 h2
    cases h1; cases h2
    exact ⟨Nat.zero_le _, Or.inl ⟨rfl, rfl⟩⟩
  | succ remaining ih =>
    intro row cells cells' h
    unfold interOne
    apply Ext.before
    intro v
    by_cases h0 : cells = 0
    · subst h0
      intro f p vs q vs' q' h1 h2
      rw [if_neg (by omega)] at h1
      cases h1
      exact ⟨Nat.le_refl _, Or.inr ⟨rfl, rfl⟩⟩
    · by_cases hrow : row ≥ skip
      · rw [if_pos ⟨hrow, h0⟩, if_pos ⟨hrow, by omega⟩]
        intro f p vs q vs' q' h1 h2
        obtain ⟨b, r, hb, h1⟩ := bind_ok h1
        obtain ⟨b', r', hb', h2⟩ := bind_ok h2
        cases h1; cases h2
        obtain ⟨hle, ⟨rfl, rfl⟩ | ⟨hfull, htake⟩⟩ := ih (row + 1) (cells - 1) (cells' - 1) (by omega) f p b q b' q' hb hb'
        · exact ⟨by rw [List.length_cons]; omega, Or.inl ⟨rfl, rfl⟩⟩
        · refine ⟨by rw [List.length_cons]; omega, Or.inr ⟨by rw [List.length_cons]; omega, ?_⟩⟩
          rw [show cells = cells - 1 + 1 by omega, List.take_succ_cons, ← htake]
      · rw [if_neg (fun hh => hrow hh.1), if_neg (fun hh => hrow hh.1)]
        intro f p vs q vs' q' h1 h2
        cases h1; cases h2
        exact ⟨Nat.zero_le _, Or.inl ⟨rfl, rfl⟩⟩

/-! ### A block -/

/-- The plan of a block when one of its channels is read. -/
theorem buildRecordPlan_one (channels : List RawDataMeta) (r : ChannelRequest α) :
    buildRecordPlan S channels [r] =
      match channels[r.channelIndex]? with
      | none => R.panic .indexOutOfBounds
      | some c =>
        if S.supported.contains c.dataType then
          .ok (onePlan (baseRecord (channels.take r.channelIndex)) (baseRecord (channels.drop (r.channelIndex + 1)))
            c.numberOfValues r.slot 0 ⟨[], r.output⟩)
        else R.err (.dataTypeMismatch c.dataType S.natural) := by
  unfold buildRecordPlan validateTypes
  cases hc : channels[r.channelIndex]? with
  | none => rfl
  | some c =>
    dsimp only
    by_cases hs : S.supported.contains c.dataType = true
    · rw [if_pos hs, if_pos hs]
      have hlt : r.channelIndex < channels.length := (List.getElem?_eq_some_iff.mp hc).1
      have hce : channels[r.channelIndex] = c := (List.getElem?_eq_some_iff.mp hc).2
      have hget : (baseRecord channels : List (RecordEntry α))[r.channelIndex]?
          = some ⟨c.numberOfValues, .skip c.dataType.size⟩ := by
        unfold baseRecord
        rw [List.getElem?_map, hc]
        rfl
      show setReadable (baseRecord channels) [r] = _
      unfold setReadable
      rw [hget]
      dsimp only
      unfold setReadable onePlan
      rw [List.set_eq_take_append_cons_drop, if_pos (by unfold baseRecord; rw [List.length_map]; exact hlt)]
      unfold baseRecord
      rw [List.map_take, List.map_drop]
    · rw [if_neg hs, if_neg hs]
      rfl

theorem baseRecord_skips (channels : List RawDataMeta) : AllSkip (baseRecord channels : List (RecordEntry α)) := by
  intro en hen
  unfold baseRecord at hen
  obtain ⟨c, _, rfl⟩ := List.mem_map.mp hen
  exact ⟨_, rfl⟩

theorem blockSkips_skips {plan : List (RecordEntry α)} (h : AllSkip plan) : blockSkips plan = [] := by
  unfold blockSkips
  rw [List.filterMap_eq_nil_iff]
  intro en hen
  obtain ⟨b, hb⟩ := h en hen
  rw [hb]

theorem blockSkips_one {pre post : List (RecordEntry α)} (hpre : AllSkip pre) (hpost : AllSkip post)
    (len slot skip : Nat) (it : OutIter α) : blockSkips (onePlan pre post len slot skip it) = [skip] := by
  have h1 := blockSkips_skips hpre
  have h2 := blockSkips_skips hpost
  unfold blockSkips at h1 h2 ⊢
  unfold onePlan
  rw [List.filterMap_append, h1, List.filterMap_cons, h2]
  rfl

theorem setSkips_skips (ss : List Nat) {plan : List (RecordEntry α)} (h : AllSkip plan) : setSkips ss plan = plan := by
  induction plan generalizing ss with
  | nil => unfold setSkips; rfl
  | cons en rest ih =>
    obtain ⟨b, hb⟩ := h en List.mem_cons_self
    obtain ⟨len, pl⟩ := en
    dsimp only at hb
    subst hb
    cases ss with
    | nil => exact setSkips_nil _
    | cons s ss =>
      unfold setSkips
      dsimp only
      rw [ih _ (fun x hx => h x (List.mem_cons_of_mem _ hx))]

theorem setSkips_one {pre post : List (RecordEntry α)} (hpre : AllSkip pre)
    (len slot skip s : Nat) (it : OutIter α) :
    setSkips [s] (onePlan pre post len slot skip it) = onePlan pre post len slot s it := by
  induction pre with
  | nil =>
    unfold onePlan
    rw [List.nil_append, List.nil_append]
    unfold setSkips
    dsimp only
    rw [setSkips_nil]
  | cons en rest ih =>
    obtain ⟨b, hb⟩ := hpre en List.mem_cons_self
    obtain ⟨len', pl⟩ := en
    dsimp only at hb
    subst hb
    show setSkips [s] (⟨len', .skip b⟩ :: onePlan rest post len slot skip it) = ⟨len', .skip b⟩ :: onePlan rest post len slot s it
    unfold setSkips
    dsimp only
    rw [ih (fun x hx => hpre x (List.mem_cons_of_mem _ hx))]

theorem planOutputs_one {pre post : List (RecordEntry α)} (hpre : AllSkip pre) (hpost : AllSkip post)
    (len slot skip : Nat) (it : OutIter α) :
    planOutputs (onePlan pre post len slot skip it) = [(slot, it.done ++ it.rest)] := by
  have key : ∀ {plan : List (RecordEntry α)}, AllSkip plan → planOutputs plan = [] := by
    intro plan h
    unfold planOutputs
    rw [List.filterMap_eq_nil_iff]
    intro en hen
    obtain ⟨b, hb⟩ := h en hen
    rw [hb]
  have h1 := key hpre
  have h2 := key hpost
  unfold planOutputs at h1 h2 ⊢
  unfold onePlan
  rw [List.filterMap_append, h1, List.filterMap_cons, h2]
  rfl

theorem sizes_one (pre post : List (RecordEntry α)) (len slot skip : Nat) (it : OutIter α) :
    (onePlan pre post len slot skip it).map (fun en => en.plan.sizeBytes S * en.length)
      = (onePlan pre post len 0 0 ⟨[], []⟩).map (fun en => en.plan.sizeBytes S * en.length) ∧
    (onePlan pre post len slot skip it).map (fun en => en.plan.sizeBytes S)
      = (onePlan pre post len 0 0 ⟨[], []⟩).map (fun en => en.plan.sizeBytes S) := by
  unfold onePlan
  simp only [List.map_append, List.map_cons]
  exact ⟨rfl, rfl⟩

theorem firstLength_one (pre post : List (RecordEntry α)) (len slot skip : Nat) (it : OutIter α) :
    firstLength (onePlan pre post len slot skip it) = firstLength (onePlan pre post len 0 0 ⟨[], []⟩) := by
  cases pre <;> rfl

/-- Reading one channel of a contiguous block, from sample `skip`, into `cells` cells. -/
def contigBlockOne (start size : Nat) (pre post : List (RecordEntry α)) (len skip cells : Nat) : Rd (List α) := do
  Rd.seek start
  let bs ← Rd.lift (blockSize S (onePlan pre post len 0 0 ⟨[], []⟩))
  let total ← Rd.lift (divR size bs)
  let sub ← Rd.lift (firstLength (onePlan pre post len 0 0 ⟨[], []⟩))
  let toSkip ← Rd.lift (divR skip sub)
  contigOne S e pre post len bs toSkip (skip % sub) total 0 cells

theorem contigReadFrom_one (start size : Nat) {pre post : List (RecordEntry α)} (hpre : AllSkip pre)
    (hpost : AllSkip post) (len slot k skip : Nat) (it : OutIter α) :
    (do let r ← contigReadFrom S e start size (onePlan pre post len slot k it) skip
        return (r.1, planOutputs r.2)) = (do
      let vs ← contigBlockOne S e start size pre post len skip it.rest.length
      return (vs.length, [(slot, it.done ++ vs ++ it.rest.drop vs.length)])) := by
  unfold contigReadFrom contigBlockOne
  have hb : blockSize S (onePlan pre post len slot k it) = blockSize S (onePlan pre post len 0 0 ⟨[], []⟩) := by
    unfold blockSize; rw [(sizes_one S pre post len slot k it).1]
  rw [hb, firstLength_one]
  simp only [bind_assoc, pure_bind, contigLoop_one S e hpre hpost, planOutputs_one hpre hpost, Nat.zero_add]

theorem contigReadSkip_one (start size : Nat) {pre post : List (RecordEntry α)} (hpre : AllSkip pre)
    (hpost : AllSkip post) (len slot k skip : Nat) (it : OutIter α) :
    contigReadSkip S e start size (onePlan pre post len slot k it) [skip]
      = contigReadFrom S e start size (onePlan pre post len slot k it) skip := by
  unfold contigReadFrom contigReadSkip
  congr 1
  funext _
  congr 1
  funext bs
  congr 1
  funext total
  congr 1
  funext sub
  apply Rd.ext
  intro f p
  have hdiv : divAll sub [skip] = (divR skip sub).map (fun x => [x]) := by
    show (do return (← divR skip sub) :: (← (.ok [] : R (List Nat)))) = _
    cases divR skip sub <;> rfl
  rw [hdiv]
  cases divR skip sub with
  | error er => rfl
  | ok x =>
    exact contigSkipLoop_uniform e f bs x (skip % sub) 1 total 0 _ 0 p (by rw [blockSkips_one hpre hpost]; rfl)

/-- Reading one channel of an interleaved block, from row `skip`, into `cells` cells. -/
def interBlockOne (start size : Nat) (pre post : List (RecordEntry α)) (len skip cells : Nat) : Rd (List α) := do
  Rd.seek start
  let total ← Rd.lift (divR size (rowSize S (onePlan pre post len 0 0 ⟨[], []⟩)))
  if skip > 0 then
    let off ← Rd.lift (mulI64 (toI64 skip) (toI64 (rowSize S (onePlan pre post len 0 0 ⟨[], []⟩))))
    Rd.move off
  interOne S e pre post 0 (total - skip) 0 cells

theorem interRead_one (start size : Nat) {pre post : List (RecordEntry α)} (hpre : AllSkip pre)
    (hpost : AllSkip post) (len slot skip : Nat) (it : OutIter α) :
    (do let r ← interRead S e start size (onePlan pre post len slot skip it)
        return (r.1, planOutputs r.2)) = (do
      let vs ← interBlockOne S e start size pre post len skip it.rest.length
      return (vs.length, [(slot, it.done ++ vs ++ it.rest.drop vs.length)])) := by
  unfold interRead interBlockOne
  have hb : rowSize S (onePlan pre post len slot skip it) = rowSize S (onePlan pre post len 0 0 ⟨[], []⟩) := by
    unfold rowSize; rw [(sizes_one S pre post len slot skip it).2]
  rw [hb, blockSkips_one hpre hpost]
  show (do
    let r ← (do
      Rd.seek start
      let total ← Rd.lift (divR size (rowSize S (onePlan pre post len 0 0 ⟨[], []⟩)))
      if skip > 0 then do
        let off ← Rd.lift (mulI64 (toI64 skip) (toI64 (rowSize S (onePlan pre post len 0 0 ⟨[], []⟩))))
        Rd.move off
        interLoop S e (total - skip) 0 (mapSkips (fun s => s - skip) (onePlan pre post len slot skip it)) 0
      else interLoop S e (total - skip) 0 (mapSkips (fun s => s - skip) (onePlan pre post len slot skip it)) 0)
    return (r.1, planOutputs r.2)) = _
  rw [mapSkips_one _ hpre hpost, Nat.sub_self]
  by_cases hs : skip > 0
  · simp only [if_pos hs, bind_assoc, pure_bind, interLoop_one S e hpre hpost, planOutputs_one hpre hpost, Nat.zero_add]
  · simp only [if_neg hs, bind_assoc, pure_bind, interLoop_one S e hpre hpost, planOutputs_one hpre hpost, Nat.zero_add]

/-- Reading one channel of a block: what is delivered into `cells` cells. -/
def blockOne (f : Bytes) (b : DataBlock) (idx skip cells : Nat) : R (List α) :=
  match b.channels[idx]? with
  | none => R.panic .indexOutOfBounds
  | some c =>
    if S.supported.contains c.dataType then
      let pre := baseRecord (b.channels.take idx)
      let post := baseRecord (b.channels.drop (idx + 1))
      match b.layout with
      | .contigious => (contigBlockOne S b.byteOrder b.start b.length pre post c.numberOfValues skip cells f 0).map (·.1)
      | .interleaved => (interBlockOne S b.byteOrder b.start b.length pre post c.numberOfValues skip cells f 0).map (·.1)
    else R.err (.dataTypeMismatch c.dataType S.natural)

theorem rd_run {β γ : Type} {x : Rd β} {y : Rd γ} {g : β → γ} (h : (do let r ← x; return g r) = y) (f : Bytes) (p : Nat) :
    ((x f p).map (·.1)).map g = (y f p).map (·.1) := by
  rw [← h, Rd.bind_eq]
  cases x f p <;> rfl

theorem rd_run' {β γ : Type} (y : Rd β) (g : β → γ) (f : Bytes) (p : Nat) :
    ((do let r ← y; return g r : Rd γ) f p).map (·.1) = ((y f p).map (·.1)).map g := by
  rw [Rd.bind_eq]
  cases y f p <;> rfl

theorem read_one (f : Bytes) (b : DataBlock) (r : ChannelRequest α) :
    (b.read S f [r]).map (fun x => (x.1, planOutputs x.2)) =
      (blockOne S f b r.channelIndex 0 r.output.length).map
        (fun vs => (vs.length, [(r.slot, vs ++ r.output.drop vs.length)])) := by
  unfold DataBlock.read blockOne
  rw [buildRecordPlan_one]
  cases b.channels[r.channelIndex]? with
  | none => rfl
  | some c =>
    dsimp only
    by_cases hs : S.supported.contains c.dataType = true
    · rw [if_pos hs, if_pos hs]
      have h1 := baseRecord_skips (α := α) (b.channels.take r.channelIndex)
      have h2 := baseRecord_skips (α := α) (b.channels.drop (r.channelIndex + 1))
      cases b.layout with
      | contigious =>
        have := rd_run (contigReadFrom_one S b.byteOrder b.start b.length h1 h2 c.numberOfValues r.slot 0 0 ⟨[], r.output⟩) f 0
        rw [rd_run'] at this
        refine Eq.trans ?_ this
        show Except.map _ (Except.bind _ _) = _
        dsimp only [Except.bind]
        cases contigReadFrom S b.byteOrder b.start b.length _ 0 f 0 <;> rfl
      | interleaved =>
        have := rd_run (interRead_one S b.byteOrder b.start b.length h1 h2 c.numberOfValues r.slot 0 ⟨[], r.output⟩) f 0
        rw [rd_run'] at this
        refine Eq.trans ?_ this
        show Except.map _ (Except.bind _ _) = _
        dsimp only [Except.bind]
        cases interRead S b.byteOrder b.start b.length _ f 0 <;> rfl
    · rw [if_neg hs, if_neg hs]
      rfl

theorem readWithSkip_one (f : Bytes) (b : DataBlock) (r : ChannelRequest α) :
    (b.readWithSkip S f [r]).map (fun x => (x.1, planOutputs x.2)) =
      (blockOne S f b r.channelIndex r.skip r.output.length).map
        (fun vs => (vs.length, [(r.slot, vs ++ r.output.drop vs.length)])) := by
  unfold DataBlock.readWithSkip blockOne
  rw [buildRecordPlan_one]
  cases b.channels[r.channelIndex]? with
  | none => rfl
  | some c =>
    dsimp only
    by_cases hs : S.supported.contains c.dataType = true
    · rw [if_pos hs, if_pos hs]
      have h1 := baseRecord_skips (α := α) (b.channels.take r.channelIndex)
      have h2 := baseRecord_skips (α := α) (b.channels.drop (r.channelIndex + 1))
      cases b.layout with
      | contigious =>
        have := rd_run (contigReadFrom_one S b.byteOrder b.start b.length h1 h2 c.numberOfValues r.slot 0 r.skip ⟨[], r.output⟩) f 0
        rw [rd_run', ← contigReadSkip_one S b.byteOrder b.start b.length h1 h2] at this
        refine Eq.trans ?_ this
        show Except.map _ (Except.bind _ _) = _
        dsimp only [List.map, Except.bind]
        cases contigReadSkip S b.byteOrder b.start b.length _ _ f 0 <;> rfl
      | interleaved =>
        have := rd_run (interRead_one S b.byteOrder b.start b.length h1 h2 c.numberOfValues r.slot r.skip ⟨[], r.output⟩) f 0
        rw [rd_run'] at this
        refine Eq.trans ?_ this
        show Except.map _ (Except.bind _ _) = _
        dsimp only [List.map, Except.bind]
        rw [setSkips_one h1]
        cases interRead S b.byteOrder b.start b.length _ f 0 <;> rfl
    · rw [if_neg hs, if_neg hs]
      rfl

theorem contigBlockOne_ext (start size : Nat) (pre post : List (RecordEntry α)) (len skip : Nat) {cells cells' : Nat}
    (h : cells ≤ cells') : Ext cells (contigBlockOne S e start size pre post len skip cells)
      (contigBlockOne S e start size pre post len skip cells') := by
  unfold contigBlockOne
  exact .before fun _ => .before fun _ => .before fun _ => .before fun _ => .before fun _ => contigOne_ext S e _ _ _ _ _ _ _ _ _ _ h

theorem interBlockOne_ext (start size : Nat) (pre post : List (RecordEntry α)) (len skip : Nat) {cells cells' : Nat}
    (h : cells ≤ cells') : Ext cells (interBlockOne S e start size pre post len skip cells)
      (interBlockOne S e start size pre post len skip cells') := by
  unfold interBlockOne
  refine .before fun _ => .before fun _ => ?_
  split
  · exact .before fun _ => .before fun _ => interOne_ext S e _ _ _ _ _ _ _ h
  · exact interOne_ext S e _ _ _ _ _ _ _ h

theorem blockOne_ext {f : Bytes} {b : DataBlock} {idx skip cells cells' : Nat} (h : cells ≤ cells') {vs vs' : List α}
    (h1 : blockOne S f b idx skip cells = .ok vs) (h2 : blockOne S f b idx skip cells' = .ok vs') :
    vs.length ≤ cells ∧ (vs = vs' ∨ (vs.length = cells ∧ vs = vs'.take cells)) := by
  unfold blockOne at h1 h2
  cases hc : b.channels[idx]? with
  | none => rw [hc] at h1; cases h1
  | some c =>
    rw [hc] at h1 h2
    dsimp only at h1 h2
    split at h1
    · rename_i hs
      rw [if_pos hs] at h2
      have key : ∀ {x y : Rd (List α)}, Ext cells x y → (x f 0).map (·.1) = .ok vs → (y f 0).map (·.1) = .ok vs' →
          vs.length ≤ cells ∧ (vs = vs' ∨ (vs.length = cells ∧ vs = vs'.take cells)) := by
        intro x y hext hx hy
        cases hx1 : x f 0 with
        | error er => rw [hx1] at hx; cases hx
        | ok a =>
          cases hy1 : y f 0 with
          | error er => rw [hy1] at hy; cases hy
          | ok a' =>
            rw [hx1] at hx; rw [hy1] at hy
            cases hx; cases hy
            obtain ⟨h, h' | h'⟩ := hext f 0 a.1 a.2 a'.1 a'.2 hx1 hy1
            · exact ⟨h, Or.inl h'.1⟩
            · exact ⟨h, Or.inr h'⟩
      cases hl : b.layout with
      | contigious => rw [hl] at h1 h2; exact key (contigBlockOne_ext S _ _ _ _ _ _ _ h) h1 h2
      | interleaved => rw [hl] at h1 h2; exact key (interBlockOne_ext S _ _ _ _ _ _ _ h) h1 h2
    · cases h1

/-! ## No request -/

theorem planOutputs_skips {plan : List (RecordEntry α)} (h : AllSkip plan) : planOutputs plan = [] := by
  unfold planOutputs
  rw [List.filterMap_eq_nil_iff]
  intro en hen
  obtain ⟨b, hb⟩ := h en hen
  rw [hb]

/-- Whatever the read returns, its plan reads nothing. -/
def Idle (x : Rd (Nat × List (RecordEntry α))) : Prop := ∀ f p a q, x f p = .ok (a, q) → AllSkip a.2

theorem Idle.pure' {n : Nat} {plan : List (RecordEntry α)} (h : AllSkip plan) : Idle (Pure.pure (n, plan)) := by
  intro f p a q h'; cases h'; exact h

theorem Idle.bind' {β : Type} {x : Rd β} {k : β → Rd (Nat × List (RecordEntry α))} (h : ∀ b, Idle (k b)) :
    Idle (x >>= k) := by
  intro f p a q h'
  obtain ⟨b, p', _, h2⟩ := bind_ok h'
  exact h b f p' a q h2

theorem contigLoop_idle (bs toSkip remainder : Nat) {plan : List (RecordEntry α)} (h : AllSkip plan) :
    ∀ (n idx length : Nat), Idle (contigLoop S e bs toSkip remainder n idx plan length) := by
  intro n
  induction n with
  | zero => intro idx length; exact .pure' h
  | succ n ih =>
    intro idx length
    unfold contigLoop
    split
    · exact .bind' fun _ => ih _ _
    · split
      · rw [mapSkips_skips _ h, readSubBlock_skips S e h, bind_assoc]
        exact .bind' fun _ => by rw [pure_bind]; exact ih _ _
      · rw [mapSkips_skips _ h, readSubBlock_skips S e h, bind_assoc]
        exact .bind' fun _ => by rw [pure_bind]; exact ih _ _

theorem contigSkipLoop_idle (bs : Nat) (toSkip remainders : List Nat) {plan : List (RecordEntry α)} (h : AllSkip plan) :
    ∀ (n idx length : Nat), Idle (contigSkipLoop S e bs toSkip remainders n idx plan length) := by
  intro n
  induction n with
  | zero => intro idx length; exact .pure' h
  | succ n ih =>
    intro idx length
    unfold contigSkipLoop
    split
    · dsimp only
      rw [setSkips_skips _ h, readSubBlock_skips S e h, bind_assoc]
      exact .bind' fun _ => by rw [pure_bind]; exact ih _ _
    · exact .bind' fun _ => ih _ _

theorem interLoop_idle {plan : List (RecordEntry α)} (h : AllSkip plan) :
    ∀ (n row samples : Nat), Idle (interLoop S e n row plan samples) := by
  intro n
  induction n with
  | zero => intro row samples; exact .pure' h
  | succ n ih =>
    intro row samples
    unfold interLoop
    rw [readRow_skips S e h, bind_assoc]
    exact .bind' fun _ => by rw [pure_bind]; exact .pure' h

theorem interRead_idle (start size : Nat) {plan : List (RecordEntry α)} (h : AllSkip plan) :
    Idle (interRead S e start size plan) := by
  unfold interRead
  refine .bind' fun _ => .bind' fun _ => ?_
  dsimp only
  rw [mapSkips_skips _ h]
  split
  · exact .bind' fun _ => .bind' fun _ => interLoop_idle S e h _ _ _
  · exact interLoop_idle S e h _ _ _

theorem read_none {f : Bytes} {b : DataBlock} {r : Nat × List (RecordEntry α)} :
    (b.read S f [] = .ok r → planOutputs r.2 = []) ∧ (b.readWithSkip S f [] = .ok r → planOutputs r.2 = []) := by
  have hb := baseRecord_skips (α := α) b.channels
  have key : ∀ {x : Rd (Nat × List (RecordEntry α))}, Idle x → (x f 0).map (·.1) = .ok r → planOutputs r.2 = [] := by
    intro x hx h
    cases hx1 : x f 0 with
    | error er => rw [hx1] at h; cases h
    | ok a => rw [hx1] at h; cases h; exact planOutputs_skips (hx f 0 a.1 a.2 hx1)
  have conv : ∀ (x : Rd (Nat × List (RecordEntry α))), (do let r ← x f 0; return r.1 : R _) = (x f 0).map (·.1) := by
    intro x; cases x f 0 <;> rfl
  constructor
  · intro h
    unfold DataBlock.read at h
    change (match b.layout with
      | .contigious => (do let r ← contigReadFrom S b.byteOrder b.start b.length (baseRecord b.channels) 0 f 0; return r.1)
      | .interleaved => (do let r ← interRead S b.byteOrder b.start b.length (baseRecord b.channels) f 0; return r.1)) = _ at h
    revert h
    cases b.layout <;> dsimp only <;> rw [conv] <;> intro h
    · exact key (interRead_idle S _ _ _ hb) h
    · refine key ?_ h
      unfold contigReadFrom
      exact .bind' fun _ => .bind' fun _ => .bind' fun _ => .bind' fun _ => .bind' fun _ => contigLoop_idle S _ _ _ _ hb _ _ _
  · intro h
    unfold DataBlock.readWithSkip at h
    change (match b.layout with
      | .contigious => (do let r ← contigReadSkip S b.byteOrder b.start b.length (baseRecord b.channels) [] f 0; return r.1)
      | .interleaved => (do let r ← interRead S b.byteOrder b.start b.length (setSkips [] (baseRecord b.channels)) f 0; return r.1)) = _ at h
    revert h
    cases b.layout <;> dsimp only <;> rw [conv] <;> intro h
    · rw [setSkips_skips _ hb] at h
      exact key (interRead_idle S _ _ _ hb) h
    · refine key ?_ h
      unfold contigReadSkip
      exact .bind' fun _ => .bind' fun _ => .bind' fun _ => .bind' fun _ => .bind' fun _ =>
        contigSkipLoop_idle S _ _ _ _ hb _ _ _

/-! ## Plans for one channel -/

/-- The plan for one channel. -/
def planOne : List DataLocation → Nat → List BlockRead
  | [], _ => []
  | l :: ls, skip =>
    if skip ≥ l.numberOfSamples then planOne ls (skip - l.numberOfSamples)
    else ⟨l.dataBlock, [some ⟨l.channelIndex, skip⟩]⟩ :: planOne ls (skip - l.numberOfSamples)

theorem planLoop_one (ls : List DataLocation) : ∀ (skip fuel : Nat), ls.length < fuel →
    planLoop fuel [⟨ls, skip⟩] = .ok (planOne ls skip) := by
  induction ls with
  | nil => intro skip fuel h; cases fuel with
    | zero => cases h
    | succ fuel => rfl
  | cons l ls ih =>
    intro skip fuel h
    cases fuel with
    | zero => cases h
    | succ fuel =>
      have hn : nextBlock [⟨l :: ls, skip⟩] = some l.dataBlock := rfl
      unfold planLoop
      rw [hn]
      dsimp only [List.map, planChannel]
      rw [if_pos rfl]
      dsimp only
      rw [ih _ fuel (by simpa using h)]
      dsimp only
      have hp : planOne (l :: ls) skip = if skip ≥ l.numberOfSamples then planOne ls (skip - l.numberOfSamples)
        else ⟨l.dataBlock, [some ⟨l.channelIndex, skip⟩]⟩ :: planOne ls (skip - l.numberOfSamples) := rfl
      rw [hp]
      split <;> rfl

theorem readPlan_one (ls : List DataLocation) (start : Nat) : readPlan [ls] start = .ok (planOne ls start) := by
  unfold readPlan
  exact planLoop_one ls start _ (by simp)

/-- Reading one channel from its locations: what is delivered into `cells` cells. -/
def execOne (t : TdmsFile) : List DataLocation → Nat → Nat → R (List α)
  | [], _, _ => .ok []
  | l :: ls, skip, cells =>
    if skip ≥ l.numberOfSamples then execOne t ls (skip - l.numberOfSamples) cells
    else match t.index.getDataBlock l.dataBlock with
      | none => R.err (.dataBlockNotFound l.dataBlock)
      | some b =>
        match blockOne S t.bytes b l.channelIndex skip cells with
        | .error er => .error er
        | .ok vs =>
          if cells ≤ vs.length then .ok vs
          else (execOne t ls (skip - l.numberOfSamples) (cells - vs.length)).map (vs ++ ·)

theorem blockOne_le {f : Bytes} {b : DataBlock} {idx skip cells : Nat} {vs : List α}
    (h : blockOne S f b idx skip cells = .ok vs) : vs.length ≤ cells :=
  (blockOne_ext S (Nat.le_refl cells) h h).1

theorem executeBlock_one (t : TdmsFile) (blk idx skip k : Nat) (out : List α) (hk : k < out.length) :
    executeBlock S t ⟨blk, [some ⟨idx, skip⟩]⟩ [⟨out, k⟩] =
      match t.index.getDataBlock blk with
      | none => R.err (.dataBlockNotFound blk)
      | some b => (blockOne S t.bytes b idx skip (out.length - k)).map
          (fun vs => [⟨out.take k ++ vs ++ out.drop (k + vs.length), k + vs.length⟩]) := by
  unfold executeBlock
  dsimp only
  cases t.index.getDataBlock blk with
  | none => rfl
  | some b =>
    dsimp only
    have hreq : blockRequests 0 [some ⟨idx, skip⟩] [(⟨out, k⟩ : Progress α)]
        = [{ channelIndex := idx, slot := 0, output := out.drop k, skip := skip }] := by
      unfold blockRequests
      rw [if_neg (by unfold Progress.isComplete; simp; omega)]
      rfl
    rw [hreq]
    generalize hany : List.any [some (⟨idx, skip⟩ : ChannelReadPlan)] _ = anySkip
    have hany' : anySkip = decide (skip > 0) := by rw [← hany]; simp
    rw [hany']
    have key : (if decide (skip > 0) = true then b.readWithSkip S t.bytes [⟨idx, 0, out.drop k, skip⟩]
          else b.read S t.bytes [⟨idx, 0, out.drop k, skip⟩]).map (fun x => (x.1, planOutputs x.2)) =
        (blockOne S t.bytes b idx skip (out.length - k)).map
          (fun vs => (vs.length, [(0, vs ++ (out.drop k).drop vs.length)])) := by
      by_cases hs : skip > 0
      · rw [if_pos (by simpa using hs)]
        have := readWithSkip_one S t.bytes b ⟨idx, 0, out.drop k, skip⟩
        rw [List.length_drop] at this
        exact this
      · rw [if_neg (by simpa using hs)]
        have := read_one S t.bytes b ⟨idx, 0, out.drop k, skip⟩
        rw [List.length_drop] at this
        rw [show skip = 0 by omega]
        rw [show skip = 0 by omega] at this
        exact this
    revert key
    generalize (if decide (skip > 0) = true then b.readWithSkip S t.bytes [⟨idx, 0, out.drop k, skip⟩]
          else b.read S t.bytes [⟨idx, 0, out.drop k, skip⟩]) = x
    cases x with
    | error er =>
      cases blockOne S t.bytes b idx skip (out.length - k) with
      | error er' => intro h; cases h; rfl
      | ok vs => intro h; cases h
    | ok r =>
      cases blockOne S t.bytes b idx skip (out.length - k) with
      | error er' => intro h; cases h
      | ok vs =>
        intro h
        have h' := Except.ok.inj h
        obtain ⟨n, plan⟩ := r
        dsimp only at h'
        obtain ⟨rfl, h2⟩ := Prod.mk.inj h'
        dsimp only [Except.map]
        rw [h2]
        simp [storeOutputs, addSamples, List.append_assoc, List.drop_drop]

theorem executePlan_one (t : TdmsFile) (ls : List DataLocation) : ∀ (skip k : Nat) (out : List α), k < out.length →
    executePlan S t (planOne ls skip) [⟨out, k⟩] =
      (execOne S t ls skip (out.length - k)).map
        (fun vs => [⟨out.take k ++ vs ++ out.drop (k + vs.length), k + vs.length⟩]) := by
  induction ls with
  | nil =>
    intro skip k out hk
    show Except.ok _ = Except.ok _
    simp
  | cons l ls ih =>
    intro skip k out hk
    unfold planOne execOne
    split
    · exact ih _ _ _ hk
    · unfold executePlan
      rw [executeBlock_one S t _ _ _ _ _ hk]
      cases t.index.getDataBlock l.dataBlock with
      | none => rfl
      | some b =>
        dsimp only
        cases hb : blockOne S t.bytes b l.channelIndex skip (out.length - k) with
        | error er => rfl
        | ok vs =>
          have hle := blockOne_le S hb
          have hlen : (out.take k ++ vs ++ out.drop (k + vs.length)).length = out.length := by
            simp only [List.length_append, List.length_take, List.length_drop]; omega
          dsimp only [Except.map]
          by_cases hc : out.length - k ≤ vs.length
          · rw [if_pos hc, if_pos (by
              simp only [List.all_cons, List.all_nil, Bool.and_true]
              unfold Progress.isComplete
              simp only [hlen, ge_iff_le, decide_eq_true_eq]
              omega)]
          · rw [if_neg hc, if_neg (by
              simp only [List.all_cons, List.all_nil, Bool.and_true]
              unfold Progress.isComplete
              simp only [hlen, ge_iff_le, decide_eq_true_eq]
              omega)]
            rw [ih _ _ _ (by rw [hlen]; omega), hlen, show out.length - (k + vs.length) = out.length - k - vs.length by omega]
            have h1 : (out.take k ++ vs ++ out.drop (k + vs.length)).take (k + vs.length) = out.take k ++ vs := by
              rw [List.take_append_of_le_length (by simp only [List.length_append, List.length_take]; omega),
                List.take_of_length_le (by simp only [List.length_append, List.length_take]; omega)]
            have h2 : ∀ m, (out.take k ++ vs ++ out.drop (k + vs.length)).drop (k + vs.length + m) = out.drop (k + (vs.length + m)) := by
              intro m
              rw [List.drop_append, List.drop_eq_nil_of_le (by simp only [List.length_append, List.length_take]; omega),
                List.nil_append, List.drop_drop]
              congr 1
              simp only [List.length_append, List.length_take]
              omega
            cases execOne S t ls (skip - l.numberOfSamples) (out.length - k - vs.length) with
            | error er => rfl
            | ok ws =>
              dsimp only [Except.map]
              rw [h1, h2]
              simp only [List.length_append, List.append_assoc, Nat.add_assoc]

end
end Tedium
