import Verif.Proofs.Read
import Verif.Spec.Tame

/-! # Reads that do not panic -/

namespace Tedium
open PlanSpec

/-- `x` returns a value with `Q` or an error; it does not panic. -/
def R.Sat {α : Type} (x : R α) (Q : α → Prop) : Prop := (∃ a, x = .ok a ∧ Q a) ∨ ∃ e, x = R.err e

/-- the same for reading actions, whatever the file and the position -/
def Rd.Sat {α : Type} (x : Rd α) (Q : α → Prop) : Prop := ∀ f p, R.Sat (x f p) (fun r => Q r.1)

theorem R.Sat.bind {α β : Type} {x : R α} {k : α → R β} {P : α → Prop} {Q : β → Prop} (hx : R.Sat x P)
    (hk : ∀ a, P a → R.Sat (k a) Q) : R.Sat (x >>= k) Q := by
  rcases hx with ⟨a, rfl, ha⟩ | ⟨e, rfl⟩
  · exact hk a ha
  · exact Or.inr ⟨e, rfl⟩

namespace Rd.Sat
variable {α β : Type}

theorem bind {x : Rd α} {k : α → Rd β} {P : α → Prop} {Q : β → Prop} (hx : x.Sat P)
    (hk : ∀ a, P a → (k a).Sat Q) : Rd.Sat (x >>= k) Q := by
  intro f p
  rw [Rd.bind_eq]
  rcases hx f p with ⟨⟨a, q⟩, h, ha⟩ | ⟨e, h⟩
  · rw [h]; exact hk a ha f q
  · rw [h]; exact Or.inr ⟨e, rfl⟩

theorem pure {a : α} {Q : α → Prop} (h : Q a) : Rd.Sat (Pure.pure a : Rd α) Q := fun _ p => Or.inl ⟨(a, p), rfl, h⟩
theorem pure' {a : α} {Q : α → Prop} (h : Q a) : Rd.Sat (Rd.pure a) Q := fun _ p => Or.inl ⟨(a, p), rfl, h⟩
theorem fail {e : TdmsError} {Q : α → Prop} : Rd.Sat (Rd.fail e : Rd α) Q := fun _ _ => Or.inr ⟨e, rfl⟩
theorem lift {x : R α} {Q : α → Prop} (h : R.Sat x Q) : Rd.Sat (Rd.lift x) Q := by
  intro f p
  rcases h with ⟨a, rfl, ha⟩ | ⟨e, rfl⟩
  · exact Or.inl ⟨(a, p), rfl, ha⟩
  · exact Or.inr ⟨e, rfl⟩
theorem lift_ok {x : R α} {a : α} (h : x = .ok a) : Rd.Sat (Rd.lift x) (fun b => b = a) :=
  lift (Or.inl ⟨a, h, rfl⟩)
theorem move (off : Int) : Rd.Sat (Rd.move off) (fun _ => True) := by
  intro f p
  unfold Rd.move
  dsimp only
  split
  · exact Or.inr ⟨_, rfl⟩
  · exact Or.inl ⟨_, rfl, trivial⟩
theorem seek (n : Nat) : Rd.Sat (Rd.seek n) (fun _ => True) := fun _ _ => Or.inl ⟨_, rfl, trivial⟩
theorem exact (n : Nat) : Rd.Sat (Rd.exact n) (fun _ => True) := by
  intro f p
  unfold Rd.exact
  split
  · exact Or.inl ⟨_, rfl, trivial⟩
  · exact Or.inr ⟨_, rfl⟩
theorem ite {c : Prop} [Decidable c] {x y : Rd α} {Q : α → Prop} (hx : c → x.Sat Q) (hy : ¬ c → y.Sat Q) :
    Rd.Sat (if c then x else y) Q := by
  split
  · rename_i h; exact hx h
  · rename_i h; exact hy h
theorem uint (e : Endian) (w : Nat) : Rd.Sat (Rd.uint e w) (fun _ => True) :=
  (exact w).bind (fun _ _ => pure trivial)
end Rd.Sat

theorem STy.reads_sat (al : Alloc) (t : STy) (e : Endian) : Rd.Sat ((t.storage al).read e) (fun _ => True) := by
  have hnum : ∀ w n s, Rd.Sat ((numeric w n s).read e) (fun _ => True) := fun w n s =>
    (Rd.Sat.exact w).bind (fun _ _ => .pure trivial)
  cases t <;> first
    | exact hnum _ _ _
    | exact (hnum _ _ _).bind (fun _ _ => (hnum _ _ _).bind (fun _ _ => .pure trivial))
    | exact (Rd.Sat.exact _).bind (fun _ _ => .pure trivial)
    | skip
  · refine (Rd.Sat.exact 10).bind (fun b _ => ?_)
    cases e <;> exact .pure trivial
  · refine (Rd.Sat.uint e 4).bind (fun n _ => ?_)
    unfold readStringWithLength
    refine Rd.Sat.ite (fun _ => (Rd.Sat.exact n).bind (fun b _ => ?_)) (fun _ => .fail)
    cases utf8Dec b with
    | none => exact .fail
    | some t => exact .pure trivial

theorem STy.memSize_bounds (al : Alloc) (t : STy) : 0 < (t.storage al).memSize ∧ (t.storage al).memSize ≤ 24 := by
  cases t <;> exact ⟨Nat.zero_lt_succ _, by simp [STy.storage, numeric, boolStorage, extendedStorage,
    timestampStorage, complexStorage, stringStorage]⟩

theorem size_le (dt : DataType) : dt.size ≤ 24 := by cases dt <;> decide

section
variable {α : Type}

/-- A record plan with one entry per channel: as many values, and for channels that are skipped the
    size of their type. -/
def PlanFor : List RawDataMeta → List (RecordEntry α) → Prop
  | [], [] => True
  | m :: ms, en :: ens => en.length = m.numberOfValues ∧ (∀ b, en.plan = .skip b → b = m.dataType.size) ∧ PlanFor ms ens
  | _, _ => False

theorem PlanFor.length : ∀ {ms : List RawDataMeta} {plan : List (RecordEntry α)}, PlanFor ms plan →
    plan.length = ms.length
  | [], [], _ => rfl
  | _ :: _, _ :: _, h => by simp [PlanFor.length h.2.2]
  | [], _ :: _, h => h.elim
  | _ :: _, [], h => h.elim

theorem PlanFor.length_at : ∀ {ms : List RawDataMeta} {plan : List (RecordEntry α)}, PlanFor ms plan →
    ∀ {i : Nat} {en : RecordEntry α} {m : RawDataMeta}, plan[i]? = some en → ms[i]? = some m →
    en.length = m.numberOfValues
  | [], _, _, _, _, _, _, hm => by cases hm
  | _ :: _, [], h, _, _, _, _, _ => h.elim
  | m :: ms, en :: ens, h, i, en', m', h1, h2 => by
    cases i with
    | zero =>
      simp only [List.getElem?_cons_zero, Option.some.injEq] at h1 h2
      subst h1 h2
      exact h.1
    | succ i => exact PlanFor.length_at h.2.2 (by simpa using h1) (by simpa using h2)

theorem PlanFor.base (ms : List RawDataMeta) : PlanFor ms (baseRecord (α := α) ms) := by
  induction ms with
  | nil => trivial
  | cons m ms ih =>
    refine ⟨rfl, ?_, ih⟩
    intro b hb
    cases hb
    rfl

theorem PlanFor.set {ms : List RawDataMeta} {plan : List (RecordEntry α)} (h : PlanFor ms plan) {i : Nat}
    {en : RecordEntry α} (hi : plan[i]? = some en) (slot : Nat) (out : OutIter α) (k : Nat) :
    PlanFor ms (plan.set i { en with plan := .read slot out k }) := by
  induction ms generalizing plan i with
  | nil =>
    cases plan with
    | nil => simp at hi
    | cons _ _ => exact h.elim
  | cons m ms ih =>
    cases plan with
    | nil => exact h.elim
    | cons x xs =>
      cases i with
      | zero =>
        simp only [List.getElem?_cons_zero, Option.some.injEq] at hi
        subst hi
        exact ⟨h.1, (fun b hb => by cases hb), h.2.2⟩
      | succ i => exact ⟨h.1, h.2.1, ih h.2.2 (by simpa using hi)⟩

theorem PlanFor.mapSkips {g : Nat → Nat} {ms : List RawDataMeta} {plan : List (RecordEntry α)}
    (h : PlanFor ms plan) : PlanFor ms (Tedium.mapSkips g plan) := by
  induction ms generalizing plan with
  | nil => cases plan with | nil => trivial | cons _ _ => exact h.elim
  | cons m ms ih =>
    cases plan with
    | nil => exact h.elim
    | cons x xs =>
      have hx := ih h.2.2
      obtain ⟨len, pl⟩ := x
      cases pl with
      | skip b => exact ⟨h.1, h.2.1, hx⟩
      | read s o k => exact ⟨h.1, (fun b hb => by cases hb), hx⟩

theorem PlanFor.setSkips {ms : List RawDataMeta} {plan : List (RecordEntry α)} (ks : List Nat)
    (h : PlanFor ms plan) : PlanFor ms (Tedium.setSkips ks plan) := by
  induction ms generalizing plan ks with
  | nil => cases plan with | nil => cases ks <;> trivial | cons _ _ => exact h.elim
  | cons m ms ih =>
    cases plan with
    | nil => exact h.elim
    | cons x xs =>
      cases ks with
      | nil => exact h
      | cons k ks =>
        obtain ⟨len, pl⟩ := x
        cases pl with
        | skip b => exact ⟨h.1, h.2.1, ih (k :: ks) h.2.2⟩
        | read s o j => exact ⟨h.1, (fun b hb => by cases hb), ih ks h.2.2⟩

variable {S : Storage α}

/-- The conditions on the channels of a block. -/
def SmallChannels (ms : List RawDataMeta) : Prop := 24 * (ms.map (·.numberOfValues)).sum < 2 ^ 63

theorem mulI64_sat {a b : Nat} (h : a * b < 2 ^ 63) (ha : a < 2 ^ 63) (hb : b < 2 ^ 63) :
    R.Sat (mulI64 (toI64 a) (toI64 b)) (fun _ => True) := Or.inl ⟨_, mulI64_small h ha hb, trivial⟩

theorem readValues_sat (hS : ∀ e, Rd.Sat (S.read e) (fun _ => True)) (e : Endian) : ∀ (n : Nat) (it : OutIter α),
    Rd.Sat (readValues S e n it) (fun r => r.1 ≤ n) := by
  intro n
  induction n with
  | zero => intro it; exact .pure' (Nat.le_refl _)
  | succ n ih =>
    intro it
    unfold readValues
    split
    · exact .pure' (Nat.zero_le _)
    · refine (hS e).bind (fun v _ => (ih _).bind (fun r hr => .pure ?_))
      show r.1 + 1 ≤ n + 1
      omega

theorem readSequential_sat (hS : ∀ e, Rd.Sat (S.read e) (fun _ => True)) (hmem : S.memSize ≤ 24) (e : Endian)
    (out : OutIter α) (n : Nat) (hn : 24 * n < 2 ^ 63) :
    Rd.Sat (readSequential S e out n) (fun _ => True) := by
  unfold readSequential
  refine (readValues_sat hS e n out).bind (fun r _ => ?_)
  obtain ⟨length, out⟩ := r
  dsimp only
  refine Rd.Sat.ite (fun _ => ?_) (fun _ => .pure trivial)
  refine (Rd.Sat.lift (mulI64_sat ?_ (by omega) (by omega))).bind (fun _ _ => (Rd.Sat.move _).bind (fun _ _ => .pure trivial))
  calc (n - length) * S.memSize ≤ n * 24 := Nat.mul_le_mul (by omega) hmem
    _ < 2 ^ 63 := by omega

theorem readSubBlock_sat (hS : ∀ e, Rd.Sat (S.read e) (fun _ => True)) (hmem : S.memSize ≤ 24) (e : Endian) :
    ∀ (ms : List RawDataMeta) (plan : List (RecordEntry α)) (length : Nat), PlanFor ms plan → SmallChannels ms →
    Rd.Sat (readSubBlock S e length plan) (fun r => PlanFor ms r.2) := by
  intro ms
  induction ms with
  | nil =>
    intro plan length h _
    cases plan with
    | nil => exact .pure' trivial
    | cons _ _ => exact h.elim
  | cons m ms ih =>
    intro plan length h hsm
    cases plan with
    | nil => exact h.elim
    | cons x xs =>
      unfold SmallChannels at hsm
      rw [List.map_cons, List.sum_cons] at hsm
      have hsm' : SmallChannels ms := by unfold SmallChannels; omega
      obtain ⟨len, pl⟩ := x
      have hlen : len = m.numberOfValues := h.1
      unfold readSubBlock
      cases pl with
      | read slot out k =>
        dsimp only
        have hrest : Rd.Sat (readSequential S e out (len - min k len) >>= fun x =>
            readSubBlock S e x.1 xs >>= fun y =>
              (Pure.pure (y.1, { length := len, plan := EntryPlan.read slot x.2 k } :: y.2) : Rd _))
            (fun r => PlanFor (m :: ms) r.2) :=
          (readSequential_sat hS hmem e out _ (by omega)).bind (fun x _ =>
            (ih xs x.1 h.2.2 hsm').bind (fun y hy => .pure ⟨hlen, (fun b hb => by cases hb), hy⟩))
        refine Rd.Sat.ite (fun _ => ?_) (fun _ => hrest)
        refine (Rd.Sat.lift (mulI64_sat ?_ (by omega) (by omega))).bind (fun _ _ =>
          (Rd.Sat.move _).bind (fun _ _ => hrest))
        calc min k len * S.memSize ≤ len * 24 := Nat.mul_le_mul (by omega) hmem
          _ < 2 ^ 63 := by omega
      | skip b =>
        dsimp only
        have hb : b = m.dataType.size := h.2.1 b rfl
        have hb24 := size_le m.dataType
        have hmul : R.Sat (mulI64 (b : Int) (toI64 len)) (fun _ => True) := by
          have h1 := mulI64_small (a := b) (b := len)
            (by calc b * len ≤ 24 * len := Nat.mul_le_mul (by omega) (Nat.le_refl _)
                  _ < 2 ^ 63 := by omega) (by omega) (by omega)
          have h2 : toI64 b = (b : Int) := by unfold toI64; rw [if_pos (by omega)]
          rw [h2] at h1
          exact Or.inl ⟨_, h1, trivial⟩
        refine (Rd.Sat.lift hmul).bind (fun _ _ => (Rd.Sat.move _).bind (fun _ _ => ?_))
        refine (ih xs length h.2.2 hsm').bind (fun y hy => .pure ?_)
        exact ⟨hlen, h.2.1, hy⟩

theorem contigLoop_sat (hS : ∀ e, Rd.Sat (S.read e) (fun _ => True)) (hmem : S.memSize ≤ 24) (e : Endian)
    {ms : List RawDataMeta} (hsm : SmallChannels ms) (bs toSkip remainder : Nat) :
    ∀ (n idx : Nat) (plan : List (RecordEntry α)) (length : Nat), PlanFor ms plan →
    Rd.Sat (contigLoop S e bs toSkip remainder n idx plan length) (fun _ => True) := by
  intro n
  induction n with
  | zero => intro idx plan length _; exact .pure' trivial
  | succ n ih =>
    intro idx plan length h
    unfold contigLoop
    refine Rd.Sat.ite (fun _ => (Rd.Sat.move _).bind (fun _ _ => ih _ _ _ h))
      (fun _ => Rd.Sat.ite (fun _ => ?_) (fun _ => ?_))
    all_goals exact (readSubBlock_sat hS hmem e ms _ _ h.mapSkips hsm).bind (fun r hr => ih _ _ _ hr)

theorem contigSkipLoop_sat (hS : ∀ e, Rd.Sat (S.read e) (fun _ => True)) (hmem : S.memSize ≤ 24) (e : Endian)
    {ms : List RawDataMeta} (hsm : SmallChannels ms) (bs : Nat) (toSkip rem : List Nat) :
    ∀ (n idx : Nat) (plan : List (RecordEntry α)) (length : Nat), PlanFor ms plan →
    Rd.Sat (contigSkipLoop S e bs toSkip rem n idx plan length) (fun _ => True) := by
  intro n
  induction n with
  | zero => intro idx plan length _; exact .pure' trivial
  | succ n ih =>
    intro idx plan length h
    unfold contigSkipLoop
    refine Rd.Sat.ite (fun _ => ?_) (fun _ => (Rd.Sat.move _).bind (fun _ _ => ih _ _ _ h))
    exact (readSubBlock_sat hS hmem e ms _ _ (h.setSkips _) hsm).bind (fun r hr => ih _ _ _ hr)

/-- the sizes a plan reports -/
theorem PlanFor.sizes (hpos : 0 < S.memSize) (hmem : S.memSize ≤ 24) : ∀ {ms : List RawDataMeta} {plan : List (RecordEntry α)},
    PlanFor ms plan →
    (plan.map (fun en => en.plan.sizeBytes S * en.length)).sum ≤ 24 * (ms.map (·.numberOfValues)).sum ∧
    (0 < (ms.map (fun m => m.numberOfValues * m.dataType.size)).sum →
      0 < (plan.map (fun en => en.plan.sizeBytes S * en.length)).sum ∧ 0 < rowSize S plan) ∧
    rowSize S plan ≤ 24 * ms.length
  | [], [], _ => ⟨by simp, by simp, by simp [rowSize]⟩
  | m :: ms, ⟨len, pl⟩ :: xs, h => by
    obtain ⟨ih1, ih2, ih3⟩ := PlanFor.sizes hpos hmem h.2.2
    have hlen : len = m.numberOfValues := h.1
    have hs : EntryPlan.sizeBytes S pl ≤ 24 ∧ (0 < m.dataType.size → 0 < EntryPlan.sizeBytes S pl) := by
      cases pl with
      | read s o k => exact ⟨hmem, fun _ => hpos⟩
      | skip b =>
        have : b = m.dataType.size := h.2.1 b rfl
        have h24 := size_le m.dataType
        exact ⟨by show b ≤ 24; omega, fun h => by show 0 < b; omega⟩
    unfold rowSize at ih2 ih3 ⊢
    simp only [List.map_cons, List.sum_cons, List.length_cons]
    have hmul : EntryPlan.sizeBytes S pl * len ≤ 24 * len := Nat.mul_le_mul hs.1 (Nat.le_refl _)
    refine ⟨by omega, ?_, by omega⟩
    intro hsum
    by_cases hm : 0 < m.numberOfValues * m.dataType.size
    · have h1 : 0 < m.numberOfValues := Nat.pos_of_mul_pos_right hm
      have h2 : 0 < m.dataType.size := Nat.pos_of_mul_pos_left hm
      have h3 := hs.2 h2
      have h4 : 0 < EntryPlan.sizeBytes S pl * len := Nat.mul_pos h3 (by omega)
      exact ⟨by omega, by omega⟩
    · have := ih2 (by omega)
      exact ⟨by omega, by omega⟩
  | [], _ :: _, h => h.elim
  | _ :: _, [], h => h.elim

/-- the sizes a block read divides by -/
def Positive (S : Storage α) (plan : List (RecordEntry α)) : Prop :=
  0 < (plan.map (fun en => en.plan.sizeBytes S * en.length)).sum ∧ 0 < rowSize S plan

theorem sizes_setSkips (ks : List Nat) (plan : List (RecordEntry α)) :
    (setSkips ks plan).map (fun en => (en.plan.sizeBytes S, en.length)) = plan.map (fun en => (en.plan.sizeBytes S, en.length)) := by
  induction plan generalizing ks with
  | nil => cases ks <;> rfl
  | cons x xs ih =>
    cases ks with
    | nil => rfl
    | cons k ks =>
      obtain ⟨len, pl⟩ := x
      cases pl with
      | skip b => exact congrArg (_ :: ·) (ih (k :: ks))
      | read s o j => exact congrArg (_ :: ·) (ih ks)

theorem Positive.setSkips {plan : List (RecordEntry α)} (h : Positive S plan) (ks : List Nat) :
    Positive S (Tedium.setSkips ks plan) := by
  have h1 := congrArg (List.map (fun (x : Nat × Nat) => x.1 * x.2)) (sizes_setSkips (S := S) ks plan)
  have h2 := congrArg (List.map (fun (x : Nat × Nat) => x.1)) (sizes_setSkips (S := S) ks plan)
  rw [List.map_map, List.map_map] at h1 h2
  unfold Positive rowSize at h ⊢
  constructor
  · exact (congrArg List.sum h1) ▸ h.1
  · exact (congrArg List.sum h2) ▸ h.2

theorem Positive.of_mem (hpos : 0 < S.memSize) {plan : List (RecordEntry α)} {len slot k : Nat} {out : OutIter α}
    (h : ({ length := len, plan := .read slot out k } : RecordEntry α) ∈ plan) (hlen : 0 < len) : Positive S plan := by
  obtain ⟨x, y, rfl⟩ := List.append_of_mem h
  have : 0 < S.memSize * len := Nat.mul_pos hpos hlen
  unfold Positive rowSize
  simp only [List.map_append, List.map_cons, List.sum_append, List.sum_cons, EntryPlan.sizeBytes]
  omega

theorem blockSize_sat (hpos : 0 < S.memSize) (hmem : S.memSize ≤ 24) {b : DataBlock} {k : Nat} (hb : b.Tame k)
    {plan : List (RecordEntry α)} (h : PlanFor b.channels plan) (hp : Positive S plan) :
    R.Sat (blockSize S plan) (fun bs => 0 < bs) := by
  obtain ⟨h1, _, _⟩ := PlanFor.sizes hpos hmem h
  unfold blockSize
  dsimp only
  rw [if_pos (by have := hb.values; unfold u64Lim; omega)]
  exact Or.inl ⟨_, rfl, hp.1⟩

theorem divR_sat {a c : Nat} (h : 0 < c) : R.Sat (divR a c) (fun _ => True) := by
  unfold divR
  rw [if_neg (by omega)]
  exact Or.inl ⟨_, rfl, trivial⟩

theorem divAll_sat {c : Nat} (h : 0 < c) : ∀ ks, R.Sat (divAll c ks) (fun _ => True) := by
  intro ks
  induction ks with
  | nil => exact Or.inl ⟨_, rfl, trivial⟩
  | cons k ks ih =>
    unfold divAll
    exact (divR_sat h).bind (fun _ _ => ih.bind (fun _ _ => Or.inl ⟨_, rfl, trivial⟩))

theorem firstLength_sat {b : DataBlock} {k : Nat} (hb : b.Tame k) (hl : b.layout = .contigious)
    {plan : List (RecordEntry α)} (h : PlanFor b.channels plan) :
    R.Sat (firstLength plan) (fun n => 0 < n) := by
  obtain ⟨m0, h0, hp⟩ := hb.first hl
  cases hch : b.channels with
  | nil => rw [hch] at h0; cases h0
  | cons m ms =>
    rw [hch] at h0 h
    cases h0
    cases plan with
    | nil => exact h.elim
    | cons x xs => exact Or.inl ⟨_, rfl, by rw [h.1]; exact hp⟩

theorem contigReadFrom_sat (hS : ∀ e, Rd.Sat (S.read e) (fun _ => True)) (hpos : 0 < S.memSize) (hmem : S.memSize ≤ 24)
    {b : DataBlock} {k : Nat} (hb : b.Tame k) (hl : b.layout = .contigious) {plan : List (RecordEntry α)}
    (h : PlanFor b.channels plan) (hp : Positive S plan) (e : Endian) (start size j : Nat) :
    Rd.Sat (contigReadFrom S e start size plan j) (fun _ => True) := by
  unfold contigReadFrom
  refine (Rd.Sat.seek _).bind (fun _ _ => ?_)
  refine (Rd.Sat.lift (blockSize_sat hpos hmem hb h hp)).bind (fun bs hbs => ?_)
  refine (Rd.Sat.lift (divR_sat hbs)).bind (fun total _ => ?_)
  refine (Rd.Sat.lift (firstLength_sat hb hl h)).bind (fun sub hsub => ?_)
  refine (Rd.Sat.lift (divR_sat hsub)).bind (fun _ _ => ?_)
  exact contigLoop_sat hS hmem e hb.values _ _ _ _ _ _ _ h

theorem contigReadSkip_sat (hS : ∀ e, Rd.Sat (S.read e) (fun _ => True)) (hpos : 0 < S.memSize) (hmem : S.memSize ≤ 24)
    {b : DataBlock} {k : Nat} (hb : b.Tame k) (hl : b.layout = .contigious) {plan : List (RecordEntry α)}
    (h : PlanFor b.channels plan) (hp : Positive S plan) (e : Endian) (start size : Nat) (ks : List Nat) :
    Rd.Sat (contigReadSkip S e start size plan ks) (fun _ => True) := by
  unfold contigReadSkip
  refine (Rd.Sat.seek _).bind (fun _ _ => ?_)
  refine (Rd.Sat.lift (blockSize_sat hpos hmem hb h hp)).bind (fun bs hbs => ?_)
  refine (Rd.Sat.lift (divR_sat hbs)).bind (fun total _ => ?_)
  refine (Rd.Sat.lift (firstLength_sat hb hl h)).bind (fun sub hsub => ?_)
  refine (Rd.Sat.lift (divAll_sat hsub _)).bind (fun _ _ => ?_)
  exact contigSkipLoop_sat hS hmem e hb.values _ _ _ _ _ _ _ h

theorem readRow_sat (hS : ∀ e, Rd.Sat (S.read e) (fun _ => True)) (e : Endian) (row : Nat) :
    ∀ (plan : List (RecordEntry α)) (any : Bool), Rd.Sat (readRow S e row any plan) (fun _ => True) := by
  intro plan
  induction plan with
  | nil => intro any; exact .pure' trivial
  | cons en rest ih =>
    intro any
    unfold readRow
    split
    · exact (hS e).bind (fun v _ => (ih _).bind (fun _ _ => .pure trivial))
    · exact (Rd.Sat.move _).bind (fun _ _ => (ih _).bind (fun _ _ => .pure trivial))

theorem interLoop_sat (hS : ∀ e, Rd.Sat (S.read e) (fun _ => True)) (e : Endian) :
    ∀ (n row : Nat) (plan : List (RecordEntry α)) (k : Nat), Rd.Sat (interLoop S e n row plan k) (fun _ => True) := by
  intro n
  induction n with
  | zero => intro row plan k; exact .pure' trivial
  | succ n ih =>
    intro row plan k
    unfold interLoop
    exact (readRow_sat hS e _ _ _).bind (fun _ _ => Rd.Sat.ite (fun _ => ih _ _ _) (fun _ => .pure trivial))

theorem minOrZero_of {P : Nat → Prop} (h0 : P 0) : ∀ l : List Nat, (∀ s ∈ l, P s) → P (minOrZero l)
  | [], _ => h0
  | [x], h => h x List.mem_cons_self
  | x :: y :: r, h => by
    unfold minOrZero
    have h1 := h x List.mem_cons_self
    have h2 := minOrZero_of h0 (y :: r) (fun s hs => h s (List.mem_cons_of_mem _ hs))
    rcases Nat.le_total x (minOrZero (y :: r)) with hle | hle
    · rw [Nat.min_eq_left hle]; exact h1
    · rw [Nat.min_eq_right hle]; exact h2

theorem interRead_sat (hS : ∀ e, Rd.Sat (S.read e) (fun _ => True)) (hpos : 0 < S.memSize) (hmem : S.memSize ≤ 24)
    {b : DataBlock} {plan : List (RecordEntry α)}
    (h : PlanFor b.channels plan) (hp : Positive S plan) (hk : ∀ s ∈ blockSkips plan, 24 * b.channels.length * s < 2 ^ 63)
    (e : Endian) (start size : Nat) :
    Rd.Sat (interRead S e start size plan) (fun _ => True) := by
  obtain ⟨_, _, h3⟩ := PlanFor.sizes hpos hmem h
  have hrow := hp.2
  unfold interRead
  refine (Rd.Sat.seek _).bind (fun _ _ => ?_)
  refine (Rd.Sat.lift (divR_sat hrow)).bind (fun total _ => ?_)
  have hmin := minOrZero_of (P := fun s => 24 * b.channels.length * s < 2 ^ 63) (by simp) (blockSkips plan) hk
  refine Rd.Sat.ite (fun _ => ?_) (fun _ => interLoop_sat hS e _ _ _ _)
  rename_i hgt
  have hle : minOrZero (blockSkips plan) * rowSize S plan ≤ 24 * b.channels.length * minOrZero (blockSkips plan) := by
    rw [Nat.mul_comm]
    exact Nat.mul_le_mul h3 (Nat.le_refl _)
  have hr1 : rowSize S plan ≤ minOrZero (blockSkips plan) * rowSize S plan := Nat.le_mul_of_pos_left _ hgt
  have hr2 : minOrZero (blockSkips plan) ≤ minOrZero (blockSkips plan) * rowSize S plan := Nat.le_mul_of_pos_right _ hrow
  refine (Rd.Sat.lift (mulI64_sat (by omega) (by omega) (by omega))).bind (fun _ _ => (Rd.Sat.move _).bind (fun _ _ => ?_))
  exact interLoop_sat hS e _ _ _ _

theorem setReadable_sat : ∀ (reqs : List (ChannelRequest α)) (ms : List RawDataMeta) (plan : List (RecordEntry α)),
    PlanFor ms plan → (∀ r ∈ reqs, r.channelIndex < ms.length) → (∀ s ∈ blockSkips plan, s = 0) →
    R.Sat (setReadable plan reqs) (fun p => PlanFor ms p ∧ ∀ s ∈ blockSkips p, s = 0) := by
  intro reqs
  induction reqs with
  | nil => intro ms plan h _ h0; exact Or.inl ⟨_, rfl, h, h0⟩
  | cons r rs ih =>
    intro ms plan h hlt h0
    unfold setReadable
    have hr := hlt r List.mem_cons_self
    rw [← h.length] at hr
    rw [List.getElem?_eq_getElem hr]
    dsimp only
    apply ih ms _ (h.set (List.getElem?_eq_getElem hr) _ _ _) (fun r hr => hlt r (List.mem_cons_of_mem _ hr))
    intro s hs
    unfold blockSkips at hs h0
    obtain ⟨en, hen, hes⟩ := List.mem_filterMap.mp hs
    rcases List.mem_or_eq_of_mem_set hen with hen | hen
    · exact h0 s (List.mem_filterMap.mpr ⟨en, hen, hes⟩)
    · subst hen
      cases hes
      rfl

theorem buildRecordPlan_sat {ms : List RawDataMeta} {reqs : List (ChannelRequest α)}
    (hlt : ∀ r ∈ reqs, r.channelIndex < ms.length) :
    R.Sat (buildRecordPlan S ms reqs) (fun p => PlanFor ms p ∧ ∀ s ∈ blockSkips p, s = 0) := by
  unfold buildRecordPlan
  have hval : R.Sat (validateTypes S ms reqs) (fun _ => True) := by
    induction reqs with
    | nil => exact Or.inl ⟨_, rfl, trivial⟩
    | cons r rs ih =>
      unfold validateTypes
      rw [List.getElem?_eq_getElem (hlt r List.mem_cons_self)]
      dsimp only
      split
      · exact ih (fun r hr => hlt r (List.mem_cons_of_mem _ hr))
      · exact Or.inr ⟨_, rfl⟩
  refine hval.bind (fun _ _ => setReadable_sat reqs ms _ (PlanFor.base ms) hlt ?_)
  intro s hs
  unfold blockSkips baseRecord at hs
  obtain ⟨en, hen, hes⟩ := List.mem_filterMap.mp hs
  obtain ⟨m, _, rfl⟩ := List.mem_map.mp hen
  cases hes

theorem blockSkips_setSkips (ks : List Nat) (plan : List (RecordEntry α)) :
    ∀ s ∈ blockSkips (setSkips ks plan), s ∈ ks ∨ s ∈ blockSkips plan := by
  induction plan generalizing ks with
  | nil => intro s hs; cases ks <;> exact Or.inr hs
  | cons x xs ih =>
    cases ks with
    | nil => intro s hs; exact Or.inr hs
    | cons k ks =>
      obtain ⟨len, pl⟩ := x
      intro s hs
      cases pl with
      | skip b =>
        have hs' : s ∈ blockSkips (setSkips (k :: ks) xs) := hs
        rcases ih (k :: ks) s hs' with h | h
        · exact Or.inl h
        · exact Or.inr h
      | read slot out j =>
        have hs' : s ∈ k :: blockSkips (setSkips ks xs) := hs
        rcases List.mem_cons.mp hs' with h | h
        · exact Or.inl (by rw [h]; exact List.mem_cons_self)
        · rcases ih ks s h with h | h
          · exact Or.inl (List.mem_cons_of_mem _ h)
          · exact Or.inr (List.mem_cons_of_mem _ h)

theorem setReadable_has {reqs : List (ChannelRequest α)} : ∀ {ms : List RawDataMeta} {plan p : List (RecordEntry α)},
    PlanFor ms plan → setReadable plan reqs = .ok p →
    (∀ en ∈ plan, (∃ s o k, en.plan = .read s o k) → 0 < en.length → ∃ en ∈ p, (∃ s o k, en.plan = .read s o k) ∧ 0 < en.length) ∧
    ∀ r ∈ reqs, ∀ m, ms[r.channelIndex]? = some m → 0 < m.numberOfValues →
      ∃ en ∈ p, (∃ s o k, en.plan = .read s o k) ∧ 0 < en.length := by
  induction reqs with
  | nil =>
    intro ms plan p hplan h
    cases h
    exact ⟨fun en hen h1 h2 => ⟨en, hen, h1, h2⟩, (fun r hr => by cases hr)⟩
  | cons r rs ih =>
    intro ms plan p hplan h
    unfold setReadable at h
    cases hr : plan[r.channelIndex]? with
    | none => rw [hr] at h; cases h
    | some en =>
      rw [hr] at h
      dsimp only at h
      obtain ⟨h1, h2⟩ := ih (hplan.set hr _ _ _) h
      have hlt := (List.getElem?_eq_some_iff.mp hr).1
      have hnew : 0 < en.length → ∃ en ∈ p, (∃ s o k, en.plan = .read s o k) ∧ 0 < en.length := by
        intro hlen
        exact h1 { en with plan := .read r.slot ⟨[], r.output⟩ 0 } (List.mem_iff_getElem?.mpr
          ⟨r.channelIndex, List.getElem?_set_self hlt⟩) ⟨_, _, _, rfl⟩ hlen
      constructor
      · intro x hx hread hlen
        obtain ⟨i, hi⟩ := List.mem_iff_getElem?.mp hx
        by_cases hir : r.channelIndex = i
        · rw [← hir, hr] at hi
          cases hi
          exact hnew hlen
        · exact h1 x (List.mem_iff_getElem?.mpr ⟨i, by rw [List.getElem?_set_ne hir]; exact hi⟩) hread hlen
      · intro q hq m hm hpos
        rcases List.mem_cons.mp hq with rfl | hq
        · apply hnew
          rw [hplan.length_at hr hm]
          exact hpos
        · exact h2 q hq m hm hpos

/-- block reads divide by positive sizes: something of the block has a size, or something is read -/
def SizedFor (ms : List RawDataMeta) (reqs : List (ChannelRequest α)) : Prop :=
  0 < (ms.map (fun m => m.numberOfValues * m.dataType.size)).sum ∨
  ∃ r ∈ reqs, ∃ m, ms[r.channelIndex]? = some m ∧ 0 < m.numberOfValues

theorem buildRecordPlan_positive (hpos : 0 < S.memSize) (hmem : S.memSize ≤ 24) {ms : List RawDataMeta}
    {reqs : List (ChannelRequest α)} {p : List (RecordEntry α)} (h : buildRecordPlan S ms reqs = .ok p)
    (hp : PlanFor ms p) (hs : SizedFor ms reqs) : Positive S p := by
  rcases hs with hs | ⟨r, hr, m, hm, hn⟩
  · exact (PlanFor.sizes hpos hmem hp).2.1 hs
  · unfold buildRecordPlan at h
    cases hv : validateTypes S ms reqs with
    | error e => rw [hv] at h; cases h
    | ok u =>
      rw [hv] at h
      obtain ⟨⟨len, pl⟩, hen, ⟨s, o, k, hpl⟩, hlen⟩ := (setReadable_has (PlanFor.base ms) h).2 r hr m hm hn
      dsimp only at hpl hlen
      subst hpl
      exact Positive.of_mem hpos hen hlen

theorem DataBlock.read_sat (hS : ∀ e, Rd.Sat (S.read e) (fun _ => True)) (hpos : 0 < S.memSize) (hmem : S.memSize ≤ 24)
    {b : DataBlock} {j : Nat} (hb : b.Tame j) {reqs : List (ChannelRequest α)} (hsz : SizedFor b.channels reqs)
    (hlt : ∀ r ∈ reqs, r.channelIndex < b.channels.length)
    (hk : b.layout = .interleaved → ∀ r ∈ reqs, 24 * b.channels.length * r.skip < 2 ^ 63) (f : Bytes) :
    R.Sat (b.read S f reqs) (fun _ => True) ∧ R.Sat (b.readWithSkip S f reqs) (fun _ => True) := by
  have hbuild := buildRecordPlan_sat (S := S) hlt
  constructor
  · unfold DataBlock.read
    rcases hbuild with ⟨plan, hbp, hp⟩ | ⟨e, he⟩
    · have hposi := buildRecordPlan_positive hpos hmem hbp hp.1 hsz
      rw [hbp]
      show R.Sat (_ >>= _) _
      dsimp only
      cases hl : b.layout with
      | interleaved =>
        exact (interRead_sat hS hpos hmem hp.1 hposi (fun s hs => by rw [hp.2 s hs]; simp) _ _ _ f 0).bind
          (fun _ _ => Or.inl ⟨_, rfl, trivial⟩)
      | contigious =>
        exact (contigReadFrom_sat hS hpos hmem hb hl hp.1 hposi _ _ _ _ f 0).bind (fun _ _ => Or.inl ⟨_, rfl, trivial⟩)
    · rw [he]; exact Or.inr ⟨e, rfl⟩
  · unfold DataBlock.readWithSkip
    rcases hbuild with ⟨plan, hbp, hp⟩ | ⟨e, he⟩
    · have hposi := buildRecordPlan_positive hpos hmem hbp hp.1 hsz
      rw [hbp]
      show R.Sat (_ >>= _) _
      dsimp only
      cases hl : b.layout with
      | interleaved =>
        refine (interRead_sat hS hpos hmem (hp.1.setSkips _) (hposi.setSkips _) (fun s hs => ?_) _ _ _ f 0).bind
          (fun _ _ => Or.inl ⟨_, rfl, trivial⟩)
        rcases blockSkips_setSkips _ _ s hs with h | h
        · obtain ⟨r, hr, rfl⟩ := List.mem_map.mp h
          exact hk hl r hr
        · rw [hp.2 s h]; simp
      | contigious =>
        exact (contigReadSkip_sat hS hpos hmem hb hl hp.1 hposi _ _ _ _ f 0).bind (fun _ _ => Or.inl ⟨_, rfl, trivial⟩)
    · rw [he]; exact Or.inr ⟨e, rfl⟩

theorem mem_blockRequests {plans : List (Option ChannelReadPlan)} {ps : List (Progress α)} {i : Nat}
    {r : ChannelRequest α} (h : r ∈ blockRequests i plans ps) :
    ∃ pl, some pl ∈ plans ∧ r.channelIndex = pl.index ∧ r.skip = pl.samplesToSkip := by
  induction plans generalizing ps i with
  | nil => unfold blockRequests at h; cases h
  | cons p plans ih =>
    cases ps with
    | nil => cases p <;> (unfold blockRequests at h; cases h)
    | cons q ps =>
      cases p with
      | none =>
        unfold blockRequests at h
        obtain ⟨pl, h1, h2⟩ := ih h
        exact ⟨pl, List.mem_cons_of_mem _ h1, h2⟩
      | some pl0 =>
        unfold blockRequests at h
        split at h
        · obtain ⟨pl, h1, h2⟩ := ih h
          exact ⟨pl, List.mem_cons_of_mem _ h1, h2⟩
        · rcases List.mem_cons.mp h with rfl | h
          · exact ⟨pl0, List.mem_cons_self, rfl, rfl⟩
          · obtain ⟨pl, h1, h2⟩ := ih h
            exact ⟨pl, List.mem_cons_of_mem _ h1, h2⟩

/-- the requests of every block of the plan are fine, as long as something is incomplete -/
def PlanSized (t : TdmsFile) (plan : List BlockRead) (ps : List (Progress α)) : Prop :=
  (∀ br ∈ plan, ∀ b, t.index.getDataBlock br.dataBlock = some b →
    0 < (b.channels.map (fun m => m.numberOfValues * m.dataType.size)).sum) ∨
  (∃ p, ps = [p] ∧ p.isComplete = false ∧ ∀ br ∈ plan, ∃ pl, br.channelIndexes = [some pl] ∧
    ∀ b, t.index.getDataBlock br.dataBlock = some b → ∃ m, b.channels[pl.index]? = some m ∧ 0 < m.numberOfValues)

theorem PlanSized.requests {t : TdmsFile} {plan : List BlockRead} {ps : List (Progress α)} (h : PlanSized t plan ps)
    {br : BlockRead} (hbr : br ∈ plan) {b : DataBlock} (hb : t.index.getDataBlock br.dataBlock = some b) :
    SizedFor b.channels (blockRequests 0 br.channelIndexes ps) := by
  rcases h with h | ⟨p, rfl, hc, h⟩
  · exact Or.inl (h br hbr b hb)
  · obtain ⟨pl, hpl, hm⟩ := h br hbr
    obtain ⟨m, h1, h2⟩ := hm b hb
    rw [hpl]
    unfold blockRequests
    rw [if_neg (by simp [hc])]
    exact Or.inr ⟨_, List.mem_cons_self, m, h1, h2⟩

theorem length_storeOutputs (outs : List (Nat × List α)) : ∀ (ps : List (Progress α)) (k : Nat),
    (storeOutputs outs k ps).length = ps.length := by
  intro ps
  induction ps with
  | nil => intro k; rfl
  | cons p ps ih => intro k; unfold storeOutputs; rw [List.length_cons, ih, List.length_cons]

theorem length_addSamples (n : Nat) : ∀ (plans : List (Option ChannelReadPlan)) (ps : List (Progress α)),
    (addSamples n plans ps).length = ps.length := by
  intro plans
  induction plans with
  | nil => intro ps; cases ps <;> rfl
  | cons x plans ih =>
    intro ps
    cases ps with
    | nil => rfl
    | cons p ps => unfold addSamples; rw [List.length_cons, ih, List.length_cons]

theorem executeBlock_length {t : TdmsFile} {br : BlockRead} {ps qs : List (Progress α)}
    (h : executeBlock S t br ps = .ok qs) : qs.length = ps.length := by
  unfold executeBlock at h
  dsimp only at h
  cases hb : t.index.getDataBlock br.dataBlock with
  | none => rw [hb] at h; cases h
  | some b =>
    rw [hb] at h
    dsimp only at h
    generalize hany : List.any br.channelIndexes _ = anySkip at h
    cases hr : (if anySkip = true then b.readWithSkip S t.bytes (blockRequests 0 br.channelIndexes ps)
        else b.read S t.bytes (blockRequests 0 br.channelIndexes ps)) with
    | error e => rw [hr] at h; cases h
    | ok r =>
      rw [hr] at h
      obtain ⟨n, plan⟩ := r
      cases h
      rw [length_addSamples, length_storeOutputs]

theorem executePlan_sat (hS : ∀ e, Rd.Sat (S.read e) (fun _ => True)) (hpos : 0 < S.memSize) (hmem : S.memSize ≤ 24)
    {t : TdmsFile} : ∀ (plan : List BlockRead) (ps : List (Progress α)),
    (∀ br ∈ plan, ∃ b, t.index.getDataBlock br.dataBlock = some b ∧ (∃ j, b.Tame j) ∧
      ∀ pl, some pl ∈ br.channelIndexes → pl.index < b.channels.length ∧
        (b.layout = .interleaved → 24 * b.channels.length * pl.samplesToSkip < 2 ^ 63)) →
    PlanSized t plan ps →
    R.Sat (executePlan S t plan ps) (fun _ => True) := by
  intro plan
  induction plan with
  | nil => intro ps _ _; exact Or.inl ⟨_, rfl, trivial⟩
  | cons br brs ih =>
    intro ps h hsz
    unfold executePlan
    obtain ⟨b, hb, ⟨j, ht⟩, hpl⟩ := h br List.mem_cons_self
    have hblock : R.Sat (executeBlock S t br ps) (fun _ => True) := by
      unfold executeBlock
      dsimp only
      rw [hb]
      dsimp only
      have hread := DataBlock.read_sat hS hpos hmem ht (hsz.requests List.mem_cons_self hb)
        (fun r hr => by
          obtain ⟨pl, h1, h2, _⟩ := mem_blockRequests hr
          rw [h2]; exact (hpl pl h1).1)
        (fun hl r hr => by
          obtain ⟨pl, h1, _, h3⟩ := mem_blockRequests hr
          rw [h3]; exact (hpl pl h1).2 hl) t.bytes
      generalize hany : List.any br.channelIndexes _ = anySkip
      have hr : R.Sat (if anySkip = true then b.readWithSkip S t.bytes (blockRequests 0 br.channelIndexes ps)
          else b.read S t.bytes (blockRequests 0 br.channelIndexes ps)) (fun _ => True) := by
        split
        · exact hread.2
        · exact hread.1
      rcases hr with ⟨a, ha, _⟩ | ⟨e, he⟩
      · rw [ha]; exact Or.inl ⟨_, rfl, trivial⟩
      · rw [he]; exact Or.inr ⟨_, rfl⟩
    rcases hblock with ⟨a, ha, _⟩ | ⟨e, he⟩
    · rw [ha]
      dsimp only
      split
      · exact Or.inl ⟨_, rfl, trivial⟩
      · rename_i hnc
        refine ih a (fun x hx => h x (List.mem_cons_of_mem _ hx)) ?_
        rcases hsz with hsz | ⟨p, hp, _, hsz⟩
        · exact Or.inl (fun x hx => hsz x (List.mem_cons_of_mem _ hx))
        · have hlen := executeBlock_length ha
          rw [hp] at hlen
          obtain ⟨q, hq⟩ := List.length_eq_one_iff.mp hlen
          subst hq
          refine Or.inr ⟨q, rfl, ?_, fun x hx => hsz x (List.mem_cons_of_mem _ hx)⟩
          cases hqc : q.isComplete with
          | false => rfl
          | true => exfalso; apply hnc; simp [hqc]
    · rw [he]; exact Or.inr ⟨_, rfl⟩

/-- what a visited channel's location is like -/
theorem visit_valid {t : TdmsFile} {ls : List DataLocation} (hv : ∀ l ∈ ls, ValidLocation t.index.dataBlocks l)
    {start B : Nat} {pl : ChannelReadPlan} (h : visit start B ls = some pl) :
    ∃ l b m, l ∈ ls ∧ l.dataBlock = B ∧ 0 < l.numberOfSamples ∧ t.index.getDataBlock B = some b ∧
      b.channels[pl.index]? = some m ∧ 0 < m.numberOfValues ∧ pl.samplesToSkip ≤ l.numberOfSamples := by
  unfold visit at h
  cases hf : ls.find? (fun l => l.dataBlock == B) with
  | none => rw [hf] at h; cases h
  | some l =>
    rw [hf] at h
    dsimp only at h
    split at h
    · rename_i hc
      cases h
      have hlB : l.dataBlock = B := by simpa using List.find?_some hf
      have hlm := List.mem_of_find?_eq_some hf
      obtain ⟨b, m, n, hb, hm, _, hn⟩ := hv l hlm
      rw [hlB] at hb
      refine ⟨l, b, m, hlm, hlB, hc.1, hb, hm, ?_, ?_⟩
      · rw [hn] at hc
        exact Nat.pos_of_mul_pos_right hc.1
      · show start - samplesBefore ls B ≤ _
        omega
    · cases h

theorem readPositions_sat (hS : ∀ e, Rd.Sat (S.read e) (fun _ => True)) (hpos : 0 < S.memSize) (hmem : S.memSize ≤ 24)
    {t : TdmsFile} (hi : Inv t.index) (cs : List ChannelPath) (pos : List (List DataLocation)) (start : Nat)
    (hl : ∀ ls ∈ pos, ∃ c ∈ cs, t.index.getChannelDataPositions c = some ls)
    (ht : ∀ ls ∈ pos, TameAt t ls) (ps : List (Progress α))
    (hsz : (∀ ls ∈ pos, SizedAt t ls) ∨ ∃ ls p, pos = [ls] ∧ ps = [p] ∧ p.isComplete = false) :
    R.Sat (readPlan pos start >>= fun plan => executePlan S t plan ps) (fun _ => True) := by
  have hvalid : ∀ ls ∈ pos, Increasing ls ∧ ∀ l ∈ ls, ValidLocation t.index.dataBlocks l := by
    intro ls hls
    obtain ⟨c, _, hc⟩ := hl ls hls
    obtain ⟨o, ho, rfl⟩ := Option.map_eq_some_iff.mp hc
    exact ⟨hi.incr _ _ ho, hi.valid _ _ ho⟩
  rw [readPlan_eq start t.index.dataBlocks.length pos (fun ls h => (hvalid ls h).1) (fun ls h l hlm => by
    obtain ⟨b, _, _, hb, _⟩ := (hvalid ls h).2 l hlm
    exact (List.getElem?_eq_some_iff.mp hb).1)]
  show R.Sat (executePlan S t _ ps) _
  have hvisited : ∀ br ∈ plan start t.index.dataBlocks.length pos,
      br.channelIndexes = pos.map (visit start br.dataBlock) ∧
      ∃ ls ∈ pos, ∃ pl, visit start br.dataBlock ls = some pl := by
    intro br hbr
    unfold plan at hbr
    obtain ⟨B, hB, hva⟩ := List.mem_filterMap.mp hbr
    unfold visitAll at hva
    split at hva
    · rename_i hany
      cases hva
      rw [List.any_map, List.any_eq_true] at hany
      obtain ⟨ls, hls, hv⟩ := hany
      obtain ⟨pl, hv⟩ := Option.isSome_iff_exists.mp hv
      exact ⟨rfl, ls, hls, pl, hv⟩
    · cases hva
  apply executePlan_sat hS hpos hmem
  · intro br hbr
    obtain ⟨hch, ls, hls, pl, hv⟩ := hvisited br hbr
    obtain ⟨l, b, m, hlm, hlB, hn, hb, _, _, _⟩ := visit_valid (hvalid ls hls).2 hv
    refine ⟨b, hb, ⟨_, ht ls hls l hlm hn b (by rw [hlB]; exact hb)⟩, ?_⟩
    intro pl' hpl'
    rw [hch] at hpl'
    obtain ⟨ls', hls', hv'⟩ := List.mem_map.mp hpl'
    obtain ⟨l', b', m', hlm', hlB', hn', hb', hm', _, hk'⟩ := visit_valid (hvalid ls' hls').2 hv'
    rw [hb] at hb'
    cases hb'
    refine ⟨(List.getElem?_eq_some_iff.mp hm').1, fun hlay => ?_⟩
    exact Nat.lt_of_le_of_lt (Nat.mul_le_mul (Nat.le_refl _) hk')
      ((ht ls' hls' l' hlm' hn' b (by rw [hlB']; exact hb)).rows hlay)
  · rcases hsz with hsz | ⟨ls, p, hp, hps, hc⟩
    · refine Or.inl (fun br hbr b hb => ?_)
      obtain ⟨_, ls, hls, pl, hv⟩ := hvisited br hbr
      obtain ⟨l, b', m, hlm, hlB, hn, hb', _, _, _⟩ := visit_valid (hvalid ls hls).2 hv
      exact hsz ls hls l hlm hn b (by rw [hlB]; exact hb)
    · refine Or.inr ⟨p, hps, hc, fun br hbr => ?_⟩
      obtain ⟨hch, ls', hls', pl, hv⟩ := hvisited br hbr
      subst hp
      have := List.mem_singleton.mp hls'
      subst this
      refine ⟨pl, by rw [hch, List.map_cons, List.map_nil, hv], fun b hb => ?_⟩
      obtain ⟨l, b', m, _, _, _, hb', hm, hmn, _⟩ := visit_valid (hvalid ls' hls').2 hv
      rw [hb] at hb'
      cases hb'
      exact ⟨m, hm, hmn⟩

theorem lookupPositions_sat (t : TdmsFile) (cs : List ChannelPath) :
    R.Sat (t.lookupPositions cs) (fun pos => ∀ ls ∈ pos, ∃ c ∈ cs, t.index.getChannelDataPositions c = some ls) := by
  induction cs with
  | nil => exact Or.inl ⟨[], rfl, by simp⟩
  | cons c cs ih =>
    unfold TdmsFile.lookupPositions
    cases hc : t.index.getChannelDataPositions c with
    | none => exact Or.inr ⟨_, rfl⟩
    | some ls =>
      dsimp only
      refine ih.bind (fun pos hpos => Or.inl ⟨_, rfl, ?_⟩)
      intro x hx
      rcases List.mem_cons.mp hx with rfl | hx
      · exact ⟨c, List.mem_cons_self, hc⟩
      · obtain ⟨d, hd, h⟩ := hpos x hx
        exact ⟨d, List.mem_cons_of_mem _ hd, h⟩

theorem readChannelsFrom_sat (hS : ∀ e, Rd.Sat (S.read e) (fun _ => True)) (hpos : 0 < S.memSize) (hmem : S.memSize ≤ 24)
    {t : TdmsFile} (hi : Inv t.index) (cs : List ChannelPath) (start : Nat) (outs : List (List α))
    (ht : ∀ c ∈ cs, ∀ ls, t.index.getChannelDataPositions c = some ls → TameAt t ls ∧ SizedAt t ls) :
    R.Sat (t.readChannelsFrom S cs start outs) (fun _ => True) := by
  unfold TdmsFile.readChannelsFrom
  refine (lookupPositions_sat t cs).bind (fun pos hpos' => ?_)
  have h := readPositions_sat hS hpos hmem hi cs pos start hpos' (fun ls hls => by
    obtain ⟨c, hc, h⟩ := hpos' ls hls
    exact (ht c hc ls h).1) (outs.map (fun o => ⟨o, 0⟩)) (Or.inl (fun ls hls => by
    obtain ⟨c, hc, h⟩ := hpos' ls hls
    exact (ht c hc ls h).2))
  rw [← bind_assoc]
  exact h.bind (fun _ _ => Or.inl ⟨_, rfl, trivial⟩)

theorem readChannelFrom_sat (hS : ∀ e, Rd.Sat (S.read e) (fun _ => True)) (hpos : 0 < S.memSize) (hmem : S.memSize ≤ 24)
    {t : TdmsFile} (hi : Inv t.index) (c : ChannelPath) (start : Nat) (out : List α)
    (ht : ∀ ls, t.index.getChannelDataPositions c = some ls → TameAt t ls ∧ (out = [] → SizedAt t ls)) :
    R.Sat (t.readChannelFrom S c start out) (fun _ => True) := by
  unfold TdmsFile.readChannelFrom
  cases hc : t.index.getChannelDataPositions c with
  | none => exact Or.inr ⟨_, rfl⟩
  | some ls =>
    dsimp only
    have h := readPositions_sat hS hpos hmem hi [c] [ls] start (fun x hx => by
      rw [List.mem_singleton.mp hx]; exact ⟨c, List.mem_cons_self, hc⟩) (fun x hx => by
      rw [List.mem_singleton.mp hx]; exact (ht ls hc).1) [⟨out, 0⟩] (by
      cases out with
      | nil => exact Or.inl (fun x hx => by rw [List.mem_singleton.mp hx]; exact (ht ls hc).2 rfl)
      | cons v vs => exact Or.inr ⟨ls, _, rfl, rfl, rfl⟩)
    rw [← bind_assoc]
    exact h.bind (fun _ _ => Or.inl ⟨_, rfl, trivial⟩)

end
end Tedium
