import Verif.Spec.Work
import Verif.Props.Read
import Verif.Proofs.NoPanic
import Verif.Proofs.Act
import Verif.Proofs.Mono
import Verif.Proofs.Open

/-! # Counting stream operations -/

namespace Tedium
namespace Act
variable {α β : Type}

theorem work_bind (x : Act α) (k : α → Act β) (f : Bytes) : ∀ p, (x >>= k).work f p = x.work f p +
    match x.denote f p with
    | .ok (a, q) => (k a).work f q
    | .error _ => 0 := by
  show ∀ p, (Act.bind x k).work f p = _
  induction x with
  | ret a => intro p; show (k a).work f p = 0 + (k a).work f p; rw [Nat.zero_add]
  | stop e => intro p; rfl
  | exact n next ih =>
    intro p
    simp only [Act.bind, Act.work, Act.denote]
    unfold Rd.bind
    cases Rd.exact n f p with
    | error e => rfl
    | ok r => dsimp only; rw [ih]; omega
  | move o next ih =>
    intro p
    simp only [Act.bind, Act.work, Act.denote]
    unfold Rd.bind
    cases Rd.move o f p with
    | error e => rfl
    | ok r => dsimp only; rw [ih]; omega

theorem bind_denote (x : Act α) (k : α → Act β) (f : Bytes) (p : Nat) : (x >>= k).denote f p =
    match x.denote f p with
    | .ok (a, q) => (k a).denote f q
    | .error e => .error e := by
  rw [denote_bind]
  rfl

/-! ## Metadata: no more operations than bytes -/

/-- No more operations than bytes read, but for the last operation if it fails. -/
def Frugal (a : Act α) : Prop := ∀ f p, match a.denote f p with
  | .ok (_, q) => a.work f p + p ≤ q ∧ q ≤ max p f.length
  | .error _ => a.work f p + p ≤ max p f.length + 1

theorem Frugal.bind {x : Act α} {k : α → Act β} (hx : Frugal x) (hk : ∀ a, Frugal (k a)) : Frugal (x >>= k) := by
  intro f p
  rw [work_bind, denote_bind]
  show match (Rd.bind x.denote (fun a => (k a).denote)) f p with
    | .ok (_, q) => _
    | .error _ => _
  unfold Rd.bind
  have h1 := hx f p
  cases hr : x.denote f p with
  | error e => rw [hr] at h1; exact h1
  | ok r =>
    obtain ⟨a, q⟩ := r
    rw [hr] at h1
    dsimp only at h1 ⊢
    have h2 := hk a f q
    cases hr2 : (k a).denote f q with
    | error e => rw [hr2] at h2; dsimp only at h2 ⊢; omega
    | ok r2 => rw [hr2] at h2; obtain ⟨b, q2⟩ := r2; dsimp only at h2 ⊢; omega

theorem frugal_ret (a : α) : Frugal (.ret a) := by
  intro f p
  show 0 + p ≤ p ∧ p ≤ max p f.length
  omega

theorem frugal_pure (a : α) : Frugal (pure a : Act α) := frugal_ret a

theorem frugal_stop (e : Fail) : Frugal (.stop e : Act α) := by
  intro f p
  show 0 + p ≤ max p f.length + 1
  omega

theorem frugal_fail (e : TdmsError) : Frugal (fail e : Act α) := frugal_stop _

theorem work_take (n : Nat) (f : Bytes) (p : Nat) : (take n).work f p = 1 := by
  unfold take
  simp only [Act.work]
  cases Rd.exact n f p <;> rfl

theorem frugal_take {n : Nat} (hn : 0 < n) : Frugal (take n) := by
  intro f p
  rw [work_take, denote_take]
  unfold Rd.exact
  by_cases h : n = 0 ∨ p + n ≤ f.length
  · rw [if_pos h]
    dsimp only
    omega
  · rw [if_neg h]
    show 1 + p ≤ max p f.length + 1
    omega

theorem Frugal.ite {c : Prop} [Decidable c] {x y : Act α} (hx : Frugal x) (hy : Frugal y) : Frugal (if c then x else y) := by
  split
  · exact hx
  · exact hy

theorem frugal_uint (e : Endian) {w : Nat} (hw : 0 < w) : Frugal (uint e w) :=
  (frugal_take hw).bind (fun _ => frugal_pure _)

theorem frugal_many {x : Act α} (hx : Frugal x) : ∀ n, Frugal (many x n)
  | 0 => frugal_ret _
  | n + 1 => hx.bind (fun _ => (frugal_many hx n).bind (fun _ => frugal_pure _))

theorem frugal_string (al : Alloc) (e : Endian) : Frugal (string al e) := by
  have key : ∀ n : Nat, ∀ f p, 0 < p → match (stringWithLength al n).denote f p with
      | .ok (_, q) => (stringWithLength al n).work f p + p ≤ q + 1 ∧ q ≤ max p f.length
      | .error _ => (stringWithLength al n).work f p + p ≤ max p f.length + 1 := by
    intro n f p _
    unfold stringWithLength
    by_cases ha : al (.str n) = true
    · rw [if_pos ha, work_bind, bind_denote, work_take, denote_take]
      unfold Rd.exact
      by_cases h : n = 0 ∨ p + n ≤ f.length
      · rw [if_pos h]
        dsimp only
        cases utf8Dec ((f.drop p).take n) with
        | none => show 1 + 0 + p ≤ _; omega
        | some t => show 1 + 0 + p ≤ p + n + 1 ∧ p + n ≤ _; omega
      · rw [if_neg h]
        show 1 + 0 + p ≤ _
        omega
    · rw [if_neg ha]
      show 0 + p ≤ _
      omega
  intro f p
  unfold string
  rw [work_bind, bind_denote]
  have hw : (uint e 4).work f p = 1 := by
    unfold uint
    rw [work_bind, work_take]
    cases (take 4).denote f p <;> rfl
  have hd : (uint e 4).denote f p = if 4 = 0 ∨ p + 4 ≤ f.length then .ok (decNat e ((f.drop p).take 4), p + 4)
      else R.err (.ioError .unexpectedEof) := by
    unfold uint
    rw [bind_denote, denote_take]
    unfold Rd.exact
    by_cases h : 4 = 0 ∨ p + 4 ≤ f.length
    · rw [if_pos h, if_pos h]; rfl
    · rw [if_neg h, if_neg h]
  rw [hw, hd]
  by_cases h : 4 = 0 ∨ p + 4 ≤ f.length
  · rw [if_pos h]
    dsimp only
    have h2 := key (decNat e ((f.drop p).take 4)) f (p + 4) (by omega)
    cases hr : (stringWithLength al (decNat e ((f.drop p).take 4))).denote f (p + 4) with
    | error e =>
      rw [hr] at h2
      show (1 + (stringWithLength al _).work f (p + 4)) + p ≤ _
      dsimp only at h2
      omega
    | ok r =>
      rw [hr] at h2
      obtain ⟨_, q⟩ := r
      show (1 + (stringWithLength al _).work f (p + 4)) + p ≤ q ∧ q ≤ _
      dsimp only at h2
      omega
  · rw [if_neg h]
    show 1 + 0 + p ≤ max p f.length + 1
    omega

theorem frugal_numeric {w : Nat} (hw : 0 < w) (e : Endian) : Frugal (numeric w e) :=
  (frugal_take hw).bind (fun _ => frugal_pure _)

theorem frugal_value (al : Alloc) (t : STy) (e : Endian) : Frugal (value al t e) := by
  cases t
  case bool => exact (frugal_take (by decide)).bind (fun _ => frugal_pure _)
  case extended => exact (frugal_take (by decide)).bind (fun _ => by cases e <;> exact frugal_pure _)
  case timestamp => exact (frugal_take (by decide)).bind (fun _ => frugal_pure _)
  case complex32 =>
    exact (frugal_numeric (by decide) e).bind (fun _ => (frugal_numeric (by decide) e).bind (fun _ => frugal_pure _))
  case complex64 =>
    exact (frugal_numeric (by decide) e).bind (fun _ => (frugal_numeric (by decide) e).bind (fun _ => frugal_pure _))
  case string => exact frugal_string al e
  all_goals exact frugal_numeric (by decide) e

theorem frugal_dataType (e : Endian) : Frugal (dataType e) := by
  refine (frugal_uint e (by decide)).bind (fun n => ?_)
  cases DataType.ofCode? n with
  | none => exact frugal_fail _
  | some t => exact frugal_pure _

theorem frugal_property (al : Alloc) (e : Endian) : Frugal (property al e) := by
  refine (frugal_dataType e).bind (fun t => ?_)
  cases t
  all_goals
    first
    | exact frugal_pure _
    | exact frugal_fail _
    | exact (frugal_value al _ e).bind (fun _ => frugal_pure _)

theorem frugal_rawDataIndex (e : Endian) : Frugal (rawDataIndex e) := by
  refine (frugal_uint e (by decide)).bind (fun n => ?_)
  refine .ite (frugal_pure _) (.ite (frugal_pure _) (.ite (frugal_fail _) (.ite (frugal_fail _) ?_)))
  exact (frugal_dataType e).bind (fun _ => (frugal_uint e (by decide)).bind
    (fun _ => (frugal_uint e (by decide)).bind (fun _ => frugal_pure _)))

theorem frugal_object (al : Alloc) (e : Endian) : Frugal (object al e) := by
  refine (frugal_string al e).bind (fun _ => (frugal_rawDataIndex e).bind (fun _ =>
    (frugal_uint e (by decide)).bind (fun n => .ite ?_ (frugal_fail _))))
  refine (frugal_many ?_ n).bind (fun _ => frugal_pure _)
  exact (frugal_string al e).bind (fun _ => (frugal_property al e).bind (fun _ => frugal_pure _))

theorem frugal_segment (al : Alloc) (e : Endian) (toc : ToC) : Frugal (segment al e toc) := by
  refine (frugal_uint e (by decide)).bind (fun _ => (frugal_uint e (by decide)).bind (fun _ =>
    (frugal_uint e (by decide)).bind (fun _ => Frugal.bind ?_ (fun _ => frugal_pure _))))
  exact (frugal_uint e (by decide)).bind (fun n => .ite ((frugal_many (frugal_object al e) n).bind (fun _ => frugal_pure _))
    (frugal_fail _))

end Act

theorem segment_work (al : Alloc) (f : Bytes) (p : Nat) : match Segment.read al f p with
    | .ok (_, q) => Work.segment al f p + p ≤ q ∧ q ≤ max p f.length
    | .error _ => Work.segment al f p + p ≤ max p f.length + 1 := by
  unfold Segment.read Work.segment
  unfold Rd.exact
  by_cases h : 4 = 0 ∨ p + 4 ≤ f.length
  · rw [if_pos h]
    dsimp only
    by_cases ht : (f.drop p).take 4 ≠ tdsmTag
    · rw [if_pos ht, if_pos ht]
      show 1 + 0 + p ≤ _
      omega
    · rw [if_neg ht, if_neg ht]
      simp only [bind]
      unfold Rd.bind
      by_cases h2 : 4 = 0 ∨ p + 4 + 4 ≤ f.length
      · dsimp only
        rw [if_pos h2]
        dsimp only
        rw [← Act.denote_segment]
        have := Act.frugal_segment al
          (if (ToC.fromU32 (decNat Endian.little (List.take 4 (List.drop (p + 4) f)))).bigEndian = true then Endian.big
            else Endian.little) (ToC.fromU32 (decNat Endian.little (List.take 4 (List.drop (p + 4) f)))) f (p + 4 + 4)
        revert this
        generalize Act.segment al _ _ = a
        intro this
        cases hr : a.denote f (p + 4 + 4) with
        | error e => rw [hr] at this; dsimp only at this ⊢; omega
        | ok r => rw [hr] at this; obtain ⟨_, q⟩ := r; dsimp only at this ⊢; omega
      · simp only [if_neg h2]
        show 1 + (1 + 0) + p ≤ _
        omega
  · rw [if_neg h]
    show 1 + 0 + p ≤ _
    omega

/-- Opening a file takes at most `max |f| pos + 3 - pos` operations for each segment. -/
theorem openLoop_work (al : Alloc) (f : Bytes) : ∀ (fuel pos : Nat) (ix : Index),
    Work.openLoop al f fuel pos ix ≤ fuel * (f.length + 2) := by
  intro fuel
  induction fuel with
  | zero => intro pos ix; exact Nat.zero_le _
  | succ fuel ih =>
    intro pos ix
    unfold Work.openLoop
    have hs := segment_work al f pos
    rw [Nat.succ_mul]
    cases hr : Segment.read al f pos with
    | error e => rw [hr] at hs; dsimp only at hs ⊢; omega
    | ok r =>
      rw [hr] at hs
      obtain ⟨s, q⟩ := r
      dsimp only at hs ⊢
      cases ix.addSegment s with
      | mk r ix' =>
        cases r with
        | error e => dsimp only; omega
        | ok next =>
          have := ih next ix'
          show Work.segment al f pos + (1 + Work.openLoop al f fuel next ix') ≤ _
          omega

/-! ## Linear work for orderly files -/

/-- The positions at which a segment is looked for. -/
inductive Starts (al : Alloc) (f : Bytes) : Nat → Prop
  | first : Starts al f 0
  | next {p q : Nat} {s : Segment} : Starts al f p → Segment.read al f p = .ok (s, q) →
      Starts al f (p + (28 + s.nextSegmentOffset))

/-- The metadata of every segment lies inside the segment. -/
def Orderly (al : Alloc) (f : Bytes) : Prop :=
  ∀ p s q, Starts al f p → Segment.read al f p = .ok (s, q) → q ≤ p + (28 + s.nextSegmentOffset)

theorem openLoop_work_orderly {al : Alloc} {f : Bytes} (ho : Orderly al f) : ∀ (fuel pos : Nat) (ix : Index),
    Starts al f pos → ix.nextSegmentStart = pos →
    Work.openLoop al f fuel pos ix ≤ (f.length - pos) + 1 + fuel := by
  intro fuel
  induction fuel with
  | zero => intro pos ix _ _; exact Nat.zero_le _
  | succ fuel ih =>
    intro pos ix hst hpos
    unfold Work.openLoop
    have hs := segment_work al f pos
    cases hr : Segment.read al f pos with
    | error e => rw [hr] at hs; dsimp only at hs ⊢; omega
    | ok r =>
      rw [hr] at hs
      obtain ⟨s, q⟩ := r
      have hq := ho pos s q hst hr
      have hwork : 1 ≤ Work.segment al f pos := by unfold Work.segment; omega
      dsimp only at hs ⊢
      cases ha : ix.addSegment s with
      | mk r ix' =>
        cases r with
        | error e => dsimp only; omega
        | ok next =>
          obtain ⟨h1, h2, _⟩ := addSegment_next ha
          rw [hpos] at h1
          have := ih next ix' (by rw [h1]; exact .next hst hr) h2
          show Work.segment al f pos + (1 + Work.openLoop al f fuel next ix') ≤ _
          omega

/-! ## Reading: bounds that hold for every stream -/

namespace Act
variable {α β : Type}

/-- At most `n` operations, whatever is read, and a result with property `P`. -/
def Within (P : α → Prop) : Act α → Nat → Prop
  | .ret a, _ => P a
  | .stop _, _ => True
  | .exact _ next, n => 0 < n ∧ ∀ bs, (next bs).Within P (n - 1)
  | .move _ next, n => 0 < n ∧ next.Within P (n - 1)

theorem Within.mono {P : α → Prop} {a : Act α} : ∀ {m n : Nat}, a.Within P m → m ≤ n → a.Within P n := by
  induction a with
  | ret a => intro m n h _; exact h
  | stop e => intro m n _ _; exact True.intro
  | exact k next ih => intro m n h hmn; exact ⟨Nat.lt_of_lt_of_le h.1 hmn, fun bs => ih bs (h.2 bs) (by omega)⟩
  | move o next ih => intro m n h hmn; exact ⟨Nat.lt_of_lt_of_le h.1 hmn, ih h.2 (by omega)⟩

theorem Within.bind {P : α → Prop} {Q : β → Prop} {x : Act α} {k : α → Act β} {n : Nat} (hk : ∀ a, P a → (k a).Within Q n) :
    ∀ {m : Nat}, x.Within P m → (x >>= k).Within Q (m + n) := by
  show ∀ {m : Nat}, x.Within P m → (Act.bind x k).Within Q (m + n)
  induction x with
  | ret a => intro m h; exact (hk a h).mono (by omega)
  | stop e => intro m _; exact True.intro
  | exact j next ih =>
    intro m h
    refine ⟨by have := h.1; omega, fun bs => ?_⟩
    exact (ih bs (h.2 bs)).mono (by have := h.1; omega)
  | move o next ih =>
    intro m h
    refine ⟨by have := h.1; omega, ?_⟩
    exact (ih h.2).mono (by have := h.1; omega)

theorem Within.work {P : α → Prop} {a : Act α} (f : Bytes) : ∀ {n : Nat} (p : Nat), a.Within P n → a.work f p ≤ n := by
  induction a with
  | ret a => intro n p _; exact Nat.zero_le _
  | stop e => intro n p _; exact Nat.zero_le _
  | exact k next ih =>
    intro n p h
    have h1 := h.1
    simp only [Act.work]
    cases Rd.exact k f p with
    | error e => dsimp only; omega
    | ok r => have := ih r.1 r.2 (h.2 r.1); dsimp only; omega
  | move o next ih =>
    intro n p h
    have h1 := h.1
    simp only [Act.work]
    cases Rd.move o f p with
    | error e => dsimp only; omega
    | ok r => have := ih r.2 h.2; dsimp only; omega

theorem within_pure {P : α → Prop} {a : α} (h : P a) (n : Nat) : (pure a : Act α).Within P n := h

theorem within_take (n : Nat) : (take n).Within (fun _ => True) 1 := ⟨by omega, fun _ => True.intro⟩

theorem within_skip (o : Int) : (skip o).Within (fun _ => True) 1 := ⟨by omega, True.intro⟩

theorem within_lift {x : R α} : (lift x).Within (fun a => x = .ok a) 0 := by
  cases x with
  | ok a => rfl
  | error e => exact True.intro

/-- Every value takes at most two operations. -/
theorem within_value (al : Alloc) (t : STy) (e : Endian) : (value al t e).Within (fun _ => True) 2 := by
  have num : ∀ w, (numeric w e).Within (fun _ => True) 1 := fun w =>
    (Within.bind (n := 0) (fun _ _ => within_pure (P := fun _ => True) True.intro 0) (within_take w)).mono (by omega)
  have num2 : ∀ w, (numeric w e).Within (fun _ => True) 2 := fun w => (num w).mono (by omega)
  have cpx : ∀ w, (complex w e).Within (fun _ => True) 2 := fun w =>
    (Within.bind (n := 1) (fun _ _ => Within.bind (n := 0) (fun _ _ => within_pure (P := fun _ => True) True.intro 0) (num w)) (num w)).mono
      (by omega)
  cases t
  case bool =>
    exact (Within.bind (n := 0) (fun _ _ => within_pure (P := fun _ => True) True.intro 0) (within_take 1)).mono (by omega)
  case extended =>
    refine (Within.bind (n := 0) (fun _ _ => ?_) (within_take 10)).mono (show 1 + 0 ≤ 2 by omega)
    cases e <;> exact True.intro
  case timestamp =>
    exact (Within.bind (n := 0) (fun _ _ => within_pure (P := fun _ => True) True.intro 0) (within_take 16)).mono (by omega)
  case complex32 => exact cpx 4
  case complex64 => exact cpx 8
  case string =>
    have h1 : (uint e 4).Within (fun _ => True) 1 :=
      (Within.bind (n := 0) (fun _ _ => within_pure (P := fun _ => True) True.intro 0) (within_take 4)).mono (by omega)
    refine Within.bind (n := 1) (fun n _ => ?_) h1
    unfold stringWithLength
    split
    · refine (Within.bind (n := 0) (fun b _ => ?_) (within_take n)).mono (show 1 + 0 ≤ 1 by omega)
      cases utf8Dec b <;> exact True.intro
    · exact True.intro
  all_goals first
    | exact num2 1
    | exact num2 2
    | exact num2 4
    | exact num2 8

/-- What stays the same while a plan is executed: the lengths, and which entries are read. -/
def shape (plan : List (RecordEntry α)) : List (Nat × Option Nat) :=
  plan.map (fun en => (en.length, match en.plan with
    | .skip b => some b
    | .read _ _ _ => none))

/-- A bound on the operations for one chunk. -/
def chunkWork : List (Nat × Option Nat) → Nat
  | [] => 0
  | (_, some _) :: rest => 1 + chunkWork rest
  | (n, none) :: rest => (1 + (2 * n + 1)) + chunkWork rest

variable {S : Storage α} {rd : Act α}

theorem within_values (h : rd.Within (fun _ => True) 2) : ∀ (n : Nat) (it : OutIter α),
    (values rd n it).Within (fun _ => True) (2 * n)
  | 0, it => True.intro
  | n + 1, it => by
    unfold values
    cases it.rest with
    | nil => exact True.intro
    | cons c rest =>
      refine Within.mono (Within.bind (n := 2 * n) (fun v _ => ?_) h) (by omega)
      exact (Within.bind (P := fun _ => True) (n := 0) (fun r _ => within_pure (P := fun _ => True) True.intro 0)
        (within_values h n _)).mono (by omega)

theorem within_sequential (h : rd.Within (fun _ => True) 2) (out : OutIter α) (n : Nat) :
    (sequential S rd out n).Within (fun _ => True) (2 * n + 1) := by
  unfold sequential
  refine Within.bind (n := 1) (fun r _ => ?_) (within_values h n out)
  dsimp only
  split
  · refine Within.mono (Within.bind (n := 1) (fun o _ => ?_) within_lift) (by omega)
    exact (Within.bind (n := 0) (fun _ _ => within_pure (P := fun _ => True) True.intro 0) (within_skip o)).mono (by omega)
  · exact True.intro

theorem within_subBlock (h : rd.Within (fun _ => True) 2) : ∀ (plan : List (RecordEntry α)) (n : Nat),
    (subBlock S rd n plan).Within (fun r => shape r.2 = shape plan) (chunkWork (shape plan))
  | [], n => rfl
  | en :: rest, n => by
    unfold subBlock
    obtain ⟨len, plan⟩ := en
    cases plan with
    | skip b =>
      show Within _ _ (1 + chunkWork (shape rest))
      refine (Within.bind (n := 1 + chunkWork (shape rest)) (fun o _ => ?_) within_lift).mono (by omega)
      refine Within.bind (n := chunkWork (shape rest)) (fun _ _ => ?_) (within_skip o)
      refine Within.bind (n := 0) (fun r hr => ?_) (within_subBlock h rest n)
      show shape (_ :: r.2) = shape (_ :: rest)
      unfold shape at hr ⊢
      rw [List.map_cons, List.map_cons, hr]
    | read slot out sk =>
      show Within _ _ ((1 + (2 * len + 1)) + chunkWork (shape rest))
      have tail : ∀ k, (sequential S rd out k >>= fun x => subBlock S rd x.1 rest >>= fun y =>
          pure (y.1, { length := len, plan := EntryPlan.read slot x.2 sk } :: y.2)).Within
            (fun r => shape r.2 = shape (⟨len, .read slot out sk⟩ :: rest)) ((2 * k + 1) + chunkWork (shape rest)) := by
        intro k
        refine Within.bind (n := chunkWork (shape rest)) (fun x _ => ?_) (within_sequential h out k)
        refine Within.bind (n := 0) (fun r hr => ?_) (within_subBlock h rest x.1)
        show shape (_ :: r.2) = shape (_ :: rest)
        unfold shape at hr ⊢
        rw [List.map_cons, List.map_cons, hr]
      dsimp only
      split
      · refine (Within.bind (n := 1 + ((2 * len + 1) + chunkWork (shape rest))) (fun o _ => ?_) within_lift).mono (by omega)
        exact Within.bind (n := (2 * len + 1) + chunkWork (shape rest))
          (fun _ _ => (tail _).mono (by omega)) (within_skip o)
      · exact (tail _).mono (by omega)

theorem shape_mapSkips (g : Nat → Nat) (plan : List (RecordEntry α)) : shape (mapSkips g plan) = shape plan := by
  unfold shape mapSkips
  rw [List.map_map]
  apply List.map_congr_left
  intro en _
  obtain ⟨len, p⟩ := en
  cases p <;> rfl

theorem shape_setSkips : ∀ (ss : List Nat) (plan : List (RecordEntry α)), shape (setSkips ss plan) = shape plan
  | [], [] => rfl
  | _ :: _, [] => rfl
  | [], _ :: _ => rfl
  | s :: ss, ⟨len, .read slot out k⟩ :: rest => by
    show (len, none) :: shape (setSkips ss rest) = (len, none) :: shape rest
    rw [shape_setSkips ss rest]
  | s :: ss, ⟨len, .skip b⟩ :: rest => by
    show (len, some b) :: shape (setSkips (s :: ss) rest) = (len, some b) :: shape rest
    rw [shape_setSkips (s :: ss) rest]

theorem within_contigLoop (h : rd.Within (fun _ => True) 2) {W : Nat} (hW : 1 ≤ W) (bs toSkip remainder : Nat) :
    ∀ (remaining idx : Nat) (plan : List (RecordEntry α)) (length : Nat), chunkWork (shape plan) ≤ W →
    (contigLoop S rd bs toSkip remainder remaining idx plan length).Within (fun _ => True) (remaining * W)
  | 0, idx, plan, length, _ => True.intro
  | remaining + 1, idx, plan, length, hp => by
    unfold contigLoop
    rw [Nat.succ_mul, Nat.add_comm (remaining * _)]
    split
    · exact Within.bind (n := remaining * W) (fun _ _ => within_contigLoop h hW bs toSkip remainder _ _ _ _ hp)
        ((within_skip _).mono hW)
    · split
      · refine Within.bind (n := remaining * W) (fun r hr => ?_) ((within_subBlock h _ 0).mono ?_)
        · exact within_contigLoop h hW bs toSkip remainder _ _ _ _ (by rw [hr, shape_mapSkips]; exact hp)
        · rw [shape_mapSkips]; exact hp
      · refine Within.bind (n := remaining * W) (fun r hr => ?_) ((within_subBlock h _ 0).mono ?_)
        · exact within_contigLoop h hW bs toSkip remainder _ _ _ _ (by rw [hr, shape_mapSkips]; exact hp)
        · rw [shape_mapSkips]; exact hp

theorem within_contigSkipLoop (h : rd.Within (fun _ => True) 2) {W : Nat} (hW : 1 ≤ W) (bs : Nat) (toSkip remainders : List Nat) :
    ∀ (remaining idx : Nat) (plan : List (RecordEntry α)) (length : Nat), chunkWork (shape plan) ≤ W →
    (contigSkipLoop S rd bs toSkip remainders remaining idx plan length).Within (fun _ => True) (remaining * W)
  | 0, idx, plan, length, _ => True.intro
  | remaining + 1, idx, plan, length, hp => by
    unfold contigSkipLoop
    rw [Nat.succ_mul, Nat.add_comm (remaining * _)]
    split
    · refine Within.bind (n := remaining * W) (fun r hr => ?_) ((within_subBlock h _ 0).mono ?_)
      · exact within_contigSkipLoop h hW bs toSkip remainders _ _ _ _ (by rw [hr, shape_setSkips]; exact hp)
      · rw [shape_setSkips]; exact hp
    · exact Within.bind (n := remaining * W) (fun _ _ => within_contigSkipLoop h hW bs toSkip remainders _ _ _ _ hp)
        ((within_skip _).mono hW)

theorem chunkWork_le (hm : 1 ≤ S.memSize) : ∀ plan : List (RecordEntry α),
    chunkWork (shape plan) ≤ 2 * (plan.map (fun e => e.plan.sizeBytes S * e.length)).sum + 2 * plan.length
  | [] => Nat.le_refl _
  | ⟨len, .skip b⟩ :: rest => by
    have := chunkWork_le hm rest
    show 1 + chunkWork (shape rest) ≤ 2 * (b * len + (rest.map (fun e => e.plan.sizeBytes S * e.length)).sum) + 2 * (rest.length + 1)
    generalize (rest.map (fun e => e.plan.sizeBytes S * e.length)).sum = x at this ⊢
    generalize b * len = y
    omega
  | ⟨len, .read slot out k⟩ :: rest => by
    have := chunkWork_le hm rest
    show (1 + (2 * len + 1)) + chunkWork (shape rest) ≤
      2 * (S.memSize * len + (rest.map (fun e => e.plan.sizeBytes S * e.length)).sum) + 2 * (rest.length + 1)
    have h1 : 1 * len ≤ S.memSize * len := Nat.mul_le_mul_right _ hm
    generalize (rest.map (fun e => e.plan.sizeBytes S * e.length)).sum = x at this ⊢
    generalize S.memSize * len = y at h1 ⊢
    omega

theorem chunks_work {bs size total C : Nat} (hd : divR size bs = .ok total) :
    total * (2 * bs + 2 * C) ≤ size * (2 + 2 * C) := by
  unfold divR at hd
  split at hd
  · cases hd
  · cases hd
    have h1 : size / bs * bs ≤ size := Nat.div_mul_le_self _ _
    have h2 : size / bs ≤ size := Nat.div_le_self _ _
    have h3 : size / bs * (2 * C) ≤ size * (2 * C) := Nat.mul_le_mul_right _ h2
    rw [Nat.mul_add, Nat.mul_add, Nat.mul_left_comm]
    omega

theorem plan_ne_nil {plan : List (RecordEntry α)} {n : Nat} (h : firstLength plan = .ok n) : 1 ≤ plan.length := by
  cases plan with
  | nil => cases h
  | cons _ _ => simp

theorem within_contigReadFrom (h : rd.Within (fun _ => True) 2) (hm : 1 ≤ S.memSize) (size : Nat) (plan : List (RecordEntry α))
    (start : Nat) : (contigReadFrom S rd size plan start).Within (fun _ => True) (size * (2 + 2 * plan.length)) := by
  unfold contigReadFrom
  rw [← Nat.zero_add (size * _)]
  refine Within.bind (n := size * (2 + 2 * plan.length)) (fun bs hbs => ?_) within_lift
  rw [← Nat.zero_add (size * _)]
  refine Within.bind (n := size * (2 + 2 * plan.length)) (fun total ht => ?_) within_lift
  rw [← Nat.zero_add (size * _)]
  refine Within.bind (n := size * (2 + 2 * plan.length)) (fun sub hsub => ?_) within_lift
  rw [← Nat.zero_add (size * _)]
  refine Within.bind (n := size * (2 + 2 * plan.length)) (fun toSkip _ => ?_) within_lift
  have hne := plan_ne_nil hsub
  refine Within.mono (within_contigLoop (W := 2 * bs + 2 * plan.length) h (by omega) bs toSkip (start % sub) total 0 plan 0 ?_) (chunks_work ht)
  unfold blockSize at hbs
  dsimp only at hbs
  split at hbs
  · cases hbs; exact chunkWork_le hm plan
  · cases hbs

theorem within_contigReadSkip (h : rd.Within (fun _ => True) 2) (hm : 1 ≤ S.memSize) (size : Nat) (plan : List (RecordEntry α))
    (skips : List Nat) : (contigReadSkip S rd size plan skips).Within (fun _ => True) (size * (2 + 2 * plan.length)) := by
  unfold contigReadSkip
  rw [← Nat.zero_add (size * _)]
  refine Within.bind (n := size * (2 + 2 * plan.length)) (fun bs hbs => ?_) within_lift
  rw [← Nat.zero_add (size * _)]
  refine Within.bind (n := size * (2 + 2 * plan.length)) (fun total ht => ?_) within_lift
  rw [← Nat.zero_add (size * _)]
  refine Within.bind (n := size * (2 + 2 * plan.length)) (fun sub hsub => ?_) within_lift
  rw [← Nat.zero_add (size * _)]
  refine Within.bind (n := size * (2 + 2 * plan.length)) (fun toSkip _ => ?_) within_lift
  have hne := plan_ne_nil hsub
  refine Within.mono (within_contigSkipLoop (W := 2 * bs + 2 * plan.length) h (by omega) bs toSkip _ total 0 plan 0 ?_) (chunks_work ht)
  unfold blockSize at hbs
  dsimp only at hbs
  split at hbs
  · cases hbs; exact chunkWork_le hm plan
  · cases hbs

theorem within_row (h : rd.Within (fun _ => True) 2) (r : Nat) : ∀ (plan : List (RecordEntry α)) (any : Bool),
    (row rd r any plan).Within (fun x => x.2.length = plan.length) (2 * plan.length)
  | [], any => rfl
  | ⟨len, .skip b⟩ :: rest, any => by
    unfold row
    have h2 : ((row rd r any rest >>= fun x => pure (x.1, (⟨len, .skip b⟩ : RecordEntry α) :: x.2)) : Act _).Within
        (fun x => x.2.length = rest.length + 1) (2 * rest.length + 0) :=
      Within.bind (n := 0) (fun x hx => by show (_ :: x.2).length = _; rw [List.length_cons, hx]) (within_row h r rest any)
    exact (Within.bind (n := 2 * rest.length) (fun _ _ => h2.mono (by omega)) (within_skip (b : Int))).mono
      (by rw [List.length_cons]; omega)
  | ⟨len, .read slot out k⟩ :: rest, any => by
    unfold row
    refine (Within.bind (n := 2 * rest.length) (fun v _ => ?_) h).mono (show 2 + 2 * rest.length ≤ 2 * (rest.length + 1) by omega)
    dsimp only
    refine (Within.bind (n := 0) (fun x hx => ?_) (within_row h r rest _)).mono (by omega)
    show (_ :: x.2).length = _
    rw [List.length_cons, hx]
    rfl

theorem within_interLoop (h : rd.Within (fun _ => True) 2) (C : Nat) : ∀ (remaining r : Nat) (plan : List (RecordEntry α))
    (samples : Nat), plan.length = C → (interLoop rd remaining r plan samples).Within (fun _ => True) (remaining * (2 * C))
  | 0, r, plan, samples, _ => True.intro
  | remaining + 1, r, plan, samples, hp => by
    unfold interLoop
    rw [Nat.succ_mul, Nat.add_comm (remaining * _)]
    refine Within.bind (n := remaining * (2 * C)) (fun x hx => ?_) (hp ▸ within_row h r plan false)
    dsimp only
    split
    · exact within_interLoop h C _ _ _ _ hx
    · exact True.intro

theorem within_interRead (h : rd.Within (fun _ => True) 2) (size : Nat) (plan : List (RecordEntry α)) :
    (interRead S rd size plan).Within (fun _ => True) (1 + size * (2 * plan.length)) := by
  have hlen : ∀ g : Nat → Nat, (mapSkips g plan).length = plan.length := by
    intro g; unfold mapSkips; rw [List.length_map]
  unfold interRead
  rw [← Nat.zero_add (1 + size * _)]
  refine Within.bind (n := 1 + size * (2 * plan.length)) (fun total ht => ?_) within_lift
  have htot : total ≤ size := by
    unfold divR at ht
    split at ht
    · cases ht
    · cases ht; exact Nat.div_le_self _ _
  have loop : ∀ k, (interLoop rd (total - k) 0 (mapSkips (fun s => s - k) plan) 0).Within (fun _ => True) (size * (2 * plan.length)) := by
    intro k
    refine Within.mono (within_interLoop h plan.length _ _ _ _ (hlen _)) ?_
    exact Nat.mul_le_mul_right _ (by omega)
  dsimp only
  split
  · rw [← Nat.zero_add (1 + size * _)]
    refine Within.bind (n := 1 + size * (2 * plan.length)) (fun o _ => ?_) within_lift
    exact Within.bind (n := size * (2 * plan.length)) (fun _ _ => loop _) (within_skip o)
  · exact (loop _).mono (by omega)

end Act

/-! ## Blocks and plans -/

section
variable {α : Type}

theorem setReadable_length : ∀ (reqs : List (ChannelRequest α)) {plan p : List (RecordEntry α)},
    setReadable plan reqs = .ok p → p.length = plan.length
  | [], _, _, h => by cases h; rfl
  | r :: rs, plan, p, h => by
    unfold setReadable at h
    split at h
    · cases h
    · rw [setReadable_length rs h, List.length_set]

theorem buildRecordPlan_length {S : Storage α} {channels : List RawDataMeta} {reqs : List (ChannelRequest α)}
    {p : List (RecordEntry α)} (h : buildRecordPlan S channels reqs = .ok p) : p.length = channels.length := by
  unfold buildRecordPlan at h
  obtain ⟨_, _, h⟩ := bind_ok_iff.mp h
  rw [setReadable_length reqs h]
  unfold baseRecord
  rw [List.length_map]

theorem setSkips_length : ∀ (ss : List Nat) (plan : List (RecordEntry α)), (setSkips ss plan).length = plan.length := by
  intro ss plan
  have h := congrArg List.length (Act.shape_setSkips ss plan)
  unfold Act.shape at h
  rwa [List.length_map, List.length_map] at h

end

/-- A bound on the work of a block. -/
def blockBound (b : DataBlock) : Nat := 2 + b.length * (2 + 2 * b.channels.length)

theorem block_work (al : Alloc) (ty : STy) (f : Bytes) (b : DataBlock) (anySkip : Bool) (reqs : List (ChannelRequest ty.Val)) :
    Work.block al ty f b anySkip reqs ≤ blockBound b := by
  unfold Work.block blockBound
  cases hp : buildRecordPlan (ty.storage al) b.channels reqs with
  | error e => exact Nat.zero_le _
  | ok plan =>
    have hl := buildRecordPlan_length hp
    have hm := (STy.memSize_bounds al ty).1
    have hv := Act.within_value al ty b.byteOrder
    have hmul : b.length * (2 * b.channels.length) ≤ b.length * (2 + 2 * b.channels.length) :=
      Nat.mul_le_mul_left _ (by omega)
    dsimp only
    cases b.layout <;> cases anySkip <;> dsimp only
    · have := (Act.within_interRead (S := ty.storage al) hv b.length plan).work f b.start
      rw [hl] at this; omega
    · have := (Act.within_interRead (S := ty.storage al) hv b.length (setSkips (reqs.map (·.skip)) plan)).work f b.start
      rw [setSkips_length, hl] at this; omega
    · have := (Act.within_contigReadFrom (S := ty.storage al) hv hm b.length plan 0).work f b.start
      rw [hl] at this; omega
    · have := (Act.within_contigReadSkip (S := ty.storage al) hv hm b.length plan (reqs.map (·.skip))).work f b.start
      rw [hl] at this; omega

theorem sum_drop_get {bs : List DataBlock} (g : DataBlock → Nat) {k : Nat} {b : DataBlock} (h : bs[k]? = some b) :
    ((bs.drop k).map g).sum = g b + ((bs.drop (k + 1)).map g).sum := by
  obtain ⟨hk, hb⟩ := List.getElem?_eq_some_iff.mp h
  rw [List.drop_eq_getElem_cons hk, List.map_cons, List.sum_cons, hb]

theorem sum_drop_le (bs : List DataBlock) (g : DataBlock → Nat) {j k : Nat} (h : j ≤ k) :
    ((bs.drop k).map g).sum ≤ ((bs.drop j).map g).sum := by
  induction h with
  | refl => exact Nat.le_refl _
  | @step m h ih =>
    refine Nat.le_trans ?_ ih
    cases hb : bs[m]? with
    | none =>
      rw [List.getElem?_eq_none_iff] at hb
      rw [List.drop_eq_nil_of_le (by omega)]
      exact Nat.zero_le _
    | some b => rw [sum_drop_get g hb]; exact Nat.le_add_left _ _

theorem plan_work (al : Alloc) (ty : STy) (t : TdmsFile) : ∀ (locs : List BlockRead) (ps : List (Progress ty.Val)) (k : Nat),
    locs.Pairwise (fun a b => a.dataBlock < b.dataBlock) → (∀ l ∈ locs, k ≤ l.dataBlock) →
    Work.plan al ty t locs ps ≤ ((t.index.dataBlocks.drop k).map blockBound).sum
  | [], ps, k, _, _ => Nat.zero_le _
  | loc :: locs, ps, k, hp, hk => by
    obtain ⟨h1, h2⟩ := List.pairwise_cons.mp hp
    unfold Work.plan
    have hrest : (match executeBlock (ty.storage al) t loc ps with
        | .error _ => 0
        | .ok ps => if ps.all Progress.isComplete then 0 else Work.plan al ty t locs ps) ≤
        ((t.index.dataBlocks.drop (loc.dataBlock + 1)).map blockBound).sum := by
      cases executeBlock (ty.storage al) t loc ps with
      | error e => exact Nat.zero_le _
      | ok ps =>
        dsimp only
        split
        · exact Nat.zero_le _
        · exact plan_work al ty t locs ps _ h2 (fun l hl => h1 l hl)
    refine Nat.le_trans (Nat.add_le_add_left hrest _) ?_
    refine Nat.le_trans ?_ (sum_drop_le _ _ (hk loc (List.mem_cons_self ..)))
    unfold Index.getDataBlock
    cases hb : t.index.dataBlocks[loc.dataBlock]? with
    | none =>
      dsimp only
      rw [Nat.zero_add]
      exact sum_drop_le _ _ (by omega)
    | some b =>
      rw [sum_drop_get _ hb]
      exact Nat.add_le_add_right (block_work ..) _

theorem channels_work {al : Alloc} {t : TdmsFile} (hs : Session al t) (ty : STy) (cs : List ChannelPath) (start : Nat)
    (outs : List (List ty.Val)) : Work.channels al ty t cs start outs ≤ (t.index.dataBlocks.map blockBound).sum := by
  unfold Work.channels
  cases hpos : t.lookupPositions cs with
  | error e => exact Nat.zero_le _
  | ok pos =>
    obtain ⟨plan, hplan, hpw, _⟩ := read_plan_exact hs cs start pos hpos
    dsimp only
    rw [hplan]
    exact plan_work al ty t plan _ 0 hpw (fun _ _ => Nat.zero_le _)

theorem channel_work {al : Alloc} {t : TdmsFile} (hs : Session al t) (ty : STy) (c : ChannelPath) (start : Nat)
    (out : List ty.Val) : Work.channel al ty t c start out ≤ (t.index.dataBlocks.map blockBound).sum := by
  have h := channels_work hs ty [c] start [out]
  unfold Work.channels TdmsFile.lookupPositions TdmsFile.lookupPositions at h
  unfold Work.channel
  cases hc : t.index.getChannelDataPositions c with
  | none => exact Nat.zero_le _
  | some ls => rw [hc] at h; exact h

/-! ## The data blocks of an opened file -/

/-- Every data block lies in a segment of its own before the end. -/
def Index.Sized (ix : Index) : Prop := (ix.dataBlocks.map (fun b => 28 + b.length)).sum ≤ ix.nextSegmentStart

theorem addRawData_sized (ix : Index) (s : Segment) :
    (ix.addRawData s).2.dataBlocks = ix.dataBlocks ∨
    ∃ b : DataBlock, (ix.addRawData s).2.dataBlocks = ix.dataBlocks ++ [b] ∧ b.length ≤ s.nextSegmentOffset := by
  unfold Index.addRawData
  split
  · split
    · exact Or.inl rfl
    · rename_i chs _
      split
      · exact Or.inl rfl
      · rename_i hne
        have hc := fromSegment_cases s ix.nextSegmentStart chs (by intro h; rw [h] at hne; exact hne rfl)
        split
        · exact Or.inl rfl
        · rename_i b hb
          rw [hb] at hc
          unfold Index.insertDataBlock
          split
          · exact Or.inl rfl
          · refine Or.inr ⟨b, rfl, ?_⟩
            rcases hc with ⟨_, h⟩ | ⟨_, h⟩ | ⟨_, _, h⟩ | ⟨_, _, h⟩
            · cases h
            · cases h
            · cases h
            · cases h; exact Nat.sub_le _ _
  · exact Or.inl rfl

theorem Index.Sized.addSegment {ix ix' : Index} {s : Segment} {n : Nat} (hs : ix.Sized) (h : ix.addSegment s = (.ok n, ix')) :
    ix'.Sized := by
  obtain ⟨h1, h2, _⟩ := addSegment_next h
  have hblocks : ix'.dataBlocks = ix.dataBlocks ∨
      ∃ b : DataBlock, ix'.dataBlocks = ix.dataBlocks ++ [b] ∧ b.length ≤ s.nextSegmentOffset := by
    rw [addSegment_eq] at h
    have hf := (afterObjects_frame ix s).2
    revert h hf
    cases afterObjects ix s with
    | mk r ix1 =>
      intro h hf
      cases r with
      | error e => cases h
      | ok u =>
        dsimp only at h hf
        have hb := addRawData_sized ix1 s
        revert h hb
        cases ix1.addRawData s with
        | mk r2 ix2 =>
          intro h hb
          cases r2 with
          | error e => cases h
          | ok u =>
            dsimp only at h hb
            rw [hf] at hb
            unfold Index.advance at h
            split at h
            · cases h
            · split at h
              · cases h; exact hb
              · cases h
  unfold Index.Sized at hs ⊢
  rcases hblocks with hb | ⟨b, hb, hl⟩
  · rw [hb, h2, h1]; omega
  · rw [hb, h2, h1, List.map_append, List.sum_append]
    show _ + (28 + b.length + 0) ≤ _
    omega

theorem Index.Sized.replay {segs : List Segment} : ∀ {ix ix' : Index}, ix.Sized → SegSpec.replay ix segs = .ok ix' → ix'.Sized := by
  induction segs with
  | nil => intro ix ix' h hr; cases hr; exact h
  | cons s segs ih =>
    intro ix ix' h hr
    unfold SegSpec.replay at hr
    split at hr
    · cases hr
    · rename_i n ix1 ha
      exact ih (h.addSegment ha) hr

theorem opened_sized {al : Alloc} {f : Bytes} {t : TdmsFile} (h : TdmsFile.new al f = .ok t) : t.index.Sized := by
  obtain ⟨_, segs, _, hr⟩ := Tedium.opened h
  exact Index.Sized.replay (ix := Index.new) (Nat.le_refl 0) hr

theorem sum_blockBound {C : Nat} : ∀ (bs : List DataBlock), (∀ b ∈ bs, b.channels.length ≤ C) →
    (bs.map blockBound).sum ≤ (bs.map (fun b => 28 + b.length)).sum * (2 + 2 * C)
  | [], _ => by simp
  | b :: bs, h => by
    have ih := sum_blockBound bs (fun x hx => h x (List.mem_cons_of_mem _ hx))
    have hc := h b (List.mem_cons_self ..)
    rw [List.map_cons, List.sum_cons, List.map_cons, List.sum_cons, Nat.add_mul]
    refine Nat.add_le_add ?_ ih
    unfold blockBound
    have : b.length * (2 + 2 * b.channels.length) ≤ b.length * (2 + 2 * C) := Nat.mul_le_mul_left _ (by omega)
    rw [Nat.add_mul]
    have : 28 * 2 ≤ 28 * (2 + 2 * C) := Nat.mul_le_mul_left _ (by omega)
    omega

/-! ## Endless moves behind a full buffer -/

theorem subBlock_full {α : Type} {S : Storage α} (hS : S.memSize = 1) (rd : Act α) (slot : Nat) (done : List α) :
    Act.subBlock S rd 0 [⟨1, .read slot ⟨done, []⟩ 0⟩] = .move 1 (.ret (0, [⟨1, .read slot ⟨done, []⟩ 0⟩])) := by
  have hm : mulI64 (toI64 1) (toI64 S.memSize) = .ok 1 := by rw [hS]; decide
  have hseq : Act.sequential S rd ⟨done, []⟩ 1 = .move 1 (.ret (0, ⟨done, []⟩)) := by
    show (Act.lift (mulI64 (toI64 1) (toI64 S.memSize)) >>= fun off => (do Act.skip off; return (0, (⟨done, []⟩ : OutIter α)))) = _
    rw [hm]
    rfl
  show (Act.sequential S rd ⟨done, []⟩ 1 >>= fun x => Act.subBlock S rd x.1 [] >>= fun y =>
    pure (y.1, (⟨1, .read slot x.2 0⟩ : RecordEntry α) :: y.2)) = _
  rw [hseq]
  rfl

theorem contigLoop_full {α : Type} (S : Storage α) (hS : S.memSize = 1) (rd : Act α) (f : Bytes) (slot : Nat) (done : List α) :
    ∀ (n idx : Nat) (k p length : Nat), 0 < idx → p + n < 2 ^ 63 →
    n ≤ (Act.contigLoop S rd 1 0 0 n idx [⟨1, .read slot ⟨done, []⟩ k⟩] length).work f p
  | 0, _, _, _, _, _, _ => Nat.zero_le _
  | n + 1, idx, k, p, length, hidx, hp => by
    have ih := contigLoop_full S hS rd f slot done n (idx + 1) 0 (p + 1) (length + 0) (by omega) (by omega)
    unfold Act.contigLoop
    rw [if_neg (Nat.not_lt_zero _), if_neg (Nat.ne_of_gt hidx)]
    show n + 1 ≤ ((Act.subBlock S rd 0 [⟨1, .read slot ⟨done, []⟩ 0⟩]) >>= fun x =>
      Act.contigLoop S rd 1 0 0 n (idx + 1) x.2 (length + x.1)).work f p
    rw [subBlock_full hS]
    show n + 1 ≤ (Act.move 1 (Act.contigLoop S rd 1 0 0 n (idx + 1) [⟨1, .read slot ⟨done, []⟩ 0⟩] (length + 0))).work f p
    unfold Act.work
    have hmove : Rd.move 1 f p = .ok ((), p + 1) := by
      unfold Rd.move
      dsimp only
      rw [if_neg (by omega)]
      rfl
    rw [hmove]
    dsimp only
    omega

end Tedium
