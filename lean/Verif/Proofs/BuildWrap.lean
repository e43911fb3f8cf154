import Verif.Proofs.BuildReads
import Verif.Proofs.Fixed
import Verif.Proofs.ReadFile

/-! # What a wrapped distance does to a read -/

namespace Tedium
open SegSpec PlanSpec

/-- `y` is `x`, or an error where `x` is an overflow panic. -/
def R.Halts {α : Type} (x y : R α) : Prop := y = x ∨ (x = R.panic .overflow ∧ ∃ e, y = R.err e)

namespace R.Halts
variable {α β : Type}

theorem rfl {x : R α} : R.Halts x x := Or.inl (Eq.refl _)

theorem bind' {x y : R α} {k l : α → R β} (h : R.Halts x y) (hk : ∀ a, x = .ok a → R.Halts (k a) (l a)) :
    R.Halts (x >>= k) (y >>= l) := by
  rcases h with h | ⟨h, e, he⟩
  · subst h
    cases y with
    | error e => exact .rfl
    | ok a => exact hk a (Eq.refl _)
  · subst h he; exact Or.inr ⟨Eq.refl _, e, Eq.refl _⟩

theorem bind {x y : R α} {k l : α → R β} (h : R.Halts x y) (hk : ∀ a, R.Halts (k a) (l a)) :
    R.Halts (x >>= k) (y >>= l) := h.bind' (fun a _ => hk a)

end R.Halts

/-- the same for reading actions at a position, with what is known of the place where they end -/
def Rd.Halts {α : Type} (x y : Rd α) (f : Bytes) (p : Nat) (Q : α → Nat → Prop) : Prop :=
  R.Halts (x f p) (y f p) ∧ ∀ a q, x f p = .ok (a, q) → Q a q

namespace Rd.Halts
variable {α β : Type} {f : Bytes} {p : Nat}

theorem bind {x y : Rd α} {k l : α → Rd β} {Q : α → Nat → Prop} {Q' : β → Nat → Prop} (h : Rd.Halts x y f p Q)
    (hk : ∀ a q, Q a q → Rd.Halts (k a) (l a) f q Q') : Rd.Halts (x >>= k) (y >>= l) f p Q' := by
  obtain ⟨h, hq⟩ := h
  unfold Rd.Halts
  rw [Rd.bind_eq, Rd.bind_eq]
  rcases h with h | ⟨h, e, he⟩
  · rw [h]
    cases hx : x f p with
    | error e => exact ⟨.rfl, fun a q h => by cases h⟩
    | ok r => exact hk r.1 r.2 (hq r.1 r.2 hx)
  · rw [h, he]
    exact ⟨Or.inr ⟨Eq.refl _, e, Eq.refl _⟩, fun a q h => by cases h⟩

theorem same {x : Rd α} {Q : α → Nat → Prop} (hq : ∀ a q, x f p = .ok (a, q) → Q a q) : Rd.Halts x x f p Q :=
  ⟨.rfl, hq⟩

theorem pure {a : α} {Q : α → Nat → Prop} (h : Q a p) : Rd.Halts (Pure.pure a : Rd α) (Pure.pure a) f p Q :=
  same (fun b q hb => by cases hb; exact h)

theorem pure' {a : α} {Q : α → Nat → Prop} (h : Q a p) : Rd.Halts (Rd.pure a : Rd α) (Rd.pure a) f p Q :=
  same (fun b q hb => by cases hb; exact h)

theorem lift {x : R α} {Q : α → Nat → Prop} (h : ∀ a, x = .ok a → Q a p) : Rd.Halts (Rd.lift x) (Rd.lift x) f p Q :=
  same (fun a q ha => by
    cases x with
    | error e => cases ha
    | ok b => cases ha; exact h _ (Eq.refl _))

end Rd.Halts

theorem Rd.bind_assoc' {α β γ : Type} (x : Rd α) (k : α → Rd β) (l : β → Rd γ) :
    (x >>= fun a => k a >>= l) = ((x >>= k) >>= l) := by
  funext f p
  rw [Rd.bind_eq, Rd.bind_eq, Rd.bind_eq]
  cases x f p with
  | error e => rfl
  | ok r => rfl

theorem Rd.Halts.bind₂ {α β γ : Type} {f : Bytes} {p : Nat} {x y : Rd α} {k l : α → Rd β} {k' l' : β → Rd γ}
    {Q : β → Nat → Prop} {Q' : γ → Nat → Prop} (h : Rd.Halts (x >>= k) (y >>= l) f p Q)
    (hk : ∀ a q, Q a q → Rd.Halts (k' a) (l' a) f q Q') :
    Rd.Halts (x >>= fun a => k a >>= k') (y >>= fun a => l a >>= l') f p Q' := by
  rw [Rd.bind_assoc', Rd.bind_assoc']
  exact h.bind hk

/-- Moving by a number of bytes that is within the addresses: the optimised build fails where the other
    one panics. -/
theorem move_halts (f : Bytes) {p a b : Nat} (hb : b < 2 ^ 63) (h : p + a * b < 2 ^ 64) :
    Rd.Halts (Rd.lift (mulI64 (toI64 a) (toI64 b)) >>= Rd.move)
      (Rd.lift (Build.release.mul (toI64 a) (toI64 b)) >>= Rd.move) f p (fun _ q => q = p + a * b) := by
  have hrel : Build.release.mul (toI64 a) (toI64 b) = .ok (wrapI64 (toI64 a * toI64 b)) := Eq.refl _
  have htb : toI64 b = (b : Int) := by unfold toI64; rw [if_pos hb]
  by_cases ha : a < 2 ^ 63
  · have hta : toI64 a = (a : Int) := by unfold toI64; rw [if_pos ha]
    by_cases hs : a * b < 2 ^ 63
    · have hm := mulI64_small hs ha hb
      have hw : wrapI64 (toI64 a * toI64 b) = ((a * b : Nat) : Int) := by
        rw [hta, htb, ← Int.natCast_mul, wrapI64_eq]
        exact ⟨by omega, by exact_mod_cast hs⟩
      rw [hm, hrel, hw]
      refine Rd.Halts.same (fun u q hu => ?_)
      have hu : Rd.move ((a * b : Nat) : Int) f p = .ok (u, q) := hu
      unfold Rd.move at hu
      dsimp only at hu
      split at hu
      · cases hu
      · cases hu
        omega
    · have hm : mulI64 (toI64 a) (toI64 b) = R.panic .overflow := by
        unfold mulI64
        rw [hta, htb, ← Int.natCast_mul, if_neg]
        intro hc
        exact hs (by exact_mod_cast hc.2)
      have hw : wrapI64 (toI64 a * toI64 b) = ((a * b : Nat) : Int) - 2 ^ 64 := by
        rw [hta, htb, ← Int.natCast_mul]
        unfold wrapI64
        generalize hn : a * b = n at *
        have h1 : (n : Int) + 2 ^ 63 = (n : Int) + 2 ^ 63 - 2 ^ 64 + 2 ^ 64 := by omega
        rw [h1, Int.add_emod_right, Int.emod_eq_of_lt] <;> omega
      rw [hm, hrel, hw]
      refine ⟨Or.inr ⟨Eq.refl _, .ioError .invalidInput, ?_⟩, fun u q hu => by cases hu⟩
      show Rd.move (((a * b : Nat) : Int) - 2 ^ 64) f p = _
      unfold Rd.move
      dsimp only
      rw [if_pos]
      left
      omega
  · have hb1 : b = 0 ∨ b = 1 := by
      have : a * b < 2 ^ 64 := by omega
      by_cases hb2 : b < 2
      · omega
      · exfalso
        have h2 : a * 2 ≤ a * b := Nat.mul_le_mul_left _ (by omega)
        omega
    have hta : toI64 a = (a : Int) - 2 ^ 64 := by unfold toI64; rw [if_neg ha]
    rcases hb1 with rfl | rfl
    · have hm : mulI64 (toI64 a) (toI64 0) = .ok 0 := by
        unfold mulI64
        rw [htb]
        simp
      have hw : wrapI64 (toI64 a * toI64 0) = 0 := by rw [htb]; simp [wrapI64]
      rw [hm, hrel, hw]
      refine Rd.Halts.same (fun u q hu => ?_)
      have hu : Rd.move 0 f p = .ok (u, q) := hu
      unfold Rd.move at hu
      dsimp only at hu
      split at hu
      · cases hu
      · cases hu
        omega
    · rw [hrel, htb, hta]
      have he : ((a : Int) - 2 ^ 64) * ((1 : Nat) : Int) = (a : Int) - 2 ^ 64 := by simp
      have hr : -(2 ^ 63) ≤ (a : Int) - 2 ^ 64 ∧ (a : Int) - 2 ^ 64 < 2 ^ 63 := by omega
      have hm : mulI64 ((a : Int) - 2 ^ 64) ((1 : Nat) : Int) = .ok ((a : Int) - 2 ^ 64) := by
        unfold mulI64
        rw [he, if_pos hr]
      rw [hm, he, wrapI64_eq hr]
      refine Rd.Halts.same (fun u q hu => ?_)
      have hu : Rd.move ((a : Int) - 2 ^ 64) f p = .ok (u, q) := hu
      unfold Rd.move at hu
      dsimp only at hu
      rw [if_pos (by omega)] at hu
      cases hu

theorem move_halts' (f : Bytes) {p a b : Nat} (h : p + a * b < 2 ^ 64) :
    Rd.Halts (Rd.lift (mulI64 (toI64 a) (toI64 b)) >>= Rd.move)
      (Rd.lift (Build.release.mul (toI64 a) (toI64 b)) >>= Rd.move) f p (fun _ q => q = p + a * b) := by
  by_cases hb : b < 2 ^ 63
  · exact move_halts f hb h
  · have ha : a < 2 ^ 63 := by
      by_cases ha : a < 2
      · omega
      · exfalso
        have h2 : 2 * b ≤ a * b := Nat.mul_le_mul_right _ (by omega)
        omega
    have h1 : mulI64 (toI64 a) (toI64 b) = mulI64 (toI64 b) (toI64 a) := by
      unfold mulI64
      rw [Int.mul_comm]
    have h2 : Build.release.mul (toI64 a) (toI64 b) = Build.release.mul (toI64 b) (toI64 a) := by
      show Except.ok _ = Except.ok _
      rw [Int.mul_comm]
    rw [h1, h2, Nat.mul_comm a b] at *
    exact move_halts f ha h

section
variable {α : Type} {S : Storage α} {dec : Endian → Bytes → α}

theorem Storage.Fixed.advances (hS : S.Fixed dec) (hm : ∀ e, Rd.Mono (S.read e)) {e : Endian} {f : Bytes} {p q : Nat}
    {v : α} (h : S.read e f p = .ok (v, q)) : q = p + S.memSize := by
  have h1 := hm e f (List.replicate (p + S.memSize) 0) p v q h
  rw [hS.reads e _ p (by rw [List.length_append, List.length_replicate]; omega)] at h1
  cases h1
  rfl

variable (hS : S.Fixed dec) (hmono : ∀ e, Rd.Mono (S.read e)) (hmem : S.memSize ≤ 24)
include hS hmono

theorem readValues_advances (e : Endian) (f : Bytes) : ∀ (n : Nat) (it : OutIter α) (p : Nat) (r : Nat × OutIter α) (q : Nat),
    readValues S e n it f p = .ok (r, q) → r.1 ≤ n ∧ q = p + r.1 * S.memSize := by
  intro n
  induction n with
  | zero => intro it p r q h; unfold readValues at h; cases h; simp
  | succ n ih =>
    intro it p r q h
    unfold readValues at h
    cases hit : it.rest with
    | nil => rw [hit] at h; cases h; simp
    | cons x rest =>
      rw [hit] at h
      dsimp only at h
      rw [Rd.bind_eq] at h
      cases h1 : S.read e f p with
      | error e' => rw [h1] at h; cases h
      | ok r1 =>
        obtain ⟨v, p1⟩ := r1
        rw [h1] at h
        have hp1 := hS.advances hmono h1
        dsimp only at h
        rw [Rd.bind_eq] at h
        cases h2 : readValues S e n ⟨it.done ++ [v], rest⟩ f p1 with
        | error e' => rw [h2] at h; cases h
        | ok r2 =>
          obtain ⟨⟨k, it2⟩, p2⟩ := r2
          rw [h2] at h
          obtain ⟨h3, h4⟩ := ih _ _ _ _ h2
          cases h
          refine ⟨by show k + 1 ≤ n + 1; dsimp only at h3; omega, ?_⟩
          dsimp only at h4 ⊢
          rw [h4, hp1, Nat.add_mul]
          omega

include hmem

theorem readSequential_halts (e : Endian) (f : Bytes) (out : OutIter α) {n p : Nat} (h : p + n * S.memSize < 2 ^ 64) :
    Rd.Halts (readSequential S e out n) (Build.release.readSequential S e out n) f p
      (fun _ q => q = p + n * S.memSize) := by
  unfold readSequential Build.readSequential
  refine Rd.Halts.bind (Rd.Halts.same (readValues_advances hS hmono e f n out p)) (fun r q hr => ?_)
  obtain ⟨length, out⟩ := r
  dsimp only at hr ⊢
  obtain ⟨hle, rfl⟩ := hr
  have hsplit : length * S.memSize + (n - length) * S.memSize = n * S.memSize := by
    rw [← Nat.add_mul]
    congr 1
    omega
  by_cases hu : n - length > 0
  · rw [if_pos hu, if_pos hu]
    have := move_halts f (p := p + length * S.memSize) (a := n - length) (b := S.memSize) (by omega) (by omega)
    exact this.bind₂ (fun _ q hq => .pure (by omega))
  · rw [if_neg hu, if_neg hu]
    refine Rd.Halts.pure ?_
    have : n - length = 0 := by omega
    rw [this] at hsplit
    omega

/-- the bytes of one chunk, as the plan counts them -/
def planBytes (S : Storage α) (plan : List (RecordEntry α)) : Nat :=
  (plan.map (fun e => e.plan.sizeBytes S * e.length)).sum

/-- the skipped channels have types of at most 24 bytes -/
def SmallSkips (plan : List (RecordEntry α)) : Prop := ∀ en ∈ plan, ∀ b, en.plan = .skip b → b ≤ 24

theorem readSubBlock_halts (e : Endian) (f : Bytes) : ∀ (plan : List (RecordEntry α)) (length p : Nat),
    SmallSkips plan → p + planBytes S plan < 2 ^ 64 →
    Rd.Halts (readSubBlock S e length plan) (Build.release.readSubBlock S e length plan) f p
      (fun r q => q = p + planBytes S plan ∧ planBytes S r.2 = planBytes S plan ∧ SmallSkips r.2) := by
  intro plan
  induction plan with
  | nil => intro length p _ _; exact .pure' ⟨rfl, rfl, fun en h => by cases h⟩
  | cons en rest ih =>
    intro length p hsm h
    obtain ⟨len, pl⟩ := en
    have hsm' : SmallSkips rest := fun en hen => hsm en (List.mem_cons_of_mem _ hen)
    unfold planBytes at h
    rw [List.map_cons, List.sum_cons] at h
    have hpb : ∀ (pl' : EntryPlan α) (rest' : List (RecordEntry α)),
        planBytes S (⟨len, pl'⟩ :: rest') = pl'.sizeBytes S * len + planBytes S rest' := fun _ _ => rfl
    change p + (pl.sizeBytes S * len + planBytes S rest) < 2 ^ 64 at h
    unfold readSubBlock Build.readSubBlock
    cases pl with
    | read slot out k =>
      dsimp only
      have hsz : EntryPlan.sizeBytes S (.read slot out k) = S.memSize := rfl
      rw [hsz] at h
      have hcomm : S.memSize * len = len * S.memSize := Nat.mul_comm _ _
      have hsplit : min k len * S.memSize + (len - min k len) * S.memSize = len * S.memSize := by
        rw [← Nat.add_mul]
        congr 1
        omega
      have hrest : ∀ p', p' = p + min k len * S.memSize → Rd.Halts
          (readSequential S e out (len - min k len) >>= fun x =>
            readSubBlock S e x.1 rest >>= fun y =>
              (Pure.pure (y.1, { length := len, plan := EntryPlan.read slot x.2 k } :: y.2) : Rd _))
          (Build.release.readSequential S e out (len - min k len) >>= fun x =>
            Build.release.readSubBlock S e x.1 rest >>= fun y =>
              (Pure.pure (y.1, { length := len, plan := EntryPlan.read slot x.2 k } :: y.2) : Rd _)) f p'
          (fun r q => q = p + planBytes S (⟨len, .read slot out k⟩ :: rest) ∧
            planBytes S r.2 = planBytes S (⟨len, .read slot out k⟩ :: rest) ∧ SmallSkips r.2) := by
        intro p' hp'
        refine (readSequential_halts hS hmono hmem e f out (by omega)).bind (fun x q hq => ?_)
        refine (ih x.1 q hsm' (by omega)).bind (fun y q' hq' => Rd.Halts.pure ?_)
        refine ⟨?_, ?_, ?_⟩
        · rw [hpb, hsz]; omega
        · show planBytes S (⟨len, .read slot x.2 k⟩ :: y.2) = _
          rw [hpb, hpb, hq'.2.1]
          rfl
        · intro en hen b hb
          rcases List.mem_cons.mp hen with rfl | hen
          · cases hb
          · exact hq'.2.2 en hen b hb
      by_cases hk : min k len > 0
      · rw [if_pos hk, if_pos hk]
        have := move_halts f (p := p) (a := min k len) (b := S.memSize) (by omega) (by omega)
        exact this.bind₂ (fun _ q hq => hrest q hq)
      · rw [if_neg hk, if_neg hk]
        exact hrest p (by rw [show min k len = 0 by omega]; simp)
    | skip b =>
      dsimp only
      have hb : b ≤ 24 := hsm ⟨len, .skip b⟩ List.mem_cons_self b rfl
      have hsz : EntryPlan.sizeBytes S (.skip b) = b := rfl
      rw [hsz] at h
      have hcomm : b * len = len * b := Nat.mul_comm _ _
      have hmul : mulI64 (b : Int) (toI64 len) = mulI64 (toI64 len) (toI64 b) := by
        unfold mulI64
        rw [show toI64 b = (b : Int) by unfold toI64; rw [if_pos (by omega)], Int.mul_comm]
      have hmul' : Build.release.mul (b : Int) (toI64 len) = Build.release.mul (toI64 len) (toI64 b) := by
        show Except.ok _ = Except.ok _
        rw [show toI64 b = (b : Int) by unfold toI64; rw [if_pos (by omega)], Int.mul_comm]
      rw [hmul, hmul']
      have := move_halts f (p := p) (a := len) (b := b) (by omega) (by omega)
      refine this.bind₂ (fun _ q hq => ?_)
      refine (ih length q hsm' (by omega)).bind (fun y q' hq' => Rd.Halts.pure ?_)
      refine ⟨?_, ?_, ?_⟩
      · rw [hpb, hsz]; omega
      · show planBytes S (⟨len, .skip b⟩ :: y.2) = _
        rw [hpb, hpb, hq'.2.1]
      · intro en hen b' hb'
        rcases List.mem_cons.mp hen with rfl | hen
        · cases hb'; exact hb
        · exact hq'.2.2 en hen b' hb'

omit hS hmono hmem in
theorem planBytes_mapSkips (g : Nat → Nat) (plan : List (RecordEntry α)) :
    planBytes S (mapSkips g plan) = planBytes S plan ∧ (SmallSkips plan → SmallSkips (mapSkips g plan)) := by
  constructor
  · unfold planBytes mapSkips
    rw [List.map_map]
    congr 1
    apply List.map_congr_left
    intro en _
    obtain ⟨len, pl⟩ := en
    cases pl <;> rfl
  · intro h en hen b hb
    unfold mapSkips at hen
    obtain ⟨⟨len, pl⟩, hen', rfl⟩ := List.mem_map.mp hen
    cases pl with
    | skip c => exact h _ hen' b hb
    | read s o k => cases hb

omit hS hmono hmem in
theorem planBytes_setSkips : ∀ (ks : List Nat) (plan : List (RecordEntry α)),
    planBytes S (setSkips ks plan) = planBytes S plan ∧ (SmallSkips plan → SmallSkips (setSkips ks plan))
  | _, [] => by unfold setSkips; exact ⟨rfl, id⟩
  | [], en :: plan => by unfold setSkips; exact ⟨rfl, id⟩
  | k :: ks, ⟨len, pl⟩ :: plan => by
    cases pl with
    | read s o j =>
      unfold setSkips
      obtain ⟨h1, h2⟩ := planBytes_setSkips ks plan
      refine ⟨?_, fun h en hen b hb => ?_⟩
      · show S.memSize * len + planBytes S (setSkips ks plan) = S.memSize * len + planBytes S plan
        rw [h1]
      · rcases List.mem_cons.mp hen with rfl | hen
        · cases hb
        · exact h2 (fun e he => h e (List.mem_cons_of_mem _ he)) en hen b hb
    | skip c =>
      unfold setSkips
      obtain ⟨h1, h2⟩ := planBytes_setSkips (k :: ks) plan
      refine ⟨?_, fun h en hen b hb => ?_⟩
      · show c * len + planBytes S (setSkips (k :: ks) plan) = c * len + planBytes S plan
        rw [h1]
      · rcases List.mem_cons.mp hen with rfl | hen
        · exact h _ List.mem_cons_self b hb
        · exact h2 (fun e he => h e (List.mem_cons_of_mem _ he)) en hen b hb

omit hS hmono hmem in
/-- skipping a chunk -/
theorem chunk_halts (f : Bytes) {p bs : Nat} (h : p + bs < 2 ^ 64) :
    Rd.Halts (Rd.move (toI64 bs)) (Rd.move (toI64 bs)) f p (fun _ q => q = p + bs) := by
  refine Rd.Halts.same (fun u q hu => ?_)
  unfold Rd.move toI64 at hu
  dsimp only at hu
  by_cases hb : bs < 2 ^ 63
  · rw [if_pos hb] at hu
    split at hu
    · cases hu
    · cases hu
      omega
  · rw [if_neg hb, if_pos (by omega)] at hu
    cases hu

theorem contigLoop_halts (e : Endian) (f : Bytes) (bs toSkip remainder : Nat) : ∀ (n idx : Nat) (plan : List (RecordEntry α))
    (length p : Nat), SmallSkips plan → planBytes S plan = bs → p + n * bs < 2 ^ 64 →
    Rd.Halts (contigLoop S e bs toSkip remainder n idx plan length)
      (Build.release.contigLoop S e bs toSkip remainder n idx plan length) f p (fun _ _ => True) := by
  intro n
  induction n with
  | zero => intro idx plan length p _ _ _; exact .pure' trivial
  | succ n ih =>
    intro idx plan length p hsm hbs h
    rw [Nat.add_mul] at h
    have hread : ∀ g : Nat → Nat, Rd.Halts
        (readSubBlock S e 0 (mapSkips g plan) >>= fun x => contigLoop S e bs toSkip remainder n (idx + 1) x.2 (length + x.1))
        (Build.release.readSubBlock S e 0 (mapSkips g plan) >>= fun x =>
          Build.release.contigLoop S e bs toSkip remainder n (idx + 1) x.2 (length + x.1)) f p (fun _ _ => True) := by
      intro g
      obtain ⟨h1, h2⟩ := planBytes_mapSkips (S := S) g plan
      refine (readSubBlock_halts hS hmono hmem e f _ 0 p (h2 hsm) (by rw [h1, hbs]; omega)).bind (fun x q hq => ?_)
      rw [h1, hbs] at hq
      exact ih _ _ _ _ hq.2.2 hq.2.1 (by omega)
    unfold contigLoop Build.contigLoop
    split
    · exact (chunk_halts f (by omega)).bind (fun _ q hq => ih _ _ _ _ hsm hbs (by omega))
    · split
      · exact hread _
      · exact hread _

theorem contigSkipLoop_halts (e : Endian) (f : Bytes) (bs : Nat) (toSkip rem : List Nat) : ∀ (n idx : Nat)
    (plan : List (RecordEntry α)) (length p : Nat), SmallSkips plan → planBytes S plan = bs → p + n * bs < 2 ^ 64 →
    Rd.Halts (contigSkipLoop S e bs toSkip rem n idx plan length)
      (Build.release.contigSkipLoop S e bs toSkip rem n idx plan length) f p (fun _ _ => True) := by
  intro n
  induction n with
  | zero => intro idx plan length p _ _ _; exact .pure' trivial
  | succ n ih =>
    intro idx plan length p hsm hbs h
    rw [Nat.add_mul] at h
    unfold contigSkipLoop Build.contigSkipLoop
    split
    · obtain ⟨h1, h2⟩ := planBytes_setSkips (S := S)
        ((toSkip.zip rem).map (fun (b, r) => calculateSkip idx b r)) plan
      refine (readSubBlock_halts hS hmono hmem e f _ 0 p (h2 hsm) (by rw [h1, hbs]; omega)).bind (fun x q hq => ?_)
      rw [h1, hbs] at hq
      exact ih _ _ _ _ hq.2.2 hq.2.1 (by omega)
    · exact (chunk_halts f (by omega)).bind (fun _ q hq => ih _ _ _ _ hsm hbs (by omega))

omit hS hmono hmem in
theorem blockSize_same {plan : List (RecordEntry α)} (h : planBytes S plan < 2 ^ 64) :
    blockSize S plan = .ok (planBytes S plan) ∧ Build.release.blockSize S plan = .ok (planBytes S plan) := by
  constructor
  · unfold blockSize
    exact if_pos h
  · show Except.ok (planBytes S plan % u64Lim) = _
    rw [Nat.mod_eq_of_lt h]

theorem contigReadFrom_halts (e : Endian) (f : Bytes) {start size : Nat} {plan : List (RecordEntry α)} (k p : Nat)
    (hsm : SmallSkips plan) (hpb : planBytes S plan < 2 ^ 64) (hfit : start + size < 2 ^ 64) :
    R.Halts (contigReadFrom S e start size plan k f p) (Build.release.contigReadFrom S e start size plan k f p) := by
  obtain ⟨h1, h2⟩ := blockSize_same hpb
  unfold contigReadFrom Build.contigReadFrom
  rw [h1, h2]
  refine (Rd.Halts.bind (Q := fun _ q => q = start) (Q' := fun _ _ => True)
    (Rd.Halts.same (fun u q hu => by cases hu; rfl)) (fun _ q hq => ?_)).1
  refine (Rd.Halts.lift (Q := fun a q => a = planBytes S plan ∧ q = start) (fun a ha => by cases ha; exact ⟨rfl, hq⟩)).bind
    (fun bs q hbs => ?_)
  obtain ⟨rfl, rfl⟩ := hbs
  refine (Rd.Halts.lift (Q := fun a q' => a = size / planBytes S plan ∧ q' = q) (fun a ha => ?_)).bind
    (fun total q' ht => ?_)
  · unfold divR at ha
    split at ha
    · cases ha
    · cases ha; exact ⟨rfl, rfl⟩
  obtain ⟨rfl, rfl⟩ := ht
  refine (Rd.Halts.lift (Q := fun _ q => q = q') (fun _ _ => rfl)).bind (fun sub q hq => ?_)
  subst hq
  refine (Rd.Halts.lift (Q := fun _ q' => q' = q) (fun _ _ => rfl)).bind (fun toSkip q' hq => ?_)
  subst hq
  have := Nat.div_mul_le_self size (planBytes S plan)
  exact contigLoop_halts hS hmono hmem e f _ _ _ _ _ _ _ _ hsm rfl (by omega)

theorem contigReadSkip_halts (e : Endian) (f : Bytes) {start size : Nat} {plan : List (RecordEntry α)} (ks : List Nat) (p : Nat)
    (hsm : SmallSkips plan) (hpb : planBytes S plan < 2 ^ 64) (hfit : start + size < 2 ^ 64) :
    R.Halts (contigReadSkip S e start size plan ks f p) (Build.release.contigReadSkip S e start size plan ks f p) := by
  obtain ⟨h1, h2⟩ := blockSize_same hpb
  unfold contigReadSkip Build.contigReadSkip
  rw [h1, h2]
  refine (Rd.Halts.bind (Q := fun _ q => q = start) (Q' := fun _ _ => True)
    (Rd.Halts.same (fun u q hu => by cases hu; rfl)) (fun _ q hq => ?_)).1
  refine (Rd.Halts.lift (Q := fun a q => a = planBytes S plan ∧ q = start) (fun a ha => by cases ha; exact ⟨rfl, hq⟩)).bind
    (fun bs q hbs => ?_)
  obtain ⟨rfl, rfl⟩ := hbs
  refine (Rd.Halts.lift (Q := fun a q' => a = size / planBytes S plan ∧ q' = q) (fun a ha => ?_)).bind
    (fun total q' ht => ?_)
  · unfold divR at ha
    split at ha
    · cases ha
    · cases ha; exact ⟨rfl, rfl⟩
  obtain ⟨rfl, rfl⟩ := ht
  refine (Rd.Halts.lift (Q := fun _ q => q = q') (fun _ _ => rfl)).bind (fun sub q hq => ?_)
  subst hq
  refine (Rd.Halts.lift (Q := fun _ q' => q' = q) (fun _ _ => rfl)).bind (fun toSkip q' hq => ?_)
  subst hq
  have := Nat.div_mul_le_self size (planBytes S plan)
  exact contigSkipLoop_halts hS hmono hmem e f _ _ _ _ _ _ _ _ hsm rfl (by omega)

omit hS hmono hmem in
theorem interRead_halts (e : Endian) (f : Bytes) {start size : Nat} {plan : List (RecordEntry α)} (p : Nat)
    (hfit : start + minOrZero (blockSkips plan) * rowSize S plan < 2 ^ 64) :
    R.Halts (interRead S e start size plan f p) (Build.release.interRead S e start size plan f p) := by
  unfold interRead Build.interRead
  refine (Rd.Halts.bind (Q := fun _ q => q = start) (Q' := fun _ _ => True)
    (Rd.Halts.same (fun u q hu => by cases hu; rfl)) (fun _ q hq => ?_)).1
  refine (Rd.Halts.lift (Q := fun _ q => q = start) (fun _ _ => hq)).bind (fun total q hq => ?_)
  subst hq
  dsimp only
  split
  · exact (move_halts' f hfit).bind₂ (fun _ _ _ => Rd.Halts.same (fun _ _ _ => trivial))
  · exact Rd.Halts.same (fun _ _ _ => trivial)

/-! ## Blocks -/

/-- the sizes and lengths of the plan are those of the channels -/
def PlanSizes (S : Storage α) (ms : List RawDataMeta) (plan : List (RecordEntry α)) : Prop :=
  plan.map (fun en => (en.plan.sizeBytes S, en.length)) = ms.map (fun m => (m.dataType.size, m.numberOfValues))

omit hS hmono hmem in
theorem PlanSizes.sums {ms : List RawDataMeta} {plan : List (RecordEntry α)} (h : PlanSizes S ms plan) :
    planBytes S plan = (ms.map (fun m => m.numberOfValues * m.dataType.size)).sum ∧
    rowSize S plan = (ms.map (fun m => m.dataType.size)).sum := by
  constructor
  · have := congrArg (fun l => (l.map (fun (x : Nat × Nat) => x.1 * x.2)).sum) h
    rw [List.map_map, List.map_map] at this
    refine this.trans (congrArg List.sum (List.map_congr_left (fun m _ => ?_)))
    exact Nat.mul_comm _ _
  · have := congrArg (fun l => (l.map (fun (x : Nat × Nat) => x.1)).sum) h
    rw [List.map_map, List.map_map] at this
    exact this

omit hmono hmem in
theorem setReadable_sizes {ms : List RawDataMeta} : ∀ (reqs : List (ChannelRequest α)) {plan p : List (RecordEntry α)},
    PlanSizes S ms plan → validateTypes S ms reqs = .ok () → setReadable plan reqs = .ok p → PlanSizes S ms p := by
  intro reqs
  induction reqs with
  | nil => intro plan p h _ hp; cases hp; exact h
  | cons r rs ih =>
    intro plan p h hv hp
    unfold validateTypes at hv
    cases hm : ms[r.channelIndex]? with
    | none => rw [hm] at hv; cases hv
    | some m =>
      rw [hm] at hv
      dsimp only at hv
      split at hv
      · rename_i hsup
        unfold setReadable at hp
        cases hen : plan[r.channelIndex]? with
        | none => rw [hen] at hp; cases hp
        | some en =>
          rw [hen] at hp
          dsimp only at hp
          refine ih ?_ hv hp
          unfold PlanSizes at h ⊢
          rw [List.map_set]
          have hat := congrArg (fun l => l[r.channelIndex]?) h
          rw [List.getElem?_map, List.getElem?_map, hen, hm] at hat
          simp only [Option.map_some, Option.some.injEq, Prod.mk.injEq] at hat
          have hsz := (hS.sizes m.dataType (by simpa using hsup)).1
          have : (EntryPlan.sizeBytes S (EntryPlan.read r.slot ⟨[], r.output⟩ 0), en.length)
              = (m.dataType.size, m.numberOfValues) := by
            rw [hsz, ← hat.2]
            rfl
          rw [this, h]
          apply List.ext_getElem?
          intro i
          by_cases hi : r.channelIndex = i
          · subst hi
            rw [List.getElem?_set_self (by rw [List.length_map]; exact (List.getElem?_eq_some_iff.mp hm).1),
              List.getElem?_map, hm]
            rfl
          · rw [List.getElem?_set_ne hi]
      · cases hv

omit hmono hmem in
theorem buildRecordPlan_sizes {ms : List RawDataMeta} {reqs : List (ChannelRequest α)} {p : List (RecordEntry α)}
    (h : buildRecordPlan S ms reqs = .ok p) : PlanSizes S ms p := by
  unfold buildRecordPlan at h
  cases hv : validateTypes S ms reqs with
  | error e => rw [hv] at h; cases h
  | ok u =>
    rw [hv] at h
    refine setReadable_sizes hS reqs ?_ hv h
    unfold PlanSizes baseRecord
    rw [List.map_map]
    rfl

omit hS hmono hmem in
theorem PlanFor.smallSkips : ∀ {ms : List RawDataMeta} {plan : List (RecordEntry α)}, PlanFor ms plan → SmallSkips plan
  | [], [], _ => fun en h => by cases h
  | m :: ms, en :: plan, h => fun x hx b hb => by
    rcases List.mem_cons.mp hx with rfl | hx
    · rw [h.2.1 b hb]; exact size_le _
    · exact PlanFor.smallSkips h.2.2 x hx b hb
  | [], _ :: _, h => h.elim
  | _ :: _, [], h => h.elim

omit hS hmono hmem in
theorem rowSize_setSkips : ∀ (ks : List Nat) (plan : List (RecordEntry α)), rowSize S (setSkips ks plan) = rowSize S plan
  | _, [] => by unfold setSkips; rfl
  | [], en :: plan => by unfold setSkips; rfl
  | k :: ks, ⟨len, pl⟩ :: plan => by
    cases pl with
    | read s o j =>
      unfold setSkips
      show S.memSize + rowSize S (setSkips ks plan) = S.memSize + rowSize S plan
      rw [rowSize_setSkips]
    | skip c =>
      unfold setSkips
      show c + rowSize S (setSkips (k :: ks) plan) = c + rowSize S plan
      rw [rowSize_setSkips]

omit hS hmono hmem in
theorem minOrZero_mem : ∀ (l : List Nat), minOrZero l = 0 ∨ minOrZero l ∈ l
  | [] => Or.inl rfl
  | [x] => Or.inr (by unfold minOrZero; simp)
  | x :: y :: l => by
    unfold minOrZero
    rcases Nat.le_total x (minOrZero (y :: l)) with h | h
    · rw [Nat.min_eq_left h]; exact Or.inr List.mem_cons_self
    · rw [Nat.min_eq_right h]
      rcases minOrZero_mem (y :: l) with h | h
      · exact Or.inl h
      · exact Or.inr (List.mem_cons_of_mem _ h)

/-- the sizes of a block are within the addresses -/
structure DataBlock.Within (b : DataBlock) : Prop where
  fits : b.start + b.length < 2 ^ 64
  chunk : (b.channels.map (fun m => m.numberOfValues * m.dataType.size)).sum < 2 ^ 64

/-- a skip is within the addresses, too -/
def DataBlock.SkipWithin (b : DataBlock) (k : Nat) : Prop :=
  b.layout = .interleaved → b.start + k * (b.channels.map (fun m => m.dataType.size)).sum < 2 ^ 64

theorem readBlock_halts (f : Bytes) {b : DataBlock} (hb : b.Within) {reqs : List (ChannelRequest α)}
    (hlt : ∀ r ∈ reqs, r.channelIndex < b.channels.length) (hk : ∀ r ∈ reqs, b.SkipWithin r.skip) :
    R.Halts (b.read S f reqs) (Build.release.readBlock S f b reqs) ∧
    R.Halts (b.readWithSkip S f reqs) (Build.release.readBlockSkip S f b reqs) := by
  rw [← Build.debug_readBlock, ← Build.debug_readBlockSkip]
  have hsat := buildRecordPlan_sat (S := S) hlt
  have hsizes := fun p => buildRecordPlan_sizes (S := S) hS (ms := b.channels) (reqs := reqs) (p := p)
  unfold Build.readBlock Build.readBlockSkip
  generalize buildRecordPlan S b.channels reqs = bp at hsat hsizes
  cases bp with
  | error e => exact ⟨.rfl, .rfl⟩
  | ok plan =>
    obtain ⟨hpf, hz⟩ : PlanFor b.channels plan ∧ ∀ s ∈ blockSkips plan, s = 0 := by
      rcases hsat with ⟨a, ha, h⟩ | ⟨e, he⟩
      · cases ha; exact h
      · cases he
    obtain ⟨hpb, hrow⟩ := (hsizes plan rfl).sums
    have hsm := hpf.smallSkips
    have hfits := hb.fits
    have hchunk := hb.chunk
    rw [← hpb] at hchunk
    cases hl : b.layout with
    | contigious =>
      constructor
      · have h := contigReadFrom_halts hS hmono hmem b.byteOrder f 0 0 hsm hchunk hfits
        rw [← Build.debug_contigReadFrom] at h
        exact h.bind (k := fun r => (pure r.1 : R _)) (fun _ => .rfl)
      · have h := contigReadSkip_halts hS hmono hmem b.byteOrder f (reqs.map (·.skip)) 0 hsm hchunk hfits
        rw [← Build.debug_contigReadSkip] at h
        exact h.bind (k := fun r => (pure r.1 : R _)) (fun _ => .rfl)
    | interleaved =>
      constructor
      · refine (interRead_halts (size := b.length) b.byteOrder f 0 ?_).bind (k := fun r => (pure r.1 : R _)) (fun _ => .rfl)
        have : minOrZero (blockSkips plan) = 0 := by
          rcases minOrZero_mem (blockSkips plan) with h | h
          · exact h
          · exact hz _ h
        rw [this]
        omega
      · refine (interRead_halts (size := b.length) b.byteOrder f 0 ?_).bind (k := fun r => (pure r.1 : R _)) (fun _ => .rfl)
        have hr2 : rowSize S (setSkips (reqs.map (·.skip)) plan) = rowSize S plan := rowSize_setSkips _ _
        rw [hr2]
        rcases minOrZero_mem (blockSkips (setSkips (reqs.map (·.skip)) plan)) with h | h
        · rw [h]; omega
        · rcases blockSkips_setSkips _ _ _ h with h | h
          · obtain ⟨r, hr, hrs⟩ := List.mem_map.mp h
            rw [← hrs, hrow]
            exact hk r hr hl
          · rw [hz _ h]; omega

end
end Tedium
