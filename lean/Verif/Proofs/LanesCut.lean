import Verif.Spec.JointOutcome
import Verif.Proofs.Lanes
import Verif.Proofs.Outcome

/-!
# Reading one data block of which only some part is in the file

A reader that is done with the whole block is compared with the same reader on a file that has only some of the
bytes: it does the same if the values that are read are there, and fails at the end of the file otherwise.
-/

namespace Tedium

section
variable {α : Type} {S : Storage α} {dec : Endian → Bytes → α}

/-- what is in both files is the same -/
def SameBytes (f F : Bytes) : Prop :=
  ∀ p w, p + w ≤ f.length → p + w ≤ F.length → (f.drop p).take w = (F.drop p).take w

/-- `x` reads the values of `w` bytes at `ps` -/
structure Cut {β : Type} (w : Nat) (f F : Bytes) (x : Rd β) (p : Nat) (ps : List Nat) : Prop where
  there : Inside w f.length ps → x f p = x F p
  short : ¬ Inside w f.length ps → x f p = .error eofFail

theorem inside_nil (w n : Nat) : Inside w n [] := by intro p hp; cases hp

theorem inside_append {w n : Nat} {ps qs : List Nat} : Inside w n (ps ++ qs) ↔ Inside w n ps ∧ Inside w n qs := by
  unfold Inside
  constructor
  · intro h
    exact ⟨fun p hp => h p (List.mem_append_left _ hp), fun p hp => h p (List.mem_append_right _ hp)⟩
  · rintro ⟨h1, h2⟩ p hp
    rcases List.mem_append.mp hp with hp | hp
    · exact h1 p hp
    · exact h2 p hp

theorem inside_congr {w n : Nat} {ps qs : List Nat} (h : ∀ p, p ∈ ps ↔ p ∈ qs) : Inside w n ps ↔ Inside w n qs :=
  ⟨fun hi p hp => hi p ((h p).mpr hp), fun hi p hp => hi p ((h p).mp hp)⟩

section
variable {β γ : Type} {w : Nat} {f F : Bytes}

theorem Cut.congr {x : Rd β} {p : Nat} {ps qs : List Nat} (h : Cut w f F x p ps) (hpq : ∀ p, p ∈ ps ↔ p ∈ qs) :
    Cut w f F x p qs :=
  ⟨fun hi => h.there ((inside_congr hpq).mpr hi), fun hi => h.short (fun hi' => hi ((inside_congr hpq).mp hi'))⟩

theorem Cut.same {x : Rd β} {p : Nat} (h : x f p = x F p) : Cut w f F x p [] :=
  ⟨fun _ => h, fun hi => absurd (inside_nil _ _) hi⟩

theorem Cut.bind {x : Rd β} {k : β → Rd γ} {p q : Nat} {a : β} {ps qs : List Nat} (hx : Cut w f F x p ps)
    (ha : x F p = .ok (a, q)) (hk : Cut w f F (k a) q qs) : Cut w f F (x >>= k) p (ps ++ qs) := by
  constructor
  · intro hi
    obtain ⟨h1, h2⟩ := inside_append.mp hi
    rw [Rd.bind_ok ha, Rd.bind_ok ((hx.there h1).trans ha)]
    exact hk.there h2
  · intro hi
    by_cases h1 : Inside w f.length ps
    · rw [Rd.bind_ok ((hx.there h1).trans ha)]
      exact hk.short (fun h2 => hi (inside_append.mpr ⟨h1, h2⟩))
    · exact Rd.bind_error (hx.short h1)

/-- a step that reads nothing -/
theorem Cut.step {x : Rd β} {k : β → Rd γ} {p q : Nat} {a : β} {qs : List Nat} (hx : x f p = x F p)
    (ha : x F p = .ok (a, q)) (hk : Cut w f F (k a) q qs) : Cut w f F (x >>= k) p qs :=
  Cut.bind (Cut.same hx) ha hk

/-- a last step that reads nothing -/
theorem Cut.last {x : Rd β} {k : β → Rd γ} {p q : Nat} {a : β} {ps : List Nat} (hx : Cut w f F x p ps)
    (ha : x F p = .ok (a, q)) (hk : k a f q = k a F q) : Cut w f F (x >>= k) p ps := by
  have := Cut.bind hx ha (Cut.same hk)
  rwa [List.append_nil] at this

theorem Cut.lift {x : R β} {k : β → Rd γ} {p : Nat} {a : β} {qs : List Nat} (ha : x = .ok a)
    (hk : Cut w f F (k a) p qs) : Cut w f F (Rd.lift x >>= k) p qs :=
  Cut.step rfl (by rw [ha]; rfl) hk

end

theorem posAt_succ (w p n : Nat) : posAt w p (n + 1) = p :: posAt w (p + w) n := by
  unfold posAt
  rw [List.range_succ_eq_map, List.map_cons, List.map_map]
  simp only [Nat.zero_mul, Nat.add_zero, List.cons.injEq, true_and]
  apply List.map_congr_left
  intro r _
  simp only [Function.comp, Nat.succ_eq_add_one, Nat.add_mul, Nat.one_mul]
  omega

theorem posAt_drop (w p n k : Nat) : (posAt w p n).drop k = posAt w (p + min k n * w) (n - k) := by
  induction n generalizing p k with
  | zero => simp [posAt]
  | succ n ih =>
    cases k with
    | zero => simp
    | succ k =>
      rw [posAt_succ, List.drop_succ_cons, ih]
      congr 1
      · rw [show min (k + 1) (n + 1) = min k n + 1 by omega, Nat.add_mul, Nat.one_mul]; omega
      · omega

theorem posAt_take (w p n k : Nat) : (posAt w p n).take k = posAt w p (min n k) := by
  induction n generalizing p k with
  | zero => simp [posAt]
  | succ n ih =>
    cases k with
    | zero => simp [posAt]
    | succ k =>
      rw [posAt_succ, List.take_succ_cons, ih, show min (n + 1) (k + 1) = min n k + 1 by omega, posAt_succ]

variable {f F : Bytes}

theorem read_cut (hS : S.Reads dec) (hsh : S.Short) (hsame : SameBytes f F) (e : Endian) {p : Nat}
    (h : p + S.memSize ≤ F.length) : Cut S.memSize f F (S.read e) p [p] := by
  constructor
  · intro hi
    have := hi p (by simp)
    rw [hS.reads e f p this, hS.reads e F p h, hsame p _ this h]
  · intro hi
    apply hsh
    refine Classical.byContradiction fun hn => hi ?_
    intro q hq
    rw [List.mem_singleton] at hq
    subst hq
    omega

theorem readValues_cut (hS : S.Reads dec) (hsh : S.Short) (hsame : SameBytes f F) (e : Endian) :
    ∀ (n : Nat) (it : OutIter α) (p : Nat), p + n * S.memSize ≤ F.length →
      Cut S.memSize f F (readValues S e n it) p (posAt S.memSize p (min n it.rest.length)) := by
  intro n
  induction n with
  | zero =>
    intro it p _
    rw [Nat.zero_min]
    exact Cut.same rfl
  | succ n ih =>
    intro it p h
    unfold readValues
    rw [Nat.add_mul, Nat.one_mul] at h
    cases hr : it.rest with
    | nil =>
      rw [List.length_nil, Nat.min_zero]
      exact Cut.same rfl
    | cons c cs =>
      dsimp only
      rw [List.length_cons, show min (n + 1) (cs.length + 1) = min n cs.length + 1 by omega, posAt_succ]
      refine Cut.bind (ps := [p]) (read_cut hS hsh hsame e (by omega)) (hS.reads e F p (by omega)) ?_
      have hn : p + S.memSize + n * S.memSize ≤ F.length := by omega
      have hin := ih ⟨it.done ++ [dec e ((F.drop p).take S.memSize)], cs⟩ (p + S.memSize) hn
      refine Cut.last hin (readValues_ok hS e F n _ (p + S.memSize) (Or.inr ?_)) rfl
      have : min n cs.length * S.memSize ≤ n * S.memSize := Nat.mul_le_mul_right _ (Nat.min_le_left _ _)
      dsimp only
      omega

theorem readSequential_cut (hS : S.Reads dec) (hsh : S.Short) (hsame : SameBytes f F)
    (e : Endian) (it : OutIter α) (n p : Nat) (h : p + n * S.memSize ≤ F.length) :
    Cut S.memSize f F (readSequential S e it n) p (posAt S.memSize p (min n it.rest.length)) := by
  unfold readSequential
  refine Cut.last (readValues_cut hS hsh hsame e n it p h) (readValues_ok hS e F n it p (Or.inr ?_)) ?_
  · have : min n it.rest.length * S.memSize ≤ n * S.memSize := Nat.mul_le_mul_right _ (Nat.min_le_left _ _)
    omega
  · dsimp only
    split <;> rfl

/-! ## Contiguous data -/

/-- the positions from which the lanes are filled -/
def laneCells (ext : Nat → Nat → Nat) (h : Nat → Nat → Nat → List Nat) : Nat → List (Lane α) → List Nat
  | _, [] => []
  | o, c :: cs =>
    (match c.out with
      | none => []
      | some x => (h o c.length c.skip).take x.2.rest.length) ++ laneCells ext h (o + ext c.length c.size) cs

theorem laneCells_append (ext : Nat → Nat → Nat) (h h' : Nat → Nat → Nat → List Nat) (g : Nat → Nat → Nat → List α)
    (hg : ∀ o n k, (g o n k).length = (h o n k).length) (p : Nat) : ∀ (cols : List (Lane α)) (o : Nat),
    p ∈ laneCells ext h o cols ++ laneCells ext h' o (feedL ext g o cols) ↔
      p ∈ laneCells ext (fun o n k => h o n k ++ h' o n k) o cols := by
  intro cols
  induction cols with
  | nil => intro o; simp [laneCells, feedL]
  | cons c cs ih =>
    intro o
    have := ih (o + ext c.length c.size)
    rw [feedL]
    unfold laneCells
    cases ho : c.out with
    | none =>
      simp only [Option.map_none, List.nil_append]
      exact this
    | some x =>
      simp only [Option.map_some, OutIter.feed, List.length_drop, hg, List.take_append, List.mem_append] at this ⊢
      rw [← this]
      constructor
      · rintro ((h | h) | (h | h))
        · exact Or.inl (Or.inl h)
        · exact Or.inr (Or.inl h)
        · exact Or.inl (Or.inr h)
        · exact Or.inr (Or.inr h)
      · rintro ((h | h) | (h | h))
        · exact Or.inl (Or.inl h)
        · exact Or.inr (Or.inl h)
        · exact Or.inl (Or.inr h)
        · exact Or.inr (Or.inr h)

theorem laneCells_congr (ext : Nat → Nat → Nat) {h h' : Nat → Nat → Nat → List Nat}
    (hh : ∀ o n k, h o n k = h' o n k) (cols : List (Lane α)) (o : Nat) :
    laneCells ext h o cols = laneCells ext h' o cols := by
  have : h = h' := by funext o n k; exact hh o n k
  rw [this]

theorem laneCells_nil (ext : Nat → Nat → Nat) : ∀ (cols : List (Lane α)) (o : Nat),
    laneCells ext (fun _ _ _ => []) o cols = [] := by
  intro cols
  induction cols with
  | nil => intro o; rfl
  | cons c cs ih =>
    intro o
    unfold laneCells
    rw [ih]
    cases c.out <;> simp

theorem mem_laneCells (ext : Nat → Nat → Nat) (h : Nat → Nat → Nat → List Nat) (p : Nat) :
    ∀ (cols : List (Lane α)) (o : Nat), p ∈ laneCells ext h o cols ↔
      ∃ j c x, cols[j]? = some c ∧ c.out = some x ∧
        p ∈ (h (o + ((cols.take j).map (fun c => ext c.length c.size)).sum) c.length c.skip).take x.2.rest.length := by
  intro cols
  induction cols with
  | nil => intro o; simp [laneCells]
  | cons c cs ih =>
    intro o
    unfold laneCells
    rw [List.mem_append, ih]
    constructor
    · rintro (hp | ⟨j, d, x, h1, h2, h3⟩)
      · cases ho : c.out with
        | none => rw [ho] at hp; cases hp
        | some x =>
          rw [ho] at hp
          exact ⟨0, c, x, rfl, ho, by simpa using hp⟩
      · refine ⟨j + 1, d, x, h1, h2, ?_⟩
        rw [List.take_succ_cons, List.map_cons, List.sum_cons, ← Nat.add_assoc]
        exact h3
    · rintro ⟨j, d, x, h1, h2, h3⟩
      cases j with
      | zero =>
        cases h1
        left
        rw [h2]
        simpa using h3
      | succ j =>
        right
        refine ⟨j, d, x, h1, h2, ?_⟩
        rw [List.take_succ_cons, List.map_cons, List.sum_cons, ← Nat.add_assoc] at h3
        exact h3

theorem readSubBlock_cut (hS : S.Reads dec) (hsh : S.Short) (hsame : SameBytes f F) (hF : F.length < 2 ^ 63)
    (e : Endian) (κ : Nat → Nat) (base : Nat) :
    ∀ (cols : List (Lane α)) (l o : Nat), SizedL S cols → (∀ c ∈ cols, c.size < 2 ^ 63) →
      base + o + (cols.map Lane.bytes).sum ≤ F.length →
      Cut S.memSize f F (readSubBlock S e l (cols.map (Lane.entry κ))) (base + o)
        (laneCells (· * ·) (fun o n k => (posAt S.memSize (base + o) n).drop (κ k)) o cols) := by
  intro cols
  induction cols with
  | nil => intro l o _ _ _; exact Cut.same rfl
  | cons c cs ih =>
    intro l o hsz hpos hlen
    have hsz' : SizedL S cs := fun c hc => hsz c (by simp [hc])
    have hpos' : ∀ c ∈ cs, c.size < 2 ^ 63 := fun c hc => hpos c (by simp [hc])
    have hlen' : base + (o + c.bytes) + (cs.map Lane.bytes).sum ≤ F.length := by
      simp only [List.map_cons, List.sum_cons] at hlen; omega
    have hih := fun l => ih l (o + c.bytes) hsz' hpos' hlen'
    have hval := fun l => readSubBlock_lanes hS e F hF κ base cs l (o + c.bytes) hsz' hpos' hlen'
    have hp := hpos c (by simp)
    simp only [List.map_cons, List.sum_cons] at hlen ⊢
    have hb : c.bytes = c.length * c.size := rfl
    unfold readSubBlock laneCells
    cases ho : c.out with
    | none =>
      have hplan : (Lane.entry κ c).plan = .skip c.size := by simp [Lane.entry, ho]
      rw [hplan]
      dsimp only
      have hmul : mulI64 (c.size : Int) (toI64 (Lane.entry κ c).length) = .ok ((c.size * c.length : Nat) : Int) := by
        rcases Nat.eq_zero_or_pos c.size with h0 | h0
        · rw [h0]
          simp [mulI64]
        · have hl1 : c.length ≤ c.length * c.size := Nat.le_mul_of_pos_right _ h0
          have := mulI64_small (a := c.size) (b := c.length)
            (by rw [Nat.mul_comm]; omega) hp (by omega)
          unfold toI64 at this
          rw [if_pos hp] at this
          exact this
      refine Cut.lift hmul (Cut.step (q := base + (o + c.bytes)) (a := ()) rfl ?_ ?_)
      · rw [move_nat _ _ _ (by rw [Nat.mul_comm]; omega), hb, Nat.mul_comm c.size, Nat.add_assoc]
      · rw [List.nil_append]
        exact Cut.last (hih l) (hval l) rfl
    | some x =>
      obtain ⟨slot, it⟩ := x
      have hsize := hsz c (by simp) (by rw [ho]; rfl)
      have hplan : (Lane.entry κ c).plan = .read slot it (κ c.skip) := by simp [Lane.entry, ho]
      have hlength : (Lane.entry κ c).length = c.length := rfl
      rw [hplan, hlength]
      dsimp only
      have hfit : base + o + min (κ c.skip) c.length * S.memSize +
          (c.length - min (κ c.skip) c.length) * S.memSize = base + (o + c.bytes) := by
        rw [Nat.add_assoc, ← Nat.add_mul, ← hsize,
          show min (κ c.skip) c.length + (c.length - min (κ c.skip) c.length) = c.length by omega, hb]
        omega
      have hread := readSequential_eq hS e F hF it (c.length - min (κ c.skip) c.length)
        (base + o + min (κ c.skip) c.length * S.memSize) (by rw [hfit]; omega)
      have hcut := readSequential_cut hS hsh hsame e it (c.length - min (κ c.skip) c.length)
        (base + o + min (κ c.skip) c.length * S.memSize) (by rw [hfit]; omega)
      rw [hfit] at hread
      have hcells : ((posAt S.memSize (base + o) c.length).drop (κ c.skip)).take it.rest.length =
          posAt S.memSize (base + o + min (κ c.skip) c.length * S.memSize)
            (min (c.length - min (κ c.skip) c.length) it.rest.length) := by
        rw [posAt_drop, posAt_take, show c.length - min (κ c.skip) c.length = c.length - κ c.skip by omega]
      rw [hcells]
      have hmain := Cut.bind (k := fun (r : Nat × OutIter α) => (do
            let __discr ← readSubBlock S e r.1 (cs.map (Lane.entry κ))
            (Pure.pure (__discr.1,
              { (Lane.entry κ c) with plan := .read slot r.2 (κ c.skip) } :: __discr.2)
              : Rd (Nat × List (RecordEntry α))))) hcut hread
        (Cut.last (hih _) (hval _) rfl)
      by_cases hk : min (κ c.skip) c.length > 0
      · rw [if_pos hk]
        have h1 : min (κ c.skip) c.length * S.memSize ≤ c.length * c.size := by
          rw [hsize]; exact Nat.mul_le_mul_right _ (by omega)
        have hl1 : c.length ≤ c.length * c.size := Nat.le_mul_of_pos_right _ (by rw [hsize]; exact hS.pos)
        rw [hsize] at hp
        exact Cut.lift (mulI64_small (by omega) (by omega) hp)
          (Cut.step rfl (move_nat _ _ _ (by omega)) hmain)
      · rw [if_neg hk]
        have : min (κ c.skip) c.length = 0 := by omega
        simp only [this, Nat.zero_mul, Nat.add_zero] at hmain ⊢
        exact hmain

/-- the positions that the chunks `idx, …, idx + r - 1` offer to a lane -/
def lanePos (w start bs sub : Nat) (skips : List Nat) (idx r : Nat) (o n k : Nat) : List Nat :=
  (List.range' idx r).flatMap fun c =>
    if skips.all (fun s => decide (s / sub ≤ c)) then
      (posAt w (start + c * bs + o) n).drop (if c = k / sub then k % sub else 0)
    else []

theorem contigSkipLoop_cut (hS : S.Reads dec) (hsh : S.Short) (hsame : SameBytes f F) (hF : F.length < 2 ^ 63)
    (e : Endian) (start bs sub : Nat) (extra : List Nat) :
    ∀ (r idx : Nat) (cols : List (Lane α)) (len : Nat) (κ' : Nat → Nat), SizedL S cols →
      (∀ c ∈ cols, c.size < 2 ^ 63) → bs = (cols.map Lane.bytes).sum →
      start + (idx + r) * bs ≤ F.length →
      Cut S.memSize f F (contigSkipLoop S e bs ((skipsOf cols ++ extra).map (· / sub))
        ((skipsOf cols ++ extra).map (· % sub)) r idx (cols.map (Lane.entry κ')) len) (start + idx * bs)
        (laneCells (· * ·) (lanePos S.memSize start bs sub (skipsOf cols ++ extra) idx r) 0 cols) := by
  intro r
  induction r with
  | zero =>
    intro idx cols len κ' _ _ _ _
    have h1 : lanePos S.memSize start bs sub (skipsOf cols ++ extra) idx 0 = fun _ _ _ => [] := by
      funext o n k; simp [lanePos]
    rw [h1, laneCells_nil]
    exact Cut.same rfl
  | succ r ih =>
    intro idx cols len κ' hsz hpos hbs hlen
    generalize hsk : skipsOf cols ++ extra = skips at *
    unfold contigSkipLoop
    have hadd : idx + (r + 1) = (idx + 1) + r := by omega
    have hmul : (idx + (r + 1)) * bs = idx * bs + bs + r * bs := by
      rw [hadd, Nat.add_mul, Nat.add_mul, Nat.one_mul]
    have hnext : start + idx * bs + bs = start + (idx + 1) * bs := by
      rw [Nat.add_mul, Nat.one_mul]; omega
    have hvals : ∀ o n k, lanePos S.memSize start bs sub skips idx (r + 1) o n k =
        (if skips.all (fun s => decide (s / sub ≤ idx)) then
          (posAt S.memSize (start + idx * bs + o) n).drop (if idx = k / sub then k % sub else 0) else []) ++
          lanePos S.memSize start bs sub skips (idx + 1) r o n k := by
      intro o n k
      unfold lanePos
      rw [List.range'_succ, List.flatMap_cons]
    have hall : (skips.map (· / sub)).all (fun skip => decide (idx ≥ skip)) =
        skips.all (fun s => decide (s / sub ≤ idx)) := by
      rw [List.all_map]; rfl
    rw [hall]
    by_cases h1 : skips.all (fun s => decide (s / sub ≤ idx)) = true
    · rw [if_pos h1]
      simp only [if_pos h1] at hvals
      dsimp only
      have hzip : ((skips.map (· / sub)).zip (skips.map (· % sub))).map
          (fun (x : Nat × Nat) => calculateSkip idx x.1 x.2) =
          (skipsOf cols).map (fun k => if idx = k / sub then k % sub else 0) ++
            extra.map (fun k => if idx = k / sub then k % sub else 0) := by
        rw [← List.map_append, hsk, List.zip_map', List.map_map]
        rfl
      rw [hzip, setSkips_lanes]
      generalize hκ : (fun k => if idx = k / sub then k % sub else 0) = κ
      have hle : start + idx * bs + 0 + (cols.map Lane.bytes).sum ≤ F.length := by rw [← hbs]; omega
      have hsub := readSubBlock_lanes hS e F hF κ (start + idx * bs) cols 0 0 hsz hpos hle
      have hcut := readSubBlock_cut hS hsh hsame hF e κ (start + idx * bs) cols 0 0 hsz hpos hle
      rw [Nat.add_zero] at hsub hcut
      rw [← hbs, hnext] at hsub
      have hrest := ih (idx + 1) (feedL (· * ·)
          (fun o n k => (valsAt S dec e F (start + idx * bs + o) n).drop (κ k)) 0 cols) (len + lastGot κ 0 cols) κ
        (feedL_sized _ _ cols 0 hsz)
        (by
          intro c hc
          have : c.size ∈ (feedL (· * ·)
              (fun o n k => (valsAt S dec e F (start + idx * bs + o) n).drop (κ k)) 0 cols).map Lane.size :=
            List.mem_map_of_mem hc
          rw [feedL_map _ _ _ (fun _ _ _ h => h)] at this
          obtain ⟨d, hd, hs⟩ := List.mem_map.mp this
          rw [← hs]; exact hpos d hd)
        (by rw [feedL_map _ _ Lane.bytes (fun c d h1 h2 => by unfold Lane.bytes; rw [h1, h2])]; exact hbs)
        (by rw [← hadd]; exact hlen)
      rw [skipsOf_feedL, hsk] at hrest
      refine (Cut.bind hcut hsub hrest).congr ?_
      intro p
      rw [laneCells_append _ _ _ _ (fun o n k => by simp [length_posAt])]
      rw [show lanePos S.memSize start bs sub skips idx (r + 1) = fun o n k =>
        (posAt S.memSize (start + idx * bs + o) n).drop (κ k) ++ lanePos S.memSize start bs sub skips (idx + 1) r o n k by
        funext o n k
        rw [hvals o n k, ← hκ]]
    · rw [if_neg h1]
      simp only [if_neg h1, List.nil_append] at hvals
      have hmv : Rd.move (toI64 bs) F (start + idx * bs) = .ok ((), start + idx * bs + bs) := by
        unfold toI64
        rw [if_pos (by omega)]
        exact move_nat _ _ _ (by omega)
      rw [hnext] at hmv
      have hrest := ih (idx + 1) cols len κ' hsz hpos hbs (by rw [← hadd]; exact hlen)
      rw [hsk] at hrest
      rw [laneCells_congr _ hvals]
      exact Cut.step rfl hmv hrest

/-- What the reader of contiguous data reads. -/
theorem contigReadSkip_cut (hS : S.Reads dec) (hsh : S.Short) (hsame : SameBytes f F) (hF : F.length < 2 ^ 63)
    (e : Endian) (start size sub p : Nat) (extra : List Nat) (cols : List (Lane α)) (κ : Nat → Nat) (hsz : SizedL S cols)
    (hpos : ∀ c ∈ cols, c.size < 2 ^ 63)
    (hbs : 0 < (cols.map Lane.bytes).sum) (hbs' : (cols.map Lane.bytes).sum < 2 ^ 64)
    (hsub : divAll sub (skipsOf cols ++ extra) = .ok ((skipsOf cols ++ extra).map (· / sub)))
    (hfirst : ∃ c, cols.head? = some c ∧ c.length = sub) (hlen : start + size ≤ F.length) :
    Cut S.memSize f F (contigReadSkip S e start size (cols.map (Lane.entry κ)) (skipsOf cols ++ extra)) p
      (laneCells (· * ·) (lanePos S.memSize start (cols.map Lane.bytes).sum sub (skipsOf cols ++ extra) 0
        (size / (cols.map Lane.bytes).sum)) 0 cols) := by
  generalize hB : (cols.map Lane.bytes).sum = bs at *
  have hle : size / bs * bs ≤ size := Nat.div_mul_le_self _ _
  have hsize : blockSize S (cols.map (Lane.entry κ)) = .ok bs := by
    rw [blockSize_lanes κ hsz (by rw [hB]; exact hbs'), hB]
  unfold contigReadSkip
  have hloop := contigSkipLoop_cut hS hsh hsame hF e start bs sub extra (size / bs) 0 cols 0 κ hsz hpos hB.symm
    (by rw [Nat.zero_add]; omega)
  rw [Nat.zero_mul, Nat.add_zero] at hloop
  exact Cut.step rfl (show Rd.seek start F p = .ok ((), start) from rfl) (Cut.lift hsize
    (Cut.lift (show divR size bs = .ok (size / bs) by unfold divR; rw [if_neg (by omega)])
      (Cut.lift (firstLength_lanes κ hfirst) (Cut.lift hsub hloop))))

/-! ## Interleaved data -/

/-- the positions of the values of a row that starts at `base` -/
def rowCells (base : Nat) : Nat → List (Lane α) → List Nat
  | _, [] => []
  | o, c :: cs => (if c.out.isSome then [base + o] else []) ++ rowCells base (o + c.size) cs

theorem rowCells_feed (base : Nat) (ext : Nat → Nat → Nat) (g : Nat → Nat → Nat → List α) :
    ∀ (cols : List (Lane α)) (o o' : Nat), rowCells base o (feedL ext g o' cols) = rowCells base o cols := by
  intro cols
  induction cols with
  | nil => intro o o'; rfl
  | cons c cs ih =>
    intro o o'
    unfold feedL rowCells
    rw [ih]
    simp

theorem mem_rowCells (base p : Nat) : ∀ (cols : List (Lane α)) (o : Nat), p ∈ rowCells base o cols ↔
    ∃ j c, cols[j]? = some c ∧ c.out.isSome = true ∧ p = base + (o + ((cols.take j).map Lane.size).sum) := by
  intro cols
  induction cols with
  | nil => intro o; simp [rowCells]
  | cons c cs ih =>
    intro o
    unfold rowCells
    rw [List.mem_append, ih]
    constructor
    · rintro (hp | ⟨j, d, h1, h2, h3⟩)
      · cases ho : c.out.isSome with
        | false => rw [ho] at hp; cases hp
        | true =>
          rw [ho] at hp
          exact ⟨0, c, rfl, ho, by simpa using hp⟩
      · refine ⟨j + 1, d, h1, h2, ?_⟩
        rw [List.take_succ_cons, List.map_cons, List.sum_cons, ← Nat.add_assoc o]
        exact h3
    · rintro ⟨j, d, h1, h2, h3⟩
      cases j with
      | zero =>
        cases h1
        left
        rw [h2]
        simpa using h3
      | succ j =>
        right
        refine ⟨j, d, h1, h2, ?_⟩
        rw [List.take_succ_cons, List.map_cons, List.sum_cons, ← Nat.add_assoc o] at h3
        exact h3

theorem readRow_cut (hS : S.Reads dec) (hsh : S.Short) (hsame : SameBytes f F) (hF : F.length < 2 ^ 63)
    (e : Endian) (κ : Nat → Nat) (row base : Nat) :
    ∀ (cols : List (Lane α)) (o : Nat) (any : Bool), SizedL S cols →
      base + o + (cols.map Lane.size).sum ≤ F.length →
      Cut S.memSize f F (readRow S e row any (cols.map (Lane.entry κ))) (base + o) (rowCells base o cols) := by
  intro cols
  induction cols with
  | nil => intro o any _ _; exact Cut.same rfl
  | cons c cs ih =>
    intro o any hsz hlen
    simp only [List.map_cons, List.sum_cons] at hlen ⊢
    have hsz' : SizedL S cs := fun c hc => hsz c (by simp [hc])
    have hlen' : base + (o + c.size) + (cs.map Lane.size).sum ≤ F.length := by omega
    have hih := fun any => ih (o + c.size) any hsz' hlen'
    have hval := fun any => readRow_lanes hS e F hF κ row base cs (o + c.size) any hsz' hlen'
    unfold readRow rowCells
    cases ho : c.out with
    | none =>
      have hplan : (Lane.entry κ c).plan = .skip c.size := by simp [Lane.entry, ho]
      rw [hplan]
      dsimp only
      refine Cut.step (q := base + (o + c.size)) (a := ()) rfl ?_ ?_
      · rw [move_nat _ _ _ (by omega), Nat.add_assoc]
      · exact Cut.last (hih any) (hval any) rfl
    | some x =>
      obtain ⟨slot, it⟩ := x
      have hsize := hsz c (by simp) (by rw [ho]; rfl)
      have hplan : (Lane.entry κ c).plan = .read slot it (κ c.skip) := by simp [Lane.entry, ho]
      rw [hplan]
      dsimp only
      refine Cut.bind (ps := [base + o]) (read_cut hS hsh hsame e (by omega)) (hS.reads e F (base + o) (by omega)) ?_
      rw [show base + o + S.memSize = base + (o + c.size) by omega]
      by_cases hk : κ c.skip ≤ row
      · rw [if_pos (show row ≥ κ c.skip from hk)]
        cases hr : it.rest with
        | nil => exact Cut.last (hih _) (hval _) rfl
        | cons y ys => exact Cut.last (hih _) (hval _) rfl
      · rw [if_neg (show ¬ row ≥ κ c.skip from hk)]
        exact Cut.last (hih _) (hval _) rfl

theorem interLoop_cut (hS : S.Reads dec) (hsh : S.Short) (hsame : SameBytes f F) (hF : F.length < 2 ^ 63)
    (e : Endian) (κ : Nat → Nat) (start rs : Nat) :
    ∀ (r row : Nat) (cols : List (Lane α)) (smp T : Nat), SizedL S cols →
      rs = (cols.map Lane.size).sum → start + (row + r) * rs ≤ F.length → T ≤ r →
      (∀ j < T, storesRow κ (row + j)
        (feedL (fun _ s => s) (fun o _ k => rowValsL S dec e F start rs κ row j o k) 0 cols) = true) →
      (T < r → storesRow κ (row + T)
        (feedL (fun _ s => s) (fun o _ k => rowValsL S dec e F start rs κ row T o k) 0 cols) = false) →
      Cut S.memSize f F (interLoop S e r row (cols.map (Lane.entry κ)) smp) (start + row * rs)
        ((List.range' row (min (T + 1) r)).flatMap fun q => rowCells (start + q * rs) 0 cols) := by
  intro r
  induction r with
  | zero =>
    intro row cols smp T _ _ _ _ _ _
    rw [Nat.min_zero]
    exact Cut.same rfl
  | succ r ih =>
    intro row cols smp T hsz hrs hlen hT hs1 hs2
    have hmul : (row + (r + 1)) * rs = row * rs + rs + r * rs := by
      rw [show row + (r + 1) = (row + 1) + r by omega, Nat.add_mul, Nat.add_mul, Nat.one_mul]
    have hle : start + row * rs + 0 + (cols.map Lane.size).sum ≤ F.length := by rw [← hrs]; omega
    have hrow := readRow_lanes hS e F hF κ row (start + row * rs) cols 0 false hsz hle
    have hcut := readRow_cut hS hsh hsame hF e κ row (start + row * rs) cols 0 false hsz hle
    have hnext : start + row * rs + (cols.map Lane.size).sum = start + (row + 1) * rs := by
      rw [← hrs, Nat.add_mul, Nat.one_mul]; omega
    rw [Nat.add_zero] at hrow hcut
    rw [Bool.false_or, hnext] at hrow
    have h0 : feedL (fun _ s => s) (fun o _ k => rowValsL S dec e F start rs κ row 0 o k) 0 cols = cols := by
      have : (fun o (_ : Nat) k => rowValsL S dec e F start rs κ row 0 o k) = fun _ _ _ => [] := by
        funext o n k; simp [rowValsL]
      rw [this, feedL_nil]
    unfold interLoop
    cases T with
    | zero =>
      have hc := hs2 (Nat.succ_pos r)
      rw [h0, Nat.add_zero] at hc
      rw [show min (0 + 1) (r + 1) = 1 by omega]
      show Cut _ _ _ _ _ (rowCells (start + row * rs) 0 cols ++ [])
      rw [List.append_nil]
      rw [hc] at hrow
      exact Cut.last hcut hrow rfl
    | succ T =>
      have hc := hs1 0 (Nat.succ_pos T)
      rw [h0, Nat.add_zero] at hc
      rw [hc] at hrow
      generalize hcols' : feedL (fun _ s => s)
        (fun o (_ : Nat) k => if κ k ≤ row then [dec e ((F.drop (start + row * rs + o)).take S.memSize)] else [])
        0 cols = cols' at hrow
      have hfeed : ∀ T, feedL (fun _ s => s) (fun o _ k => rowValsL S dec e F start rs κ (row + 1) T o k) 0 cols' =
          feedL (fun _ s => s) (fun o _ k => rowValsL S dec e F start rs κ row (T + 1) o k) 0 cols := by
        intro T
        rw [← hcols', feedL_feedL]
        congr 1
      have hrest := ih (row + 1) cols' (smp + 1) T
        (by rw [← hcols']; exact feedL_sized _ _ cols 0 hsz)
        (by rw [← hcols', feedL_map _ _ Lane.size (fun _ _ _ h => h)]; exact hrs)
        (by rw [show row + 1 + r = row + (r + 1) by omega]; exact hlen)
        (by omega)
        (by
          intro j hj
          rw [hfeed, show row + 1 + j = row + (j + 1) by omega]
          exact hs1 (j + 1) (by omega))
        (by
          intro hlt
          rw [hfeed, show row + 1 + T = row + (T + 1) by omega]
          exact hs2 (by omega))
      have hcells : ∀ q, rowCells (start + q * rs) 0 cols' = rowCells (start + q * rs) 0 cols := by
        intro q
        rw [← hcols', rowCells_feed]
      simp only [hcells] at hrest
      rw [show min (T + 1 + 1) (r + 1) = min (T + 1) r + 1 by omega, List.range'_succ, List.flatMap_cons]
      exact Cut.bind hcut hrow hrest

/-- the rows, counted from the first that is read -/
theorem rows_shift (e : Endian) (F : Bytes) (start rs m T : Nat) (cols : List (Lane α))
    (hall : ∀ k ∈ skipsOf cols, m ≤ k) :
    feedL (fun _ s => s) (fun o _ k => rowValsL S dec e F (start + m * rs) rs (fun k => k - m) 0 T o k) 0 cols =
      feedL (fun _ s => s) (fun o _ k => rowValsL S dec e F start rs id m T o k) 0 cols := by
  suffices h : ∀ (o n k : Nat), m ≤ k →
      rowValsL S dec e F (start + m * rs) rs (fun k => k - m) 0 T o k = rowValsL S dec e F start rs id m T o k by
    have hgen : ∀ (cs : List (Lane α)) (o : Nat), (∀ k ∈ skipsOf cs, m ≤ k) →
        feedL (fun _ s => s)
          (fun o _ k => rowValsL S dec e F (start + m * rs) rs (fun k => k - m) 0 T o k) o cs =
        feedL (fun _ s => s) (fun o _ k => rowValsL S dec e F start rs id m T o k) o cs := by
      intro cs
      induction cs with
      | nil => intro o _; rfl
      | cons c cs ih =>
        intro o hcs
        obtain ⟨l, s, out, k⟩ := c
        unfold feedL
        cases out with
        | none =>
          rw [ih _ hcs]
          rfl
        | some x =>
          have hsk : skipsOf (⟨l, s, some x, k⟩ :: cs : List (Lane α)) = k :: skipsOf cs := rfl
          rw [hsk] at hcs
          rw [ih _ (fun k hk => hcs k (by simp [hk]))]
          simp only [Option.map_some]
          rw [h o l k (hcs k (by simp))]
    exact hgen cols 0 hall
  intro o n k hk
  unfold rowValsL
  rw [show List.range' m T = (List.range' 0 T).map (m + ·) by rw [List.map_add_range', Nat.add_zero],
    List.flatMap_map, List.flatMap_def, List.flatMap_def]
  congr 1
  apply List.map_congr_left
  intro q _
  have hpos : start + m * rs + q * rs + o = start + (m + q) * rs + o := by
    rw [Nat.add_mul m q]; omega
  rw [hpos]
  have hiff : (k - m ≤ q) ↔ id k ≤ m + q := by simp only [id]; omega
  simp only [hiff]

theorem stores_shift (m T : Nat) (cs : List (Lane α)) (hall : ∀ k ∈ skipsOf cs, m ≤ k) :
    storesRow (fun k => k - m) T cs = storesRow id (m + T) cs := by
  unfold storesRow
  induction cs with
  | nil => rfl
  | cons c cs ih =>
    obtain ⟨l, s, out, k⟩ := c
    rw [List.any_cons, List.any_cons]
    cases out with
    | none => rw [ih hall]
    | some x =>
      have hsk : skipsOf (⟨l, s, some x, k⟩ :: cs : List (Lane α)) = k :: skipsOf cs := rfl
      rw [hsk] at hall
      rw [ih (fun k hk => hall k (by simp [hk]))]
      have hk := hall k (by simp)
      have hiff : (k - m ≤ T) ↔ id k ≤ m + T := by simp only [id]; omega
      simp only [hiff]

/-- What the reader of interleaved data reads. -/
theorem interRead_cut (hS : S.Reads dec) (hsh : S.Short) (hsame : SameBytes f F) (hF : F.length < 2 ^ 63)
    (e : Endian) (start size p : Nat) (cols : List (Lane α)) (hsz : SizedL S cols)
    (hrow : 0 < (cols.map Lane.size).sum) (hlen : start + size ≤ F.length)
    (hmin : ((skipsOf cols).min?.getD 0) * (cols.map Lane.size).sum < 2 ^ 63) (T : Nat)
    (hT : T ≤ size / (cols.map Lane.size).sum - (skipsOf cols).min?.getD 0)
    (hs1 : ∀ j < T, storesRow id ((skipsOf cols).min?.getD 0 + j)
        (feedL (fun _ s => s) (fun o _ k => rowValsL S dec e F start (cols.map Lane.size).sum id
          ((skipsOf cols).min?.getD 0) j o k) 0 cols) = true)
    (hs2 : T < size / (cols.map Lane.size).sum - (skipsOf cols).min?.getD 0 →
        storesRow id ((skipsOf cols).min?.getD 0 + T)
        (feedL (fun _ s => s) (fun o _ k => rowValsL S dec e F start (cols.map Lane.size).sum id
          ((skipsOf cols).min?.getD 0) T o k) 0 cols) = false) :
    Cut S.memSize f F (interRead S e start size (cols.map (Lane.entry id))) p
      ((List.range' ((skipsOf cols).min?.getD 0)
        (min (T + 1) (size / (cols.map Lane.size).sum - (skipsOf cols).min?.getD 0))).flatMap fun q =>
          rowCells (start + q * (cols.map Lane.size).sum) 0 cols) := by
  generalize hR : (cols.map Lane.size).sum = rs at *
  have hle : size / rs * rs ≤ size := Nat.div_mul_le_self _ _
  have hbs : blockSkips (cols.map (Lane.entry id)) = skipsOf cols := by
    rw [blockSkips_lanes, List.map_id]
  have hall : ∀ k ∈ skipsOf cols, (skipsOf cols).min?.getD 0 ≤ k := by
    intro k hk
    cases hm : (skipsOf cols).min? with
    | none => exact Nat.zero_le _
    | some m => exact (List.min?_eq_some_iff.mp hm).2 k hk
  unfold interRead
  refine Cut.step rfl (show Rd.seek start F p = .ok ((), start) from rfl) ?_
  rw [rowSize_lanes id hsz, hR]
  refine Cut.lift (show divR size rs = .ok (size / rs) by unfold divR; rw [if_neg (by omega)]) ?_
  simp only [hbs, minOrZero_min?]
  rw [mapSkips_lanes]
  generalize hm : (skipsOf cols).min?.getD 0 = m at *
  dsimp only [id]
  have hloop : Cut S.memSize f F (interLoop S e (size / rs - m) 0 (cols.map (Lane.entry (fun k => k - m))) 0)
      (start + m * rs)
      ((List.range' m (min (T + 1) (size / rs - m))).flatMap fun q => rowCells (start + q * rs) 0 cols) := by
    by_cases hrows : m ≤ size / rs
    · have hml : m * rs + (size / rs - m) * rs = size / rs * rs := by
        rw [← Nat.add_mul]; congr 1; omega
      have hfs : ∀ T, ∀ k ∈ skipsOf (feedL (fun _ s => s) (fun o _ k => rowValsL S dec e F start rs id m T o k) 0 cols),
          m ≤ k := by
        intro T
        rw [skipsOf_feedL]
        exact hall
      have hl := interLoop_cut hS hsh hsame hF e (fun k => k - m) (start + m * rs) rs (size / rs - m) 0 cols 0 T hsz hR.symm
        (by rw [Nat.zero_add]; omega) hT
        (by
          intro j hj
          rw [rows_shift e F start rs m j cols hall, Nat.zero_add, stores_shift m j _ (hfs j)]
          exact hs1 j hj)
        (by
          intro hlt
          rw [rows_shift e F start rs m T cols hall, Nat.zero_add, stores_shift m T _ (hfs T)]
          exact hs2 hlt)
      rw [Nat.zero_mul, Nat.add_zero] at hl
      have hcells : ((List.range' m (min (T + 1) (size / rs - m))).flatMap fun q => rowCells (start + q * rs) 0 cols) =
          (List.range' 0 (min (T + 1) (size / rs - m))).flatMap fun q => rowCells (start + m * rs + q * rs) 0 cols := by
        rw [show List.range' m (min (T + 1) (size / rs - m)) =
          (List.range' 0 (min (T + 1) (size / rs - m))).map (m + ·) by rw [List.map_add_range']; rfl,
          List.flatMap_map]
        congr 1
        funext q
        rw [Nat.add_mul m q, ← Nat.add_assoc]
      rw [hcells]
      exact hl
    · have h0 : size / rs - m = 0 := by omega
      rw [h0, Nat.min_zero]
      exact Cut.same rfl
  by_cases hk0 : m > 0
  · rw [if_pos hk0]
    have e1 : m ≤ m * rs := Nat.le_mul_of_pos_right _ hrow
    have e2 : rs ≤ m * rs := Nat.le_mul_of_pos_left _ hk0
    exact Cut.lift (mulI64_small (by omega) (by omega) (by omega)) (Cut.step rfl (move_nat _ _ _ (by omega)) hloop)
  · rw [if_neg hk0]
    have : m = 0 := by omega
    subst this
    rw [Nat.zero_mul, Nat.add_zero] at hloop
    exact hloop

end
end Tedium
