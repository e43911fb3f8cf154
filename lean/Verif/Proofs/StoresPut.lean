import Verif.Proofs.Stores

/-! # After a read that succeeds, the assignments made have filled the slices as in `Model/BlockRead.lean` -/

namespace Tedium
namespace Prog
variable {σ α β : Type}

/-- Whatever is read: the assignments made so far satisfy `P` at all times, and the result with all of them satisfies `Q`. -/
def Runs (P : List σ → Prop) (Q : List σ → α → Prop) : Prog σ α → Prop
  | .ret a => P [] ∧ Q [] a
  | .stop _ => P []
  | .exact _ next => P [] ∧ ∀ bs, Runs P Q (next bs)
  | .move _ next => P [] ∧ Runs P Q next
  | .store s next => P [] ∧ Runs (fun T => P (s :: T)) (fun T a => Q (s :: T) a) next

theorem Runs.start {a : Prog σ α} : ∀ {P : List σ → Prop} {Q : List σ → α → Prop}, Runs P Q a → P [] := by
  cases a with
  | ret a => exact fun h => h.1
  | stop e => exact fun h => h
  | exact n next => exact fun h => h.1
  | move o next => exact fun h => h.1
  | store s next => exact fun h => h.1

theorem Runs.mono {a : Prog σ α} : ∀ {P P' : List σ → Prop} {Q Q' : List σ → α → Prop}, Runs P Q a →
    (∀ T, P T → P' T) → (∀ T r, P T → Q T r → Q' T r) → Runs P' Q' a := by
  induction a with
  | ret a => intro P P' Q Q' h hp hq; exact ⟨hp _ h.1, hq _ _ h.1 h.2⟩
  | stop e => intro P P' Q Q' h hp hq; exact hp _ h
  | exact n next ih => intro P P' Q Q' h hp hq; exact ⟨hp _ h.1, fun bs => ih bs (h.2 bs) hp hq⟩
  | move o next ih => intro P P' Q Q' h hp hq; exact ⟨hp _ h.1, ih h.2 hp hq⟩
  | store s next ih =>
    intro P P' Q Q' h hp hq
    exact ⟨hp _ h.1, ih h.2 (fun T => hp _) (fun T r => hq _ _)⟩

theorem Runs.bind {x : Prog σ α} {k : α → Prog σ β} : ∀ {P : List σ → Prop} {Q : List σ → α → Prop} {Q' : List σ → β → Prop},
    Runs P Q x → (∀ T a, P T → Q T a → Runs (fun T' => P (T ++ T')) (fun T' b => Q' (T ++ T') b) (k a)) →
    Runs P Q' (x >>= k) := by
  show ∀ {P : List σ → Prop} {Q : List σ → α → Prop} {Q' : List σ → β → Prop}, Runs P Q x → _ → Runs P Q' (Prog.bind x k)
  induction x with
  | ret a => intro P Q Q' h hk; exact hk [] a h.1 h.2
  | stop e => intro P Q Q' h hk; exact h
  | exact n next ih => intro P Q Q' h hk; exact ⟨h.1, fun bs => ih bs (h.2 bs) hk⟩
  | move o next ih => intro P Q Q' h hk; exact ⟨h.1, ih h.2 hk⟩
  | store s next ih => intro P Q Q' h hk; exact ⟨h.1, ih h.2 (fun T a => hk (s :: T) a)⟩

theorem Runs.ofAct (a : Act α) {P : List σ → Prop} (h : P []) : Runs P (fun T _ => T = []) (ofAct a) := by
  induction a with
  | ret a => exact ⟨h, rfl⟩
  | stop e => exact h
  | exact n next ih => exact ⟨h, fun bs => ih bs⟩
  | move o next ih => exact ⟨h, ih⟩

theorem Runs.lift (x : R α) {P : List σ → Prop} (h : P []) : Runs P (fun T _ => T = []) (lift x) := by
  cases x with
  | ok a => exact ⟨h, rfl⟩
  | error e => exact h

theorem Runs.skip (o : Int) {P : List σ → Prop} (h : P []) : Runs P (fun T _ => T = []) (skip o) := ⟨h, h, rfl⟩

/-- An instruction that does not assign, and then a program. -/
theorem Runs.before {x : Prog σ α} {k : α → Prog σ β} {P : List σ → Prop} {Q : List σ → β → Prop}
    (hx : Runs P (fun T _ => T = []) x) (hk : ∀ a, Runs P Q (k a)) : Runs P Q (x >>= k) := by
  refine hx.bind (fun T a _ hT => ?_)
  cases hT
  exact hk a

theorem Runs.pure {a : α} {P : List σ → Prop} {Q : List σ → α → Prop} (hp : P []) (h : Q [] a) : Runs P Q (Pure.pure a) := ⟨hp, h⟩

/-- The rule for runs on the file contents. -/
theorem Runs.runOn {a : Prog σ α} (f : Bytes) : ∀ {P : List σ → Prop} {Q : List σ → α → Prop} (p : Nat), Runs P Q a →
    P (a.runOn f p).2 ∧ ∀ r, (a.runOn f p).1 = .ok r → Q (a.runOn f p).2 r := by
  induction a with
  | ret a => intro P Q p h; exact ⟨h.1, fun r hr => by cases hr; exact h.2⟩
  | stop e => intro P Q p h; exact ⟨h, nofun⟩
  | exact n next ih =>
    intro P Q p h
    unfold Prog.runOn
    cases Rd.exact n f p with
    | error e => exact ⟨h.1, nofun⟩
    | ok x => exact ih _ _ (h.2 _)
  | move o next ih =>
    intro P Q p h
    unfold Prog.runOn
    cases Rd.move o f p with
    | error e => exact ⟨h.1, nofun⟩
    | ok x => exact ih _ h.2
  | store s next ih =>
    intro P Q p h
    exact ih p h.2

/-- The rule for runs on a stream. -/
theorem Runs.runBuf {a : Prog σ α} : ∀ {P : List σ → Prop} {Q : List σ → α → Prop} (b : BufReader), Runs P Q a →
    P (a.runBuf b).1.2 ∧ ∀ r, (a.runBuf b).1.1 = .ok r → Q (a.runBuf b).1.2 r := by
  induction a with
  | ret a => intro P Q b h; exact ⟨h.1, fun r hr => by cases hr; exact h.2⟩
  | stop e => intro P Q b h; exact ⟨h, nofun⟩
  | exact n next ih =>
    intro P Q b h
    unfold Prog.runBuf
    cases b.readExact n with
    | mk r b' =>
    cases r with
    | error e => exact ⟨h.1, nofun⟩
    | ok x => exact ih _ _ (h.2 _)
  | move o next ih =>
    intro P Q b h
    unfold Prog.runBuf
    cases b.seekRelative o with
    | mk r b' =>
    cases r with
    | some e => exact ⟨h.1, nofun⟩
    | none => exact ih _ h.2
  | store s next ih =>
    intro P Q b h
    exact ih b h.2

end Prog

/-! ## Assignments and slices -/

section
variable {α : Type}

/-- The slices with the given contents from where the block reader was to start. -/
abbrev put (ps : List (Progress α)) (outs : List (Nat × List α)) : List (Progress α) := storeOutputs outs 0 ps

/-- The assignments of a block reader to the slices `qs`; `ps` tells where it was to start. -/
def assigned (ps qs : List (Progress α)) (ss : List (CellStore α)) : List (Progress α) :=
  (ss.map (CellStore.inSlice ps)).foldl CellStore.applyTo qs

theorem assigned_append (ps qs : List (Progress α)) (a b : List (CellStore α)) :
    assigned ps qs (a ++ b) = assigned ps (assigned ps qs a) b := by
  unfold assigned
  rw [List.map_append, List.foldl_append]

theorem storeOutputs_at (outs : List (Nat × List α)) : ∀ (ps : List (Progress α)) (k i : Nat),
    (storeOutputs outs k ps)[i]? = ps[i]?.map (fun p => match outs.lookup (k + i) with
      | some tail => { p with output := p.output.take p.samplesRead ++ tail }
      | none => p) := by
  intro ps
  induction ps with
  | nil => intro k i; rfl
  | cons p ps ih =>
    intro k i
    cases i with
    | zero => rfl
    | succ i =>
      show (storeOutputs outs (k + 1) ps)[i]? = ps[i]?.map _
      rw [ih, show k + 1 + i = k + (i + 1) by omega]

theorem lookup_mid {A B : List (Nat × List α)} {slot : Nat} (x : List α) (h : slot ∉ A.map Prod.fst) :
    (A ++ (slot, x) :: B).lookup slot = some x := by
  induction A with
  | nil => exact List.lookup_cons_self
  | cons a A ih =>
    rw [List.map_cons, List.mem_cons, not_or] at h
    obtain ⟨k, y⟩ := a
    rw [List.cons_append, List.lookup_cons, beq_false_of_ne h.1]
    exact ih h.2

theorem lookup_other {A B : List (Nat × List α)} {slot i : Nat} (x y : List α) (h : i ≠ slot) :
    (A ++ (slot, x) :: B).lookup i = (A ++ (slot, y) :: B).lookup i := by
  induction A with
  | nil => rw [List.nil_append, List.nil_append, List.lookup_cons, List.lookup_cons, beq_false_of_ne h]
  | cons a A ih =>
    obtain ⟨k, z⟩ := a
    rw [List.cons_append, List.cons_append, List.lookup_cons, List.lookup_cons, ih]

/-- One assignment. -/
theorem put_store {ps : List (Progress α)} {A B : List (Nat × List α)} {slot : Nat} (h : slot ∉ A.map Prod.fst)
    (hps : ∀ p, ps[slot]? = some p → p.samplesRead ≤ p.output.length) (done rest : List α) (c v : α) :
    assigned ps (put ps (A ++ (slot, done ++ c :: rest) :: B)) [⟨slot, done.length, v⟩]
      = put ps (A ++ (slot, done ++ v :: rest) :: B) := by
  apply List.ext_getElem?
  intro i
  show ((put ps (A ++ (slot, done ++ c :: rest) :: B)).modify slot _)[i]? = _
  rw [List.getElem?_modify, storeOutputs_at, storeOutputs_at, Nat.zero_add]
  cases hi : ps[i]? with
  | none => rfl
  | some p =>
    rw [Option.map_some, Option.map_some]
    show some _ = some _
    dsimp only
    by_cases hs : slot = i
    · subst hs
      rw [if_pos rfl, lookup_mid _ h, lookup_mid _ h]
      congr 1
      show (⟨_, p.samplesRead⟩ : Progress α) = ⟨_, p.samplesRead⟩
      congr 1
      show (p.output.take p.samplesRead ++ (done ++ c :: rest)).set
        ((match ps[slot]? with | some p => p.samplesRead | none => 0) + done.length) v = _
      rw [hi]
      dsimp only
      have hl : (p.output.take p.samplesRead).length = p.samplesRead := by
        rw [List.length_take]
        have := hps p hi
        omega
      rw [List.set_append_right _ _ (by omega), hl, Nat.add_sub_cancel_left, List.set_append_right _ _ (Nat.le_refl _),
        Nat.sub_self]
      rfl
    · rw [if_neg hs, lookup_other _ (done ++ v :: rest) (fun h => hs h.symm)]

/-! ## Data blocks -/

namespace Prog
variable {S : Storage α} {rd : Act α} {ps : List (Progress α)}

/-- No condition on the assignments made so far. -/
abbrev any {σ : Type} : List σ → Prop := fun _ => True

/-- The contents of a slice. -/
abbrev cells (it : OutIter α) : List α := it.done ++ it.rest

/-- The slots are different, and the cells from which to fill these slices exist. -/
def Fit (ps : List (Progress α)) (keys : List Nat) : Prop :=
  keys.Nodup ∧ ∀ s ∈ keys, ∀ p, ps[s]? = some p → p.samplesRead ≤ p.output.length

theorem Fit.mid {A B : List Nat} {slot : Nat} (h : Fit ps (A ++ slot :: B)) :
    slot ∉ A ∧ ∀ p, ps[slot]? = some p → p.samplesRead ≤ p.output.length := by
  refine ⟨fun hm => ?_, h.2 slot (List.mem_append_right _ List.mem_cons_self)⟩
  have := h.1
  rw [List.nodup_append] at this
  exact this.2.2 slot hm slot List.mem_cons_self rfl

theorem values_put {A B : List (Nat × List α)} {slot : Nat} (h : slot ∉ A.map Prod.fst)
    (hps : ∀ p, ps[slot]? = some p → p.samplesRead ≤ p.output.length) (n : Nat) : ∀ (it : OutIter α),
    Runs any (fun T r => assigned ps (put ps (A ++ (slot, cells it) :: B)) T = put ps (A ++ (slot, cells r.2) :: B))
      (values rd slot n it) := by
  induction n with
  | zero => intro it; exact ⟨trivial, rfl⟩
  | succ n ih =>
    intro it
    obtain ⟨done, rest⟩ := it
    unfold values
    cases rest with
    | nil => exact ⟨trivial, rfl⟩
    | cons c rest =>
      dsimp only
      refine (Runs.ofAct rd trivial).before (fun v => ?_)
      refine Runs.bind (Q := fun T _ => T = [⟨slot, done.length, v⟩]) ⟨trivial, trivial, rfl⟩ ?_
      intro T _ _ hT
      subst hT
      refine Runs.bind (ih ⟨done ++ [v], rest⟩) ?_
      intro T r _ hT
      refine Runs.pure trivial ?_
      show assigned ps _ ([_] ++ (T ++ [])) = _
      rw [List.append_nil, assigned_append, put_store h hps done rest c v, ← hT]
      show assigned ps (put ps (A ++ (slot, done ++ v :: rest) :: B)) T
        = assigned ps (put ps (A ++ (slot, (done ++ [v]) ++ rest) :: B)) T
      rw [List.append_assoc, List.singleton_append]

theorem sequential_put {A B : List (Nat × List α)} {slot : Nat} (h : slot ∉ A.map Prod.fst)
    (hps : ∀ p, ps[slot]? = some p → p.samplesRead ≤ p.output.length) (n : Nat) (it : OutIter α) :
    Runs any (fun T r => assigned ps (put ps (A ++ (slot, cells it) :: B)) T = put ps (A ++ (slot, cells r.2) :: B))
      (sequential S rd slot it n) := by
  unfold sequential
  refine Runs.bind (values_put (B := B) h hps n it) ?_
  intro T r _ hT
  dsimp only
  split
  · refine (Runs.lift _ trivial).before (fun off => ?_)
    refine (Runs.skip _ trivial).before (fun _ => ?_)
    exact Runs.pure trivial (by rw [List.append_nil]; exact hT)
  · exact Runs.pure trivial (by rw [List.append_nil]; exact hT)

/-- The slots of a plan. -/
abbrev slots (plan : List (RecordEntry α)) : List Nat := (planOutputs plan).map Prod.fst

theorem planOutputs_read (len slot skip : Nat) (out : OutIter α) (rest : List (RecordEntry α)) :
    planOutputs (⟨len, .read slot out skip⟩ :: rest) = (slot, cells out) :: planOutputs rest := rfl

theorem planOutputs_skip (len b : Nat) (rest : List (RecordEntry α)) :
    planOutputs (⟨len, .skip b⟩ :: rest) = planOutputs rest := rfl

/-- What a reader does with a plan. -/
def Fills (ps : List (Progress α)) (A : List (Nat × List α)) (plan : List (RecordEntry α)) {γ : Type}
    (T : List (CellStore α)) (r : γ × List (RecordEntry α)) : Prop :=
  assigned ps (put ps (A ++ planOutputs plan)) T = put ps (A ++ planOutputs r.2) ∧ slots r.2 = slots plan

theorem subBlock_put (plan : List (RecordEntry α)) : ∀ (A : List (Nat × List α)) (length : Nat),
    Fit ps ((A ++ planOutputs plan).map Prod.fst) → Runs any (Fills ps A plan) (subBlock S rd length plan) := by
  induction plan with
  | nil => intro A length _; exact ⟨trivial, rfl, rfl⟩
  | cons entry rest ih =>
    intro A length hnd
    obtain ⟨len, plan⟩ := entry
    cases plan with
    | skip b =>
      unfold subBlock
      dsimp only
      refine (Runs.lift _ trivial).before (fun off => ?_)
      refine (Runs.skip _ trivial).before (fun _ => ?_)
      refine Runs.bind (ih A length hnd) ?_
      intro T r _ hT
      exact Runs.pure trivial (by rw [List.append_nil]; exact hT)
    | read slot out blockSkip =>
      rw [planOutputs_read] at hnd
      obtain ⟨hslot, hp⟩ := Fit.mid (A := A.map Prod.fst) (B := (planOutputs rest).map Prod.fst)
        (by rw [List.map_append] at hnd; exact hnd)
      have main : Runs any (Fills ps A (⟨len, .read slot out blockSkip⟩ :: rest)) (do
          let x ← sequential S rd slot out (len - min blockSkip len)
          let y ← subBlock S rd x.1 rest
          Pure.pure (y.1, (⟨len, .read slot x.2 blockSkip⟩ : RecordEntry α) :: y.2)) := by
        refine Runs.bind (sequential_put (B := planOutputs rest) hslot hp _ out) ?_
        intro T x _ hT
        have hnd' : Fit ps (((A ++ [(slot, cells x.2)]) ++ planOutputs rest).map Prod.fst) := by
          rw [List.append_assoc, List.map_append] at *
          exact hnd
        refine Runs.bind (ih (A ++ [(slot, cells x.2)]) x.1 hnd') ?_
        intro T' y _ hT'
        refine Runs.pure trivial ⟨?_, ?_⟩
        · rw [List.append_nil, assigned_append, planOutputs_read, planOutputs_read, hT]
          have := hT'.1
          rw [List.append_assoc, List.append_assoc] at this
          exact this
        · show slot :: slots y.2 = slot :: slots rest
          rw [hT'.2]
      unfold subBlock
      dsimp only
      split
      · refine (Runs.lift _ trivial).before (fun off => ?_)
        exact (Runs.skip _ trivial).before (fun _ => main)
      · exact main

theorem planOutputs_mapSkips (g : Nat → Nat) (plan : List (RecordEntry α)) : planOutputs (mapSkips g plan) = planOutputs plan := by
  induction plan with
  | nil => rfl
  | cons en rest ih =>
    obtain ⟨len, p⟩ := en
    cases p with
    | skip b => exact ih
    | read slot out s => exact congrArg ((slot, cells out) :: ·) ih

theorem planOutputs_setSkips (plan : List (RecordEntry α)) : ∀ ss, planOutputs (setSkips ss plan) = planOutputs plan := by
  induction plan with
  | nil => intro ss; cases ss <;> rfl
  | cons en rest ih =>
    intro ss
    obtain ⟨len, p⟩ := en
    cases ss with
    | nil => rfl
    | cons s ss =>
      cases p with
      | skip b => exact ih (s :: ss)
      | read slot out k => exact congrArg ((slot, cells out) :: ·) (ih ss)

/-- The goal for a whole block. -/
abbrev Filled (ps : List (Progress α)) (plan : List (RecordEntry α)) {γ : Type} (T : List (CellStore α))
    (r : γ × List (RecordEntry α)) : Prop := Fills ps [] plan T r

theorem Fills.trans {ps : List (Progress α)} {plan : List (RecordEntry α)} {γ γ' : Type} {T T' : List (CellStore α)}
    {r : γ × List (RecordEntry α)} {r' : γ' × List (RecordEntry α)} (h : Filled ps plan T r) (h' : Filled ps r.2 T' r') :
    Filled ps plan (T ++ T') r' := by
  refine ⟨?_, h'.2.trans h.2⟩
  rw [assigned_append, h.1]
  exact h'.1

theorem Filled.congr {ps : List (Progress α)} {plan plan' : List (RecordEntry α)} (h : planOutputs plan' = planOutputs plan)
    {γ : Type} {T : List (CellStore α)} {r : γ × List (RecordEntry α)} (hf : Filled ps plan' T r) : Filled ps plan T r := by
  unfold Filled Fills slots at hf ⊢
  rw [← h]
  exact hf

theorem contigLoop_put (bs toSkip remainder : Nat) : ∀ (remaining idx : Nat) (plan : List (RecordEntry α)) (length : Nat),
    Fit ps (slots plan) → Runs any (Filled ps plan) (contigLoop S rd bs toSkip remainder remaining idx plan length) := by
  intro remaining
  induction remaining with
  | zero => intro idx plan length _; exact ⟨trivial, rfl, rfl⟩
  | succ remaining ih =>
    intro idx plan length hnd
    have step : ∀ g : Nat → Nat, Runs any (Filled ps plan) (do
        let x ← subBlock S rd 0 (mapSkips g plan)
        contigLoop S rd bs toSkip remainder remaining (idx + 1) x.2 (length + x.1)) := by
      intro g
      refine Runs.bind (subBlock_put (mapSkips g plan) [] 0 (by rw [List.nil_append, planOutputs_mapSkips]; exact hnd)) ?_
      intro T x _ hT
      have hT := Filled.congr (planOutputs_mapSkips g plan) hT
      exact (ih (idx + 1) x.2 (length + x.1) (by rw [hT.2]; exact hnd)).mono (fun _ h => h) (fun T' r _ h => hT.trans h)
    unfold contigLoop
    split
    · exact (Runs.skip _ trivial).before (fun _ => ih _ _ _ hnd)
    · split
      · exact step _
      · exact step _

theorem contigReadFrom_put (size : Nat) (plan : List (RecordEntry α)) (startSample : Nat) (hnd : Fit ps (slots plan)) :
    Runs any (Filled ps plan) (contigReadFrom S rd size plan startSample) := by
  unfold contigReadFrom
  refine (Runs.lift _ trivial).before (fun bs => ?_)
  refine (Runs.lift _ trivial).before (fun total => ?_)
  refine (Runs.lift _ trivial).before (fun sub => ?_)
  refine (Runs.lift _ trivial).before (fun toSkip => ?_)
  exact contigLoop_put _ _ _ _ _ _ _ hnd

theorem contigSkipLoop_put (bs : Nat) (toSkip remainders : List Nat) : ∀ (remaining idx : Nat) (plan : List (RecordEntry α))
    (length : Nat), Fit ps (slots plan) →
    Runs any (Filled ps plan) (contigSkipLoop S rd bs toSkip remainders remaining idx plan length) := by
  intro remaining
  induction remaining with
  | zero => intro idx plan length _; exact ⟨trivial, rfl, rfl⟩
  | succ remaining ih =>
    intro idx plan length hnd
    unfold contigSkipLoop
    split
    · dsimp only
      generalize hss : List.map _ (List.zip toSkip remainders) = ss
      refine Runs.bind (subBlock_put (setSkips ss plan) [] 0 (by rw [List.nil_append, planOutputs_setSkips]; exact hnd)) ?_
      intro T x _ hT
      have hT := Filled.congr (planOutputs_setSkips plan ss) hT
      exact (ih (idx + 1) x.2 (length + x.1) (by rw [hT.2]; exact hnd)).mono (fun _ h => h) (fun T' r _ h => hT.trans h)
    · exact (Runs.skip _ trivial).before (fun _ => ih _ _ _ hnd)

theorem contigReadSkip_put (size : Nat) (plan : List (RecordEntry α)) (skips : List Nat) (hnd : Fit ps (slots plan)) :
    Runs any (Filled ps plan) (contigReadSkip S rd size plan skips) := by
  unfold contigReadSkip
  refine (Runs.lift _ trivial).before (fun bs => ?_)
  refine (Runs.lift _ trivial).before (fun total => ?_)
  refine (Runs.lift _ trivial).before (fun sub => ?_)
  refine (Runs.lift _ trivial).before (fun toSkip => ?_)
  exact contigSkipLoop_put _ _ _ _ _ _ _ hnd

theorem row_put (r : Nat) (plan : List (RecordEntry α)) : ∀ (A : List (Nat × List α)) (any' : Bool),
    Fit ps ((A ++ planOutputs plan).map Prod.fst) → Runs any (Fills ps A plan) (row rd r any' plan) := by
  induction plan with
  | nil => intro A any' _; exact ⟨trivial, rfl, rfl⟩
  | cons entry rest ih =>
    intro A any' hnd
    obtain ⟨len, plan⟩ := entry
    cases plan with
    | skip b =>
      unfold row
      dsimp only
      refine (Runs.skip _ trivial).before (fun _ => ?_)
      refine Runs.bind (ih A any' hnd) ?_
      intro T r _ hT
      exact Runs.pure trivial (by rw [List.append_nil]; exact hT)
    | read slot out blockSkip =>
      rw [planOutputs_read] at hnd
      obtain ⟨hslot, hp⟩ := Fit.mid (A := A.map Prod.fst) (B := (planOutputs rest).map Prod.fst)
        (by rw [List.map_append] at hnd; exact hnd)
      unfold row
      dsimp only
      refine (Runs.ofAct rd trivial).before (fun v => ?_)
      refine Runs.bind (Q := fun T (x : OutIter α × Bool) =>
        assigned ps (put ps (A ++ (slot, cells out) :: planOutputs rest)) T = put ps (A ++ (slot, cells x.1) :: planOutputs rest)) ?_ ?_
      · split
        · obtain ⟨done, cs⟩ := out
          cases cs with
          | nil => exact ⟨trivial, rfl⟩
          | cons c cs =>
            refine Runs.bind (Q := fun T _ => T = [⟨slot, done.length, v⟩]) ⟨trivial, trivial, rfl⟩ ?_
            intro T _ _ hT
            subst hT
            refine Runs.pure trivial ?_
            rw [List.append_nil]
            rw [put_store hslot hp done cs c v]
            show _ = put ps (A ++ (slot, (done ++ [v]) ++ cs) :: planOutputs rest)
            rw [List.append_assoc, List.singleton_append]
        · exact ⟨trivial, rfl⟩
      · intro T x _ hT
        have hnd' : Fit ps (((A ++ [(slot, cells x.1)]) ++ planOutputs rest).map Prod.fst) := by
          rw [List.append_assoc, List.map_append] at *
          exact hnd
        refine Runs.bind (ih (A ++ [(slot, cells x.1)]) x.2 hnd') ?_
        intro T' y _ hT'
        refine Runs.pure trivial ⟨?_, ?_⟩
        · rw [List.append_nil, assigned_append, planOutputs_read, planOutputs_read, hT]
          have := hT'.1
          rw [List.append_assoc, List.append_assoc] at this
          exact this
        · show slot :: slots y.2 = slot :: slots rest
          rw [hT'.2]

theorem interLoop_put : ∀ (remaining r : Nat) (plan : List (RecordEntry α)) (samples : Nat), Fit ps (slots plan) →
    Runs any (Filled ps plan) (interLoop rd remaining r plan samples) := by
  intro remaining
  induction remaining with
  | zero => intro r plan samples _; exact ⟨trivial, rfl, rfl⟩
  | succ remaining ih =>
    intro r plan samples hnd
    unfold interLoop
    refine Runs.bind (row_put r plan [] false hnd) ?_
    intro T x _ hT
    dsimp only
    split
    · exact (ih (r + 1) x.2 (samples + 1) (by rw [hT.2]; exact hnd)).mono (fun _ h => h) (fun T' r _ h => Fills.trans hT h)
    · exact Runs.pure trivial (by rw [List.append_nil]; exact hT)

theorem interRead_put (size : Nat) (plan : List (RecordEntry α)) (hnd : Fit ps (slots plan)) :
    Runs any (Filled ps plan) (interRead S rd size plan) := by
  unfold interRead
  refine (Runs.lift _ trivial).before (fun total => ?_)
  have main : Runs any (Filled ps plan)
      (interLoop rd (total - minOrZero (blockSkips plan)) 0 (mapSkips (fun s => s - minOrZero (blockSkips plan)) plan) 0) :=
    (interLoop_put _ _ _ _ (by unfold slots; rw [planOutputs_mapSkips]; exact hnd)).mono (fun _ h => h)
      (fun T r _ h => Filled.congr (planOutputs_mapSkips _ plan) h)
  dsimp only
  split
  · refine (Runs.lift _ trivial).before (fun off => ?_)
    exact (Runs.skip _ trivial).before (fun _ => main)
  · exact main

end Prog
end
end Tedium
