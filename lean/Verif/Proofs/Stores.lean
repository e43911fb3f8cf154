import Verif.Model.Stores
import Verif.Proofs.Handle
import Verif.Proofs.Mono

/-! # The programs with assignments are the programs of `Model/Act.lean` -/

namespace Tedium
namespace Prog
variable {σ α β : Type}

/-- Leave the assignments out. -/
def erase : Prog σ α → Act α
  | .ret a => .ret a
  | .stop e => .stop e
  | .exact n next => .exact n (fun bs => erase (next bs))
  | .move offset next => .move offset (erase next)
  | .store _ next => erase next

theorem erase_bind (x : Prog σ α) (k : α → Prog σ β) : (x >>= k).erase = x.erase >>= fun a => (k a).erase := by
  show (Prog.bind x k).erase = Act.bind x.erase (fun a => (k a).erase)
  induction x with
  | ret a => rfl
  | stop e => rfl
  | exact n next ih =>
    show Act.exact n (fun bs => ((next bs).bind k).erase) = Act.exact n _
    congr 1
    funext bs
    exact ih bs
  | move o next ih =>
    show Act.move o (next.bind k).erase = Act.move o _
    rw [ih]
  | store s next ih => exact ih

theorem erase_pure (a : α) : (pure a : Prog σ α).erase = pure a := rfl

theorem erase_ofAct (a : Act α) : (ofAct a : Prog σ α).erase = a := by
  induction a with
  | ret a => rfl
  | stop e => rfl
  | exact n next ih =>
    show Act.exact n (fun bs => (ofAct (next bs) : Prog σ α).erase) = _
    congr 1
    funext bs
    exact ih bs
  | move o next ih =>
    show Act.move o (ofAct next : Prog σ α).erase = _
    rw [ih]

theorem erase_skip (o : Int) : (skip o : Prog σ Unit).erase = Act.skip o := rfl
theorem erase_assign (s : σ) : (assign s).erase = (pure () : Act Unit) := rfl
theorem erase_lift (x : R α) : (lift x : Prog σ α).erase = Act.lift x := by cases x <;> rfl
theorem erase_ite (c : Prop) [Decidable c] (x y : Prog σ α) : (if c then x else y).erase = if c then x.erase else y.erase := by
  split <;> rfl

theorem act_pure_bind (a : α) (k : α → Act β) : ((pure a : Act α) >>= k) = k a := rfl

variable {S : Storage α} {rd : Act α}

theorem erase_values (slot n : Nat) (it : OutIter α) : (values rd slot n it).erase = Act.values rd n it := by
  induction n generalizing it with
  | zero => rfl
  | succ n ih =>
    unfold values Act.values
    cases it.rest with
    | nil => rfl
    | cons c rest => simp only [erase_bind, erase_pure, erase_ofAct, erase_assign, ih, act_pure_bind]

theorem erase_sequential (slot : Nat) (out : OutIter α) (n : Nat) :
    (sequential S rd slot out n).erase = Act.sequential S rd out n := by
  unfold sequential Act.sequential
  simp only [erase_bind, erase_pure, erase_values, erase_ite, erase_lift, erase_skip]

theorem erase_subBlock (plan : List (RecordEntry α)) (n : Nat) : (subBlock S rd n plan).erase = Act.subBlock S rd n plan := by
  induction plan generalizing n with
  | nil => rfl
  | cons entry rest ih =>
    unfold subBlock Act.subBlock
    cases entry.plan with
    | skip b => simp only [erase_bind, erase_pure, erase_lift, erase_skip, ih]
    | read slot out bs => simp only [erase_bind, erase_pure, erase_sequential, erase_ite, erase_lift, erase_skip, ih]

theorem erase_contigLoop (bs toSkip remainder remaining idx : Nat) (plan : List (RecordEntry α)) (length : Nat) :
    (contigLoop S rd bs toSkip remainder remaining idx plan length).erase
      = Act.contigLoop S rd bs toSkip remainder remaining idx plan length := by
  induction remaining generalizing idx plan length with
  | zero => rfl
  | succ r ih =>
    unfold contigLoop Act.contigLoop
    simp only [erase_ite, erase_bind, erase_skip, erase_subBlock, ih]

theorem erase_contigReadFrom (size : Nat) (plan : List (RecordEntry α)) (startSample : Nat) :
    (contigReadFrom S rd size plan startSample).erase = Act.contigReadFrom S rd size plan startSample := by
  unfold contigReadFrom Act.contigReadFrom
  simp only [erase_bind, erase_lift, erase_contigLoop]

theorem erase_contigSkipLoop (bs : Nat) (toSkip remainders : List Nat) (remaining idx : Nat)
    (plan : List (RecordEntry α)) (length : Nat) :
    (contigSkipLoop S rd bs toSkip remainders remaining idx plan length).erase
      = Act.contigSkipLoop S rd bs toSkip remainders remaining idx plan length := by
  induction remaining generalizing idx plan length with
  | zero => rfl
  | succ r ih =>
    unfold contigSkipLoop Act.contigSkipLoop
    simp only [erase_ite, erase_bind, erase_skip, erase_subBlock, ih]

theorem erase_contigReadSkip (size : Nat) (plan : List (RecordEntry α)) (skips : List Nat) :
    (contigReadSkip S rd size plan skips).erase = Act.contigReadSkip S rd size plan skips := by
  unfold contigReadSkip Act.contigReadSkip
  simp only [erase_bind, erase_lift, erase_contigSkipLoop]

theorem erase_row (r : Nat) (plan : List (RecordEntry α)) (any : Bool) : (row rd r any plan).erase = Act.row rd r any plan := by
  induction plan generalizing any with
  | nil => rfl
  | cons entry rest ih =>
    unfold row Act.row
    cases entry.plan with
    | skip b => simp only [erase_bind, erase_pure, erase_skip, ih]
    | read slot out bs =>
      simp only [erase_bind, erase_ofAct]
      congr 1
      funext v
      by_cases h : r ≥ bs
      · simp only [if_pos h]
        cases out.rest with
        | nil => simp only [ih]; rfl
        | cons c cells => simp only [erase_bind, erase_assign, erase_pure, act_pure_bind, ih]
      · simp only [if_neg h, ih]
        rfl

theorem erase_interLoop (remaining r : Nat) (plan : List (RecordEntry α)) (samples : Nat) :
    (interLoop rd remaining r plan samples).erase = Act.interLoop rd remaining r plan samples := by
  induction remaining generalizing r plan samples with
  | zero => rfl
  | succ k ih =>
    unfold interLoop Act.interLoop
    simp only [erase_ite, erase_bind, erase_row, erase_pure, ih]

theorem erase_interRead (size : Nat) (plan : List (RecordEntry α)) :
    (interRead S rd size plan).erase = Act.interRead S rd size plan := by
  unfold interRead Act.interRead
  simp only [erase_bind, erase_lift, erase_ite, erase_skip, erase_interLoop]

/-! ## Running -/

/-- On the file contents, the result is that of the program without assignments. -/
theorem runOn_result (f : Bytes) (a : Prog σ α) : ∀ p, (a.runOn f p).1 = (a.erase.denote f p).map Prod.fst := by
  induction a with
  | ret a => intro p; rfl
  | stop e => intro p; rfl
  | exact n next ih =>
    intro p
    unfold runOn
    show _ = (Rd.bind (Rd.exact n) _ f p).map _
    unfold Rd.bind
    cases hx : Rd.exact n f p with
    | error e => rfl
    | ok x => exact ih _ _
  | move o next ih =>
    intro p
    unfold runOn
    show _ = (Rd.bind (Rd.move o) _ f p).map _
    unfold Rd.bind
    cases hx : Rd.move o f p with
    | error e => rfl
    | ok x => exact ih _
  | store s next ih =>
    intro p
    unfold runOn
    exact ih p

/-- On a stream too. -/
theorem runBuf_result (a : Prog σ α) : ∀ b, ((a.runBuf b).1.1, (a.runBuf b).2) = b.run a.erase := by
  induction a with
  | ret a => intro b; rfl
  | stop e => intro b; rfl
  | exact n next ih =>
    intro b
    unfold runBuf
    show _ = BufReader.run (Act.exact n _) b
    unfold BufReader.run
    cases hx : b.readExact n with
    | mk r b' =>
    cases r with
    | error e => rfl
    | ok bs => exact ih bs b'
  | move o next ih =>
    intro b
    unfold runBuf
    show _ = BufReader.run (Act.move o _) b
    unfold BufReader.run
    cases hx : b.seekRelative o with
    | mk r b' =>
    cases r with
    | some k => rfl
    | none => exact ih b'
  | store s next ih =>
    intro b
    unfold runBuf
    exact ih b

/-- What ran into an end before what was expected: the result is an error, and the assignments made are the first ones
    of those expected. -/
def Short {σ α : Type} (got expected : R α × List σ) : Prop :=
  (∃ e, got.1 = .error e) ∧ got.2 <+: expected.2

/-- On a longer file a program does the same, or goes further. -/
theorem runOn_mono (f g : Bytes) (a : Prog σ α) : ∀ p,
    a.runOn f p = a.runOn (f ++ g) p ∨ Short (a.runOn f p) (a.runOn (f ++ g) p) := by
  induction a with
  | ret a => intro p; exact Or.inl rfl
  | stop e => intro p; exact Or.inl rfl
  | exact n next ih =>
    intro p
    unfold runOn
    cases hx : Rd.exact n f p with
    | error e => exact Or.inr ⟨⟨e, rfl⟩, List.nil_prefix⟩
    | ok x =>
      rw [Rd.Mono.exact n f g p x.1 x.2 hx]
      exact ih x.1 x.2
  | move o next ih =>
    intro p
    unfold runOn
    have : Rd.move o (f ++ g) p = Rd.move o f p := rfl
    rw [this]
    cases hx : Rd.move o f p with
    | error e => exact Or.inl rfl
    | ok x => exact ih _
  | store s next ih =>
    intro p
    unfold runOn
    rcases ih p with h | ⟨h1, h2⟩
    · rw [h]; exact Or.inl rfl
    · exact Or.inr ⟨h1, List.cons_prefix_cons.mpr ⟨rfl, h2⟩⟩

/-- What a program did on a stream: the expected, or less because an operation of the stream failed. -/
def TellsShort {σ α : Type} (used : List ReadOutcome) (got expected : R α × List σ) : Prop :=
  (NoFailure used ∧ got = expected) ∨
    ∃ kind, Failed used kind ∧ got.1 = R.err (.ioError kind) ∧ got.2 <+: expected.2

theorem TellsShort.after {σ α : Type} {used more : List ReadOutcome} {r x : R α × List σ} (h : TellsShort used r x)
    (hm : NoFailure more) : TellsShort (more ++ used) r x := by
  rcases h with ⟨hn, h⟩ | ⟨c, hc, h⟩
  · exact Or.inl ⟨hm.append hn, h⟩
  · exact Or.inr ⟨c, hc.after hm, h⟩

/-- Running a program over the buffered reader does what it does on the file contents, or less if an operation of the
    stream failed. -/
theorem runBuf_spec {f : Bytes} (hf64 : f.length < 2 ^ 64) : ∀ (a : Prog σ α) (p : Nat) (b : BufReader),
    Stands f p b → p < 2 ^ 64 →
    ∃ used, b.dev.script = used ++ (runBuf a b).2.dev.script ∧ (runBuf a b).2.dev.bytes = f ∧
      TellsShort used (runBuf a b).1 (runOn f a p) := by
  intro a
  induction a with
  | ret a => intro p b h _; exact ⟨[], rfl, h.bytes, Or.inl ⟨.nil, rfl⟩⟩
  | stop e => intro p b h _; exact ⟨[], rfl, h.bytes, Or.inl ⟨.nil, rfl⟩⟩
  | exact n next ih =>
    intro p b h hp
    obtain ⟨used, h1, h2, h3, h4⟩ := BufReader.readExact_spec h n
    unfold runBuf runOn
    cases hr : b.readExact n with
    | mk r b' =>
    rw [hr] at h1 h2 h3 h4
    cases r with
    | error e =>
      refine ⟨used, h1, h2, ?_⟩
      rcases h3 with ⟨hn, h3⟩ | ⟨c, hc, h3⟩
      · refine Or.inl ⟨hn, ?_⟩
        cases hx : Rd.exact n f p with
        | error e' => rw [hx] at h3; cases h3; rfl
        | ok x => rw [hx] at h3; cases h3
      · exact Or.inr ⟨c, hc, by cases h3; rfl, List.nil_prefix⟩
    | ok bs =>
      obtain ⟨hx, hat⟩ := h4 bs rfl
      have hp' : p + n < 2 ^ 64 := by
        unfold Rd.exact at hx
        split at hx
        · omega
        · cases hx
      obtain ⟨used', i1, i2, i3⟩ := ih bs (p + n) b' hat hp'
      refine ⟨used ++ used', by rw [List.append_assoc, ← i1]; exact h1, i2, ?_⟩
      rw [hx]
      exact i3.after h3.ok.1
  | move o next ih =>
    intro p b h hp
    obtain ⟨used, h1, h2, h3, h4⟩ := BufReader.seekRelative_spec h hp hf64 o
    unfold runBuf runOn
    cases hr : b.seekRelative o with
    | mk r b' =>
    rw [hr] at h1 h2 h3 h4
    cases r with
    | some kind =>
      refine ⟨used, h1, h2, ?_⟩
      rcases h3 with ⟨hn, h3⟩ | ⟨c, hc, h3⟩
      · refine Or.inl ⟨hn, ?_⟩
        cases hx : Rd.move o f p with
        | error e' => rw [hx] at h3; cases h3; rfl
        | ok x => rw [hx] at h3; cases h3
      · exact Or.inr ⟨c, hc, by cases h3; rfl, List.nil_prefix⟩
    | none =>
      obtain ⟨q, hx, hq, hat⟩ := h4 rfl
      obtain ⟨used', i1, i2, i3⟩ := ih q b' hat hq
      refine ⟨used ++ used', by rw [List.append_assoc, ← i1]; exact h1, i2, ?_⟩
      rw [hx]
      exact i3.after (show Tells used (.ok ()) _ from h3).ok.1
  | store s next ih =>
    intro p b h hp
    obtain ⟨used, h1, h2, h3⟩ := ih p b h hp
    refine ⟨used, h1, h2, ?_⟩
    unfold runBuf runOn
    rcases h3 with ⟨hn, h3⟩ | ⟨c, hc, h4, h5⟩
    · rw [← h3]; exact Or.inl ⟨hn, rfl⟩
    · exact Or.inr ⟨c, hc, h4, List.cons_prefix_cons.mpr ⟨rfl, h5⟩⟩

end Prog
end Tedium
