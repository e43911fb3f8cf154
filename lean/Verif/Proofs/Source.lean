import Verif.Model.Source
import Verif.Proofs.StoresFile
import Verif.Proofs.NoPanic
import Verif.Proofs.Totals

/-! # Reading from a stream of which nothing is known -/

namespace Tedium
open PlanSpec

/-- `x` returns a value with `Q`, or fails with `E`. -/
def R.SatE {α : Type} (E : Fail → Prop) (x : R α) (Q : α → Prop) : Prop := (∃ a, x = .ok a ∧ Q a) ∨ ∃ e, x = .error e ∧ E e

/-- the same for programs, whatever is read -/
def Prog.Sat {τ α : Type} (E : Fail → Prop) (Q : α → Prop) : Prog τ α → Prop
  | .ret a => Q a
  | .stop e => E e
  | .exact n next => ∀ bs, bs.length = n → Sat E Q (next bs)
  | .move _ next => Sat E Q next
  | .store _ next => Sat E Q next

/-- the same for programs that do not assign -/
def Act.Sat {α : Type} (E : Fail → Prop) (Q : α → Prop) : Act α → Prop
  | .ret a => Q a
  | .stop e => E e
  | .exact n next => ∀ bs, bs.length = n → Sat E Q (next bs)
  | .move _ next => Sat E Q next

section
variable {E : Fail → Prop}

theorem R.SatE.of {α : Type} {x : R α} {Q : α → Prop} (hE : ∀ e, E (.err e)) (h : R.Sat x Q) : R.SatE E x Q := by
  rcases h with ⟨a, rfl, ha⟩ | ⟨e, rfl⟩
  · exact Or.inl ⟨a, rfl, ha⟩
  · exact Or.inr ⟨_, rfl, hE e⟩

theorem R.SatE.bind {α β : Type} {x : R α} {k : α → R β} {P : α → Prop} {Q : β → Prop} (hx : R.SatE E x P)
    (hk : ∀ a, P a → R.SatE E (k a) Q) : R.SatE E (x >>= k) Q := by
  rcases hx with ⟨a, rfl, ha⟩ | ⟨e, rfl, he⟩
  · exact hk a ha
  · exact Or.inr ⟨e, rfl, he⟩

namespace Act.Sat
variable {α β : Type}

theorem bind {P : α → Prop} {Q : β → Prop} {x : Act α} {k : α → Act β} (hx : x.Sat E P) (hk : ∀ a, P a → (k a).Sat E Q) :
    Act.Sat E Q (x >>= k) := by
  show Act.Sat E Q (Act.bind x k)
  induction x with
  | ret a => exact hk a hx
  | stop e => exact hx
  | exact n next ih => exact fun bs h => ih bs (hx bs h)
  | move o next ih => exact ih hx

theorem take (n : Nat) : Act.Sat E (fun bs => bs.length = n) (Act.take n) := fun _ h => h
theorem pure {a : α} {Q : α → Prop} (h : Q a) : Act.Sat E Q (Pure.pure a : Act α) := h
theorem fail (hE : ∀ e, E (.err e)) {e : TdmsError} {Q : α → Prop} : Act.Sat E Q (Act.fail e : Act α) := hE e
theorem ite {c : Prop} [Decidable c] {x y : Act α} {Q : α → Prop} (hx : c → x.Sat E Q) (hy : ¬ c → y.Sat E Q) :
    Act.Sat E Q (if c then x else y) := by
  split
  · rename_i h; exact hx h
  · rename_i h; exact hy h
theorem uint (e : Endian) (w : Nat) : Act.Sat E (fun _ => True) (Act.uint e w) := (take w).bind (fun _ _ => trivial)
theorem many {x : Act α} {Q : α → Prop} (h : x.Sat E Q) : ∀ n, Act.Sat E (fun l => ∀ a ∈ l, Q a) (Act.many x n) := by
  intro n
  induction n with
  | zero => exact fun a ha => absurd ha List.not_mem_nil
  | succ n ih =>
    refine h.bind (fun a ha => ih.bind (fun l hl => ?_))
    intro b hb
    rcases List.mem_cons.mp hb with rfl | hb
    · exact ha
    · exact hl b hb

theorem stringWithLength (hE : ∀ e, E (.err e)) (al : Alloc) (n : Nat) : Act.Sat E (fun _ => True) (Act.stringWithLength al n) := by
  unfold Act.stringWithLength
  refine ite (fun _ => (take n).bind (fun b _ => ?_)) (fun _ => fail hE)
  cases utf8Dec b with
  | none => exact fail hE
  | some t => trivial

theorem string (hE : ∀ e, E (.err e)) (al : Alloc) (e : Endian) : Act.Sat E (fun _ => True) (Act.string al e) :=
  (uint e 4).bind (fun _ _ => stringWithLength hE al _)

theorem value (hE : ∀ e, E (.err e)) (al : Alloc) (t : STy) (e : Endian) : Act.Sat E (fun _ => True) (Act.value al t e) := by
  have hnum : ∀ w, Act.Sat E (fun _ => True) (Act.numeric w e) := fun w => (take w).bind (fun _ _ => trivial)
  cases t <;> first
    | exact hnum _
    | exact (hnum _).bind (fun _ _ => (hnum _).bind (fun _ _ => trivial))
    | exact (take _).bind (fun _ _ => trivial)
    | exact string hE al e
    | skip
  refine (take 10).bind (fun b _ => ?_)
  cases e <;> trivial

theorem dataType (hE : ∀ e, E (.err e)) (e : Endian) : Act.Sat E (fun _ => True) (Act.dataType e) := by
  unfold Act.dataType
  refine (uint e 4).bind (fun c _ => ?_)
  cases DataType.ofCode? c with
  | none => exact fail hE
  | some t => trivial

theorem property (hE : ∀ e, E (.err e)) (al : Alloc) (e : Endian) : Act.Sat E (fun _ => True) (Act.property al e) := by
  unfold Act.property
  refine (dataType hE e).bind (fun t _ => ?_)
  cases t <;> first
    | trivial
    | exact fail hE
    | exact (value hE al _ e).bind (fun _ _ => trivial)

theorem rawDataIndex (hE : ∀ e, E (.err e)) (e : Endian) :
    Act.Sat E (fun i => ∀ m, i = .rawData m → m.totalSizeBytes = none) (Act.rawDataIndex e) := by
  unfold Act.rawDataIndex
  refine (uint e 4).bind (fun c _ => ?_)
  refine ite (fun _ => fun m h => by cases h) (fun _ => ite (fun _ => fun m h => by cases h) (fun _ => ite (fun _ => fail hE) (fun _ => ite (fun _ => fail hE)
    (fun _ => ?_))))
  exact (dataType hE e).bind (fun _ _ => (uint e 4).bind (fun _ _ => (uint e 8).bind (fun _ _ => fun m h => by cases h; rfl)))

theorem object (hE : ∀ e, E (.err e)) (al : Alloc) (e : Endian) :
    Act.Sat E (fun o => ∀ m, o.rawDataIndex = .rawData m → m.totalSizeBytes = none) (Act.object al e) := by
  unfold Act.object
  refine (string hE al e).bind (fun _ _ => (rawDataIndex hE e).bind (fun i hi => (uint e 4).bind (fun n _ => ?_)))
  refine ite (fun _ => (many (Q := fun _ => True) ?_ n).bind (fun _ _ => hi)) (fun _ => fail hE)
  exact (string hE al e).bind (fun _ _ => (property hE al e).bind (fun _ _ => trivial))

theorem segment (hE : ∀ e, E (.err e)) (al : Alloc) (e : Endian) (toc : ToC) :
    Act.Sat E PlainSegment (Act.segment al e toc) := by
  unfold Act.segment
  refine (uint e 4).bind (fun _ _ => (uint e 8).bind (fun _ _ => (uint e 8).bind (fun _ _ => ?_)))
  refine Act.Sat.bind (P := fun md => PlainObjects md.objects) ?_ (fun md hmd md' h => by cases h; exact hmd)
  unfold Act.metaData
  refine (uint e 4).bind (fun n _ => ?_)
  exact ite (fun _ => (many (object hE al e) n).bind (fun _ h => h)) (fun _ => fail hE)

end Act.Sat

namespace Prog.Sat
variable {τ α β : Type}

theorem bind {P : α → Prop} {Q : β → Prop} {x : Prog τ α} {k : α → Prog τ β} (hx : x.Sat E P)
    (hk : ∀ a, P a → (k a).Sat E Q) : Prog.Sat E Q (x >>= k) := by
  show Prog.Sat E Q (Prog.bind x k)
  induction x with
  | ret a => exact hk a hx
  | stop e => exact hx
  | exact n next ih => exact fun bs h => ih bs (hx bs h)
  | move o next ih => exact ih hx
  | store s next ih => exact ih hx

theorem pure {a : α} {Q : α → Prop} (h : Q a) : Prog.Sat E Q (Pure.pure a : Prog τ α) := h
theorem ofAct {Q : α → Prop} {x : Act α} (h : x.Sat E Q) : Prog.Sat E Q (Prog.ofAct x : Prog τ α) := by
  induction x with
  | ret a => exact h
  | stop e => exact h
  | exact n next ih => exact fun bs hb => ih bs (h bs hb)
  | move o next ih => exact ih h
theorem skip (o : Int) : Prog.Sat E (fun _ => True) (Prog.skip o : Prog τ Unit) := trivial
theorem assign (s : τ) : Prog.Sat E (fun _ => True) (Prog.assign s : Prog τ Unit) := trivial
theorem lift {x : R α} {Q : α → Prop} (h : R.SatE E x Q) : Prog.Sat E Q (Prog.lift x : Prog τ α) := by
  rcases h with ⟨a, rfl, ha⟩ | ⟨e, rfl, he⟩
  · exact ha
  · exact he
theorem ite {c : Prop} [Decidable c] {x y : Prog τ α} {Q : α → Prop} (hx : c → x.Sat E Q) (hy : ¬ c → y.Sat E Q) :
    Prog.Sat E Q (if c then x else y) := by
  split
  · rename_i h; exact hx h
  · rename_i h; exact hy h

end Prog.Sat
end

/-! ## The reader -/

namespace AnyReader
variable {σ : Type} {F : Source σ}

theorem read_length (b : AnyReader σ) (n : Nat) : ∀ bs : Bytes, (b.read F n).1 = .ok bs → bs.length ≤ n := by
  intro bs h
  unfold AnyReader.read at h
  split at h
  · split at h
    · cases hr : F.read b.str n with
      | mk r s =>
      rw [hr] at h
      cases r with
      | error k => cases h
      | ok x => cases h; exact List.length_take_le _ _
    · cases hr : F.read b.str b.capacity with
      | mk r s =>
      rw [hr] at h
      cases r with
      | error k => cases h
      | ok x => cases h; exact List.length_take_le _ _
  · cases h; exact List.length_take_le _ _

theorem readExactLoop_sat : ∀ (fuel n : Nat) (acc : Bytes) (b : AnyReader σ), n < fuel →
    R.Sat (b.readExactLoop F fuel n acc).1 (fun bs => bs.length = acc.length + n) := by
  intro fuel
  induction fuel with
  | zero => intro n acc b h; omega
  | succ fuel ih =>
    intro n acc b h
    unfold readExactLoop
    by_cases hn : n = 0
    · rw [if_pos hn]; exact Or.inl ⟨acc, rfl, by omega⟩
    · rw [if_neg hn]
      have hlen := read_length (F := F) b n
      cases hr : b.read F n with
      | mk r b' =>
      rw [hr] at hlen
      cases r with
      | error k => exact Or.inr ⟨_, rfl⟩
      | ok bs =>
        dsimp only
        by_cases hb : bs = []
        · rw [if_pos hb]; exact Or.inr ⟨_, rfl⟩
        · rw [if_neg hb]
          have h1 := hlen bs rfl
          have h2 := List.length_pos_iff.mpr hb
          rcases ih (n - bs.length) (acc ++ bs) b' (by omega) with ⟨a, ha, hq⟩ | he
          · exact Or.inl ⟨a, ha, by rw [List.length_append] at hq; omega⟩
          · exact Or.inr he

theorem readExact_sat (b : AnyReader σ) (n : Nat) : R.Sat (b.readExact F n).1 (fun bs => bs.length = n) := by
  unfold readExact
  split
  · rename_i h
    exact Or.inl ⟨_, rfl, by simp only [List.length_take, List.length_drop]; omega⟩
  · rcases readExactLoop_sat (F := F) (n + 1) n [] b (by omega) with ⟨a, ha, hq⟩ | he
    · exact Or.inl ⟨a, ha, by simpa using hq⟩
    · exact Or.inr he

theorem run_sat {E : Fail → Prop} (hE : ∀ e, E (.err e)) {α : Type} {Q : α → Prop} {x : Act α} (h : x.Sat E Q) :
    ∀ b : AnyReader σ, R.SatE E (b.run F x).1 Q := by
  induction x with
  | ret a => intro b; exact Or.inl ⟨a, rfl, h⟩
  | stop e => intro b; exact Or.inr ⟨e, rfl, h⟩
  | exact n next ih =>
    intro b
    unfold run
    have hx := readExact_sat (F := F) b n
    cases hr : b.readExact F n with
    | mk r b' =>
    rw [hr] at hx
    rcases hx with ⟨a, ha, hq⟩ | ⟨e, he⟩
    · dsimp only at ha; subst ha; exact ih a (h a hq) b'
    · dsimp only at he; subst he; exact Or.inr ⟨_, rfl, hE e⟩
  | move o next ih =>
    intro b
    unfold run
    cases b.seekRelative F o with
    | mk r b' =>
    cases r with
    | some k => exact Or.inr ⟨_, rfl, hE _⟩
    | none => exact ih h b'

theorem runProg_sat {E : Fail → Prop} (hE : ∀ e, E (.err e)) {τ α : Type} {Q : α → Prop} {x : Prog τ α} (h : x.Sat E Q) :
    ∀ b : AnyReader σ, R.SatE E (b.runProg F x).1.1 Q := by
  induction x with
  | ret a => intro b; exact Or.inl ⟨a, rfl, h⟩
  | stop e => intro b; exact Or.inr ⟨e, rfl, h⟩
  | exact n next ih =>
    intro b
    unfold runProg
    have hx := readExact_sat (F := F) b n
    cases hr : b.readExact F n with
    | mk r b' =>
    rw [hr] at hx
    rcases hx with ⟨a, ha, hq⟩ | ⟨e, he⟩
    · dsimp only at ha; subst ha; exact ih a (h a hq) b'
    · dsimp only at he; subst he; exact Or.inr ⟨_, rfl, hE e⟩
  | move o next ih =>
    intro b
    unfold runProg
    cases b.seekRelative F o with
    | mk r b' =>
    cases r with
    | some k => exact Or.inr ⟨_, rfl, hE _⟩
    | none => exact ih h b'
  | store s next ih => intro b; exact ih h b

end AnyReader

/-- A way of running programs in which only the programs and the stream can fail, with `E`. -/
def Runner.Keeps {δ α : Type} (E : Fail → Prop) (rn : Runner δ α) : Prop := ∀ start a d Q, Prog.Sat E Q a →
  R.SatE E (rn start a d).1.1 Q

theorem Source.runner_keeps {σ : Type} {F : Source σ} {E : Fail → Prop} (hE : ∀ e, E (.err e)) {α : Type} (capacity : Nat) :
    Runner.Keeps E (F.runner capacity : Runner σ α) := by
  intro start a s Q h
  unfold Source.runner
  cases (AnyReader.new capacity s).seekStart F start with
  | mk r b =>
  cases r with
  | some k => exact Or.inr ⟨_, rfl, hE _⟩
  | none => exact AnyReader.runProg_sat hE h b

/-! ## The cells of one slice -/

namespace Prog
variable {σ : Type} (F : Source σ)

theorem Quiet.storesAny {τ β : Type} {Q : β → Prop} {x : Prog τ β} : ∀ b : AnyReader σ, Quiet Q x →
    (b.runProg F x).1.2 = [] ∧ ∀ a, (b.runProg F x).1.1 = .ok a → Q a := by
  induction x with
  | ret a => intro p h; exact ⟨rfl, fun b hb => by cases hb; exact h⟩
  | stop e => intro p h; exact ⟨rfl, nofun⟩
  | exact n next ih =>
    intro b h
    unfold AnyReader.runProg
    cases b.readExact F n with
    | mk r b' =>
    cases r with
    | error e => exact ⟨rfl, nofun⟩
    | ok r => exact ih _ _ (h _)
  | move o next ih =>
    intro b h
    unfold AnyReader.runProg
    cases b.seekRelative F o with
    | mk r b' =>
    cases r with
    | some e => exact ⟨rfl, nofun⟩
    | none => exact ih _ h
  | store s next ih => intro p h; exact h.elim

/-- The programs on any stream. -/
theorem Cut.runsAny {α β : Type} {slot : Nat} {Q : Nat → Nat → β → β → Prop} (hQ : Tame Q) {k c : Nat}
    {x y : Prog (CellStore α) β} (h : Cut slot Q k c x y) :
    ∀ b : AnyReader σ, Alike slot Q k c (b.runProg F x) (b.runProg F y) := by
  induction h with
  | ret h => intro b; exact .ret hQ h b
  | stop e => intro b; exact .error e b
  | exact n _ ih =>
    intro b
    unfold AnyReader.runProg
    cases b.readExact F n with
    | mk r b' =>
    cases r with
    | error e => exact .error e b'
    | ok r => exact ih _ _
  | move o _ ih =>
    intro b
    unfold AnyReader.runProg
    cases b.seekRelative F o with
    | mk r b' =>
    cases r with
    | some e => exact .error _ b'
    | none => exact ih _
  | store v _ ih => intro b; exact (ih b).store v
  | full h =>
    intro b
    obtain ⟨h1, h2⟩ := h.storesAny F b
    exact ⟨[], Nat.zero_le _, h1, h1, fun hlt => absurd hlt (Nat.lt_irrefl _), fun _ => h2⟩

end Prog

theorem Source.runner_fair {σ : Type} (F : Source σ) {α : Type} (capacity : Nat) :
    Runner.Fair (F.runner capacity : Runner σ α) := by
  intro slot Q k c x y hQ h start s
  unfold Source.runner
  cases (AnyReader.new capacity s).seekStart F start with
  | mk r b =>
  cases r with
  | some kind => exact .error _ _
  | none =>
    obtain ⟨vs, h1, h2, h3, h4, h5⟩ := h.runsAny F hQ b
    exact ⟨vs, h1, h2, h3, fun hlt => ⟨congrArg AnyReader.str (h4 hlt).1, (h4 hlt).2⟩, h5⟩

/-! ## What can go wrong in a block -/

section
variable {E : Fail → Prop} {α : Type} {S : Storage α} {rd : Act α}

/-- Overflow is one of the ways to fail, or the channels of the block are small. -/
def Ov (E : Fail → Prop) (p : Prop) : Prop := E (.panic .overflow) ∨ p

/-- Division by zero is one of the ways to fail, or this is not zero. -/
def Dz (E : Fail → Prop) (p : Prop) : Prop := E (.panic .divByZero) ∨ p

theorem Ov.imp {p q : Prop} (h : Ov E p) (f : p → q) : Ov E q := Or.imp id f h
theorem Dz.imp {p q : Prop} (h : Dz E p) (f : p → q) : Dz E q := Or.imp id f h

theorem mulI64_satE {a b : Int} (h : Ov E (R.Sat (mulI64 a b) (fun _ => True))) (hE : ∀ e, E (.err e)) :
    R.SatE E (mulI64 a b) (fun _ => True) := by
  rcases h with h | h
  · unfold mulI64
    split
    · exact Or.inl ⟨_, rfl, trivial⟩
    · exact Or.inr ⟨_, rfl, h⟩
  · exact .of hE h

theorem divR_satE {a c : Nat} (h : Dz E (0 < c)) (hE : ∀ e, E (.err e)) : R.SatE E (divR a c) (fun _ => True) := by
  rcases h with h | h
  · unfold divR
    split
    · exact Or.inr ⟨_, rfl, h⟩
    · exact Or.inl ⟨_, rfl, trivial⟩
  · exact .of hE (divR_sat h)

theorem divAll_satE {c : Nat} (h : Dz E (0 < c)) (hE : ∀ e, E (.err e)) : ∀ ks, R.SatE E (divAll c ks) (fun _ => True) := by
  intro ks
  induction ks with
  | nil => exact Or.inl ⟨_, rfl, trivial⟩
  | cons k ks ih =>
    unfold divAll
    exact (divR_satE h hE).bind (fun _ _ => ih.bind (fun _ _ => Or.inl ⟨_, rfl, trivial⟩))

theorem blockSize_satE (hpos : 0 < S.memSize) (hmem : S.memSize ≤ 24) {ms : List RawDataMeta}
    {plan : List (RecordEntry α)} (h : PlanFor ms plan) (hov : Ov E (SmallChannels ms)) (hp : Dz E (Positive S plan)) :
    R.SatE E (blockSize S plan) (fun bs => Dz E (0 < bs)) := by
  unfold blockSize
  dsimp only
  split
  · exact Or.inl ⟨_, rfl, hp.imp And.left⟩
  · rename_i hlt
    rcases hov with hov | hsm
    · exact Or.inr ⟨_, rfl, hov⟩
    · obtain ⟨h1, _, _⟩ := PlanFor.sizes hpos hmem h
      unfold SmallChannels at hsm
      exact absurd (show _ < u64Lim by unfold u64Lim; omega) hlt

theorem firstLength_satE {ms : List RawDataMeta} (hne : ms ≠ [])
    (hd : Dz E (∃ m0, ms.head? = some m0 ∧ 0 < m0.numberOfValues)) {plan : List (RecordEntry α)} (h : PlanFor ms plan) :
    R.SatE E (firstLength plan) (fun n => Dz E (0 < n)) := by
  cases ms with
  | nil => exact absurd rfl hne
  | cons m ms =>
    cases plan with
    | nil => exact h.elim
    | cons x xs =>
      refine Or.inl ⟨_, rfl, hd.imp ?_⟩
      rintro ⟨m0, h0, hm⟩
      cases h0
      rw [h.1]
      exact hm

namespace Prog

theorem values_sat (hrd : rd.Sat E (fun _ => True)) (slot : Nat) : ∀ (n : Nat) (it : OutIter α),
    Prog.Sat E (fun r => r.1 ≤ n) (values rd slot n it) := by
  intro n
  induction n with
  | zero => intro it; exact Nat.le_refl _
  | succ n ih =>
    intro it
    unfold values
    split
    · exact Nat.zero_le _
    · refine (Sat.ofAct hrd).bind (fun v _ => (Sat.assign _).bind (fun _ _ => (ih _).bind (fun r hr => ?_)))
      show r.1 + 1 ≤ n + 1
      omega

theorem sequential_sat (hE : ∀ e, E (.err e)) (hrd : rd.Sat E (fun _ => True)) (hmem : S.memSize ≤ 24) (slot : Nat)
    (out : OutIter α) (n : Nat) (hn : Ov E (24 * n < 2 ^ 63)) :
    Prog.Sat E (fun _ => True) (sequential S rd slot out n) := by
  unfold sequential
  refine (values_sat hrd slot n out).bind (fun r _ => ?_)
  obtain ⟨length, out⟩ := r
  dsimp only
  refine Sat.ite (fun _ => ?_) (fun _ => trivial)
  refine (Sat.lift (mulI64_satE (hn.imp fun hn => mulI64_sat ?_ (by omega) (by omega)) hE)).bind (fun _ _ => trivial)
  calc (n - length) * S.memSize ≤ n * 24 := Nat.mul_le_mul (by omega) hmem
    _ < 2 ^ 63 := by omega

theorem subBlock_sat (hE : ∀ e, E (.err e)) (hrd : rd.Sat E (fun _ => True)) (hmem : S.memSize ≤ 24) :
    ∀ (ms : List RawDataMeta) (plan : List (RecordEntry α)) (length : Nat), PlanFor ms plan → Ov E (SmallChannels ms) →
    Prog.Sat E (fun r => PlanFor ms r.2) (subBlock S rd length plan) := by
  intro ms
  induction ms with
  | nil =>
    intro plan length h _
    cases plan with
    | nil => trivial
    | cons _ _ => exact h.elim
  | cons m ms ih =>
    intro plan length h hsm
    cases plan with
    | nil => exact h.elim
    | cons x xs =>
      have hsm0 : Ov E (24 * m.numberOfValues < 2 ^ 63) := hsm.imp fun hsm => by
        unfold SmallChannels at hsm
        rw [List.map_cons, List.sum_cons] at hsm
        omega
      have hsm' : Ov E (SmallChannels ms) := hsm.imp fun hsm => by
        unfold SmallChannels at hsm ⊢
        rw [List.map_cons, List.sum_cons] at hsm
        omega
      obtain ⟨len, pl⟩ := x
      have hlen : len = m.numberOfValues := h.1
      unfold subBlock
      cases pl with
      | read slot out k =>
        dsimp only
        have hrest : Prog.Sat E (fun r => PlanFor (m :: ms) r.2) (sequential S rd slot out (len - min k len) >>= fun x =>
            subBlock S rd x.1 xs >>= fun y =>
              (Pure.pure (y.1, { length := len, plan := EntryPlan.read slot x.2 k } :: y.2) : Prog (CellStore α) _)) :=
          (sequential_sat hE hrd hmem slot out _ (hsm0.imp fun _ => by omega)).bind (fun x _ =>
            (ih xs x.1 h.2.2 hsm').bind (fun y hy => ⟨hlen, (fun b hb => by cases hb), hy⟩))
        refine Sat.ite (fun _ => ?_) (fun _ => hrest)
        refine (Sat.lift (mulI64_satE (hsm0.imp fun hs => mulI64_sat ?_ (by omega) (by omega)) hE)).bind (fun _ _ =>
          (Sat.skip _).bind (fun _ _ => hrest))
        calc min k len * S.memSize ≤ len * 24 := Nat.mul_le_mul (by omega) hmem
          _ < 2 ^ 63 := by omega
      | skip b =>
        dsimp only
        have hb : b = m.dataType.size := h.2.1 b rfl
        have hb24 := size_le m.dataType
        have hmul : Ov E (R.Sat (mulI64 (b : Int) (toI64 len)) (fun _ => True)) := hsm0.imp fun hs => by
          have h1 := mulI64_small (a := b) (b := len)
            (by calc b * len ≤ 24 * len := Nat.mul_le_mul (by omega) (Nat.le_refl _)
                  _ < 2 ^ 63 := by omega) (by omega) (by omega)
          have h2 : toI64 b = (b : Int) := by unfold toI64; rw [if_pos (by omega)]
          rw [h2] at h1
          exact Or.inl ⟨_, h1, trivial⟩
        refine (Sat.lift (mulI64_satE hmul hE)).bind (fun _ _ => (Sat.skip _).bind (fun _ _ => ?_))
        refine (ih xs length h.2.2 hsm').bind (fun y hy => ?_)
        exact ⟨hlen, h.2.1, hy⟩

theorem contigLoop_sat (hE : ∀ e, E (.err e)) (hrd : rd.Sat E (fun _ => True)) (hmem : S.memSize ≤ 24)
    {ms : List RawDataMeta} (hsm : Ov E (SmallChannels ms)) (bs toSkip remainder : Nat) :
    ∀ (n idx : Nat) (plan : List (RecordEntry α)) (length : Nat), PlanFor ms plan →
    Prog.Sat E (fun _ => True) (contigLoop S rd bs toSkip remainder n idx plan length) := by
  intro n
  induction n with
  | zero => intro idx plan length _; trivial
  | succ n ih =>
    intro idx plan length h
    unfold contigLoop
    refine Sat.ite (fun _ => (Sat.skip _).bind (fun _ _ => ih _ _ _ h))
      (fun _ => Sat.ite (fun _ => ?_) (fun _ => ?_))
    all_goals exact (subBlock_sat hE hrd hmem ms _ _ h.mapSkips hsm).bind (fun r hr => ih _ _ _ hr)

theorem contigSkipLoop_sat (hE : ∀ e, E (.err e)) (hrd : rd.Sat E (fun _ => True)) (hmem : S.memSize ≤ 24)
    {ms : List RawDataMeta} (hsm : Ov E (SmallChannels ms)) (bs : Nat) (toSkip rem : List Nat) :
    ∀ (n idx : Nat) (plan : List (RecordEntry α)) (length : Nat), PlanFor ms plan →
    Prog.Sat E (fun _ => True) (contigSkipLoop S rd bs toSkip rem n idx plan length) := by
  intro n
  induction n with
  | zero => intro idx plan length _; trivial
  | succ n ih =>
    intro idx plan length h
    unfold contigSkipLoop
    refine Sat.ite (fun _ => ?_) (fun _ => (Sat.skip _).bind (fun _ _ => ih _ _ _ h))
    exact (subBlock_sat hE hrd hmem ms _ _ (h.setSkips _) hsm).bind (fun r hr => ih _ _ _ hr)

/-- The conditions on a block. -/
structure Fine (E : Fail → Prop) (S : Storage α) (b : DataBlock) (plan : List (RecordEntry α)) : Prop where
  entries : PlanFor b.channels plan
  nonempty : b.channels ≠ []
  small : Ov E (SmallChannels b.channels)
  first : Dz E (b.layout = .contigious → ∃ m0, b.channels.head? = some m0 ∧ 0 < m0.numberOfValues)
  sized : Dz E (Positive S plan)

theorem contigReadFrom_sat (hE : ∀ e, E (.err e)) (hrd : rd.Sat E (fun _ => True)) (hpos : 0 < S.memSize)
    (hmem : S.memSize ≤ 24) {b : DataBlock} (hl : b.layout = .contigious) {plan : List (RecordEntry α)}
    (h : Fine E S b plan) (size j : Nat) :
    Prog.Sat E (fun _ => True) (contigReadFrom S rd size plan j) := by
  unfold contigReadFrom
  refine (Sat.lift (blockSize_satE hpos hmem h.entries h.small h.sized)).bind (fun bs hbs => ?_)
  refine (Sat.lift (divR_satE hbs hE)).bind (fun total _ => ?_)
  refine (Sat.lift (firstLength_satE h.nonempty (h.first.imp fun f => f hl) h.entries)).bind (fun sub hsub => ?_)
  refine (Sat.lift (divR_satE hsub hE)).bind (fun _ _ => ?_)
  exact contigLoop_sat hE hrd hmem h.small _ _ _ _ _ _ _ h.entries

theorem contigReadSkip_sat (hE : ∀ e, E (.err e)) (hrd : rd.Sat E (fun _ => True)) (hpos : 0 < S.memSize)
    (hmem : S.memSize ≤ 24) {b : DataBlock} (hl : b.layout = .contigious) {plan : List (RecordEntry α)}
    (h : Fine E S b plan) (size : Nat) (ks : List Nat) :
    Prog.Sat E (fun _ => True) (contigReadSkip S rd size plan ks) := by
  unfold contigReadSkip
  refine (Sat.lift (blockSize_satE hpos hmem h.entries h.small h.sized)).bind (fun bs hbs => ?_)
  refine (Sat.lift (divR_satE hbs hE)).bind (fun total _ => ?_)
  refine (Sat.lift (firstLength_satE h.nonempty (h.first.imp fun f => f hl) h.entries)).bind (fun sub hsub => ?_)
  refine (Sat.lift (divAll_satE hsub hE _)).bind (fun _ _ => ?_)
  exact contigSkipLoop_sat hE hrd hmem h.small _ _ _ _ _ _ _ h.entries

theorem row_sat (hrd : rd.Sat E (fun _ => True)) (r : Nat) :
    ∀ (plan : List (RecordEntry α)) (any : Bool), Prog.Sat E (fun _ => True) (row rd r any plan) := by
  intro plan
  induction plan with
  | nil => intro any; trivial
  | cons en rest ih =>
    intro any
    unfold row
    split
    · refine (Sat.ofAct hrd).bind (fun v _ => Sat.bind (P := fun _ => True) ?_ (fun _ _ => (ih _).bind (fun _ _ => trivial)))
      refine Sat.ite (fun _ => ?_) (fun _ => trivial)
      split <;> trivial
    · exact (Sat.skip _).bind (fun _ _ => (ih _).bind (fun _ _ => trivial))

theorem interLoop_sat (hrd : rd.Sat E (fun _ => True)) :
    ∀ (n r : Nat) (plan : List (RecordEntry α)) (k : Nat), Prog.Sat E (fun _ => True) (interLoop rd n r plan k) := by
  intro n
  induction n with
  | zero => intro row plan k; trivial
  | succ n ih =>
    intro row plan k
    unfold interLoop
    exact (row_sat hrd _ _ _).bind (fun _ _ => Sat.ite (fun _ => ih _ _ _) (fun _ => trivial))

theorem interRead_sat (hE : ∀ e, E (.err e)) (hrd : rd.Sat E (fun _ => True)) (hpos : 0 < S.memSize)
    (hmem : S.memSize ≤ 24) {b : DataBlock} {plan : List (RecordEntry α)}
    (h : PlanFor b.channels plan) (hp : Dz E (Positive S plan))
    (hk : Ov E (Positive S plan ∧ ∀ s ∈ blockSkips plan, 24 * b.channels.length * s < 2 ^ 63)) (size : Nat) :
    Prog.Sat E (fun _ => True) (interRead S rd size plan) := by
  unfold interRead
  refine (Sat.lift (divR_satE (hp.imp And.right) hE)).bind (fun total _ => ?_)
  refine Sat.ite (fun hgt => ?_) (fun _ => interLoop_sat hrd _ _ _ _)
  refine (Sat.lift (mulI64_satE (hk.imp fun hk => ?_) hE)).bind (fun _ _ => (Sat.skip _).bind (fun _ _ =>
    interLoop_sat hrd _ _ _ _))
  obtain ⟨hpp, hk⟩ := hk
  obtain ⟨_, _, h3⟩ := PlanFor.sizes hpos hmem h
  have hrow := hpp.2
  have hmin := minOrZero_of (P := fun s => 24 * b.channels.length * s < 2 ^ 63) (by simp) (blockSkips plan) hk
  have hle : minOrZero (blockSkips plan) * rowSize S plan ≤ 24 * b.channels.length * minOrZero (blockSkips plan) := by
    rw [Nat.mul_comm]
    exact Nat.mul_le_mul h3 (Nat.le_refl _)
  have hr1 : rowSize S plan ≤ minOrZero (blockSkips plan) * rowSize S plan := Nat.le_mul_of_pos_left _ hgt
  have hr2 : minOrZero (blockSkips plan) ≤ minOrZero (blockSkips plan) * rowSize S plan := Nat.le_mul_of_pos_right _ hrow
  exact mulI64_sat (by omega) (by omega) (by omega)

end Prog

/-- Programs of a block, when anything may be in it. -/
def MildAll (E : Fail → Prop) : Prop := E (.panic .overflow) ∧ E (.panic .divByZero)

theorem DataBlock.program_sat (hE : ∀ e, E (.err e)) {rd : Endian → Act α} (hrd : ∀ e, (rd e).Sat E (fun _ => True))
    (hpos : 0 < S.memSize) (hmem : S.memSize ≤ 24) {b : DataBlock} {reqs : List (ChannelRequest α)} (hne : b.channels ≠ [])
    (hlt : ∀ r ∈ reqs, r.channelIndex < b.channels.length)
    (hok : MildAll E ∨ (∃ j, b.Tame j) ∧ SizedFor b.channels reqs ∧
      (b.layout = .interleaved → ∀ r ∈ reqs, 24 * b.channels.length * r.skip < 2 ^ 63)) (anySkip : Bool) :
    R.SatE E (b.program S rd anySkip reqs) (fun a => Prog.Sat E (fun _ => True) a) := by
  unfold DataBlock.program
  rcases buildRecordPlan_sat (S := S) hlt with ⟨plan, hbp, hp⟩ | ⟨e, he⟩
  case inr => rw [he]; exact Or.inr ⟨_, rfl, hE e⟩
  rw [hbp]
  dsimp only
  have hposi : Dz E (Positive S plan) := by
    rcases hok with h | h
    · exact Or.inl h.2
    · exact Or.inr (buildRecordPlan_positive hpos hmem hbp hp.1 h.2.1)
  have hposo : Ov E (Positive S plan) := by
    rcases hok with h | h
    · exact Or.inl h.1
    · exact Or.inr (buildRecordPlan_positive hpos hmem hbp hp.1 h.2.1)
  have hfine : Prog.Fine E S b plan := by
    refine ⟨hp.1, hne, ?_, ?_, hposi⟩
    · rcases hok with h | ⟨⟨j, h⟩, _⟩
      · exact Or.inl h.1
      · exact Or.inr h.values
    · rcases hok with h | ⟨⟨j, h⟩, _⟩
      · exact Or.inl h.2
      · exact Or.inr h.first
  cases hl : b.layout with
  | interleaved =>
    cases anySkip with
    | false =>
      exact Or.inl ⟨_, rfl, Prog.interRead_sat hE (hrd _) hpos hmem hp.1 hposi
        (hposo.imp fun h => ⟨h, fun s hs => by rw [hp.2 s hs]; simp⟩) _⟩
    | true =>
      refine Or.inl ⟨_, rfl, Prog.interRead_sat hE (hrd _) hpos hmem (hp.1.setSkips _) (hposi.imp fun h => h.setSkips _) ?_ _⟩
      rcases hok with h | ⟨_, _, hk⟩
      · exact Or.inl h.1
      · refine hposo.imp fun h => ⟨h.setSkips _, fun s hs => ?_⟩
        rcases blockSkips_setSkips _ _ s hs with h | h
        · obtain ⟨r, hr, rfl⟩ := List.mem_map.mp h
          exact hk hl r hr
        · rw [hp.2 s h]; simp
  | contigious =>
    cases anySkip with
    | false => exact Or.inl ⟨_, rfl, Prog.contigReadFrom_sat hE (hrd _) hpos hmem hl hfine _ _⟩
    | true => exact Or.inl ⟨_, rfl, Prog.contigReadSkip_sat hE (hrd _) hpos hmem hl hfine _ _⟩

omit rd in
theorem applyTo_length (log : List (CellStore α)) : ∀ ps : List (Progress α),
    (log.foldl CellStore.applyTo ps).length = ps.length := by
  induction log with
  | nil => intro ps; rfl
  | cons s log ih => intro ps; rw [List.foldl_cons, ih]; exact List.length_modify _ _ _

/-- Executing a plan. -/
theorem executePlanInto_sat (hE : ∀ e, E (.err e)) {rd : Endian → Act α} (hrd : ∀ e, (rd e).Sat E (fun _ => True))
    (hpos : 0 < S.memSize) (hmem : S.memSize ≤ 24) {δ : Type} {rn : Runner δ α} (hrn : rn.Keeps E) {ix : Index} :
    ∀ (plan : List BlockRead) (ps : List (Progress α)) (d : δ),
    (∀ br ∈ plan, ∃ b, ix.getDataBlock br.dataBlock = some b ∧ b.channels ≠ [] ∧
      ∀ pl, some pl ∈ br.channelIndexes → pl.index < b.channels.length) →
    (MildAll E ∨ PlanSized ⟨ix, []⟩ plan ps ∧ ∀ br ∈ plan, ∀ b, ix.getDataBlock br.dataBlock = some b → (∃ j, b.Tame j) ∧
      ∀ pl, some pl ∈ br.channelIndexes → b.layout = .interleaved → 24 * b.channels.length * pl.samplesToSkip < 2 ^ 63) →
    R.SatE E (executePlanInto S rd rn ix plan ps d).1 (fun _ => True) := by
  intro plan
  induction plan with
  | nil => intro ps d _ _; exact Or.inl ⟨_, rfl, trivial⟩
  | cons br brs ih =>
    intro ps d h hok
    unfold executePlanInto
    obtain ⟨b, hb, hne, hpl⟩ := h br List.mem_cons_self
    have hblock : R.SatE E (executeBlockInto S rd rn ix br ps d).1 (fun qs => qs.length = ps.length) := by
      unfold executeBlockInto
      dsimp only
      rw [hb]
      dsimp only
      generalize hany : List.any br.channelIndexes _ = anySkip
      have hprog := DataBlock.program_sat (S := S) hE hrd hpos hmem (b := b)
        (reqs := blockRequests 0 br.channelIndexes ps) hne
        (fun r hr => by
          obtain ⟨pl, h1, h2, _⟩ := mem_blockRequests hr
          rw [h2]; exact hpl pl h1)
        (hok.imp id fun hok => ⟨(hok.2 br List.mem_cons_self b hb).1, hok.1.requests List.mem_cons_self hb, fun hl r hr => by
          obtain ⟨pl, h1, _, h3⟩ := mem_blockRequests hr
          rw [h3]; exact (hok.2 br List.mem_cons_self b hb).2 pl h1 hl⟩) anySkip
      rcases hprog with ⟨a, ha, hq⟩ | ⟨e, he, hee⟩
      case inr => rw [he]; exact Or.inr ⟨_, rfl, hee⟩
      rw [ha]
      dsimp only
      have hrun := hrn b.start a d _ hq
      cases hr : rn b.start a d with
      | mk r d' =>
      obtain ⟨r, ss⟩ := r
      rw [hr] at hrun
      rcases hrun with ⟨x, hx, _⟩ | ⟨e, he, hee⟩
      · dsimp only at hx; subst hx
        exact Or.inl ⟨_, rfl, (length_addSamples _ _ _).trans (applyTo_length _ _)⟩
      · dsimp only at he; subst he
        exact Or.inr ⟨_, rfl, hee⟩
    cases hr : executeBlockInto S rd rn ix br ps d with
    | mk r x =>
    obtain ⟨log, d'⟩ := x
    rw [hr] at hblock
    rcases hblock with ⟨qs, hqs, hlen⟩ | ⟨e, he, hee⟩
    case inr => dsimp only at he; subst he; exact Or.inr ⟨_, rfl, hee⟩
    dsimp only at hqs; subst hqs
    dsimp only
    split
    · exact Or.inl ⟨_, rfl, trivial⟩
    · rename_i hnc
      refine ih qs d' (fun x hx => h x (List.mem_cons_of_mem _ hx)) ?_
      refine hok.imp id fun hok => ⟨?_, fun x hx => hok.2 x (List.mem_cons_of_mem _ hx)⟩
      rcases hok.1 with hsz | ⟨p, hp, _, hsz⟩
      · exact Or.inl (fun x hx => hsz x (List.mem_cons_of_mem _ hx))
      · rw [hp] at hlen
        obtain ⟨q, hq⟩ := List.length_eq_one_iff.mp hlen
        subst hq
        refine Or.inr ⟨q, rfl, ?_, fun x hx => hsz x (List.mem_cons_of_mem _ hx)⟩
        cases hqc : q.isComplete with
        | false => rfl
        | true => exfalso; apply hnc; simp [hqc]

/-- Planning and executing. -/
theorem readPositionsInto_sat (hE : ∀ e, E (.err e)) {rd : Endian → Act α} (hrd : ∀ e, (rd e).Sat E (fun _ => True))
    (hpos : 0 < S.memSize) (hmem : S.memSize ≤ 24) {δ : Type} {rn : Runner δ α} (hrn : rn.Keeps E) {ix : Index}
    (hi : Inv ix) (pos : List (List DataLocation)) (start : Nat)
    (hl : ∀ ls ∈ pos, ∃ c, ix.getChannelDataPositions c = some ls) (ps : List (Progress α)) (d : δ)
    (hok : MildAll E ∨ (∀ ls ∈ pos, TameAt ⟨ix, []⟩ ls) ∧
      ((∀ ls ∈ pos, SizedAt ⟨ix, []⟩ ls) ∨ ∃ ls p, pos = [ls] ∧ ps = [p] ∧ p.isComplete = false)) :
    ∃ plan, readPlan pos start = .ok plan ∧ R.SatE E (executePlanInto S rd rn ix plan ps d).1 (fun _ => True) := by
  have hvalid : ∀ ls ∈ pos, Increasing ls ∧ ∀ l ∈ ls, ValidLocation ix.dataBlocks l := by
    intro ls hls
    obtain ⟨c, hc⟩ := hl ls hls
    obtain ⟨o, ho, rfl⟩ := Option.map_eq_some_iff.mp hc
    exact ⟨hi.incr _ _ ho, hi.valid _ _ ho⟩
  refine ⟨_, readPlan_eq start ix.dataBlocks.length pos (fun ls h => (hvalid ls h).1) (fun ls h l hlm => by
    obtain ⟨b, _, _, hb, _⟩ := (hvalid ls h).2 l hlm
    exact (List.getElem?_eq_some_iff.mp hb).1), ?_⟩
  have hvisited : ∀ br ∈ plan start ix.dataBlocks.length pos,
      br.channelIndexes = pos.map (visit start br.dataBlock) ∧
      ∃ ls ∈ pos, ∃ pl, visit start br.dataBlock ls = some pl := by
    intro br hbr
    unfold plan at hbr
    obtain ⟨B, hB, hva⟩ := List.mem_filterMap.mp hbr
    unfold visitAll at hva
    split at hva
    · rename_i hany
      cases hva
      rw [List.any_map, List.any_eq_true] at hany
      obtain ⟨ls, hls, hv⟩ := hany
      obtain ⟨pl, hv⟩ := Option.isSome_iff_exists.mp hv
      exact ⟨rfl, ls, hls, pl, hv⟩
    · cases hva
  have hvv : ∀ ls ∈ pos, ∀ B pl, visit start B ls = some pl → _ := fun ls hls B pl h =>
    visit_valid (t := ⟨ix, []⟩) (hvalid ls hls).2 h
  refine executePlanInto_sat hE hrd hpos hmem hrn _ _ _ ?_ (hok.imp id fun ⟨ht, hsz⟩ => ⟨?_, ?_⟩)
  · intro br hbr
    obtain ⟨hch, ls, hls, pl, hv⟩ := hvisited br hbr
    obtain ⟨l, b, m, hlm, hlB, hn, hb, hm, _, _⟩ := hvv ls hls _ _ hv
    refine ⟨b, hb, (fun hnil => by rw [hnil] at hm; cases hm), ?_⟩
    intro pl' hpl'
    rw [hch] at hpl'
    obtain ⟨ls', hls', hv'⟩ := List.mem_map.mp hpl'
    obtain ⟨l', b', m', hlm', hlB', hn', hb', hm', _, hk'⟩ := hvv ls' hls' _ _ hv'
    rw [hb] at hb'
    cases hb'
    exact (List.getElem?_eq_some_iff.mp hm').1
  · rcases hsz with hsz | ⟨ls, p, hp, hps, hc⟩
    · refine Or.inl (fun br hbr b hb => ?_)
      obtain ⟨_, ls, hls, pl, hv⟩ := hvisited br hbr
      obtain ⟨l, b', m, hlm, hlB, hn, hb', _, _, _⟩ := hvv ls hls _ _ hv
      exact hsz ls hls l hlm hn b (by rw [hlB]; exact hb)
    · refine Or.inr ⟨p, hps, hc, fun br hbr => ?_⟩
      obtain ⟨hch, ls', hls', pl, hv⟩ := hvisited br hbr
      subst hp
      have := List.mem_singleton.mp hls'
      subst this
      refine ⟨pl, by rw [hch, List.map_cons, List.map_nil, hv], fun b hb => ?_⟩
      obtain ⟨l, b', m, _, _, _, hb', hm, hmn, _⟩ := hvv ls' hls' _ _ hv
      rw [hb] at hb'
      cases hb'
      exact ⟨m, hm, hmn⟩
  · intro br hbr b hb
    obtain ⟨hch, ls, hls, pl, hv⟩ := hvisited br hbr
    obtain ⟨l, b', m, hlm, hlB, hn, hb', _, _, _⟩ := hvv ls hls _ _ hv
    have heq : b' = b := Option.some.inj (hb'.symm.trans hb)
    subst heq
    refine ⟨⟨_, ht ls hls l hlm hn b' (by rw [hlB]; exact hb')⟩, ?_⟩
    intro pl' hpl' hlay
    rw [hch] at hpl'
    obtain ⟨ls', hls', hv'⟩ := List.mem_map.mp hpl'
    obtain ⟨l', b'', m', hlm', hlB', hn', hb'', hm', _, hk'⟩ := hvv ls' hls' _ _ hv'
    rw [hb'] at hb''
    cases hb''
    exact Nat.lt_of_le_of_lt (Nat.mul_le_mul (Nat.le_refl _) hk')
      ((ht ls' hls' l' hlm' hn' b' (by rw [hlB']; exact hb')).rows hlay)

end

/-- Joint reads. -/
theorem readChannelsLog_sat {E : Fail → Prop} (hE : ∀ e, E (.err e)) (al : Alloc) (ty : STy) {δ : Type} {rn : Runner δ ty.Val}
    (hrn : rn.Keeps E) {ix : Index} (hi : Inv ix) (cs : List ChannelPath) (start : Nat) (outs : List (List ty.Val)) (d : δ)
    (hok : MildAll E ∨ ∀ c ∈ cs, ∀ ls, ix.getChannelDataPositions c = some ls → TameAt ⟨ix, []⟩ ls ∧ SizedAt ⟨ix, []⟩ ls) :
    R.SatE E (readChannelsLog al ty rn ix cs start outs d).1 (fun _ => True) := by
  unfold readChannelsLog
  rcases lookupPositions_sat ⟨ix, []⟩ cs with ⟨pos, hp, hq⟩ | ⟨e, he⟩
  case inr => rw [he]; exact Or.inr ⟨_, rfl, hE e⟩
  rw [hp]
  dsimp only
  obtain ⟨hm1, hm2⟩ := STy.memSize_bounds al ty
  obtain ⟨plan, h1, h2⟩ := readPositionsInto_sat hE (fun e => Act.Sat.value hE al ty e) hm1 hm2 hrn hi pos start
    (fun ls hls => by obtain ⟨c, _, h⟩ := hq ls hls; exact ⟨c, h⟩) (outs.map (fun o => ⟨o, 0⟩)) d
    (hok.imp id fun h => ⟨fun ls hls => by obtain ⟨c, hc, hl⟩ := hq ls hls; exact (h c hc ls hl).1,
      Or.inl fun ls hls => by obtain ⟨c, hc, hl⟩ := hq ls hls; exact (h c hc ls hl).2⟩)
  rw [h1]
  dsimp only
  rcases h2 with ⟨a, ha, _⟩ | ⟨e, he, hee⟩
  · rw [ha]; exact Or.inl ⟨_, rfl, trivial⟩
  · rw [he]; exact Or.inr ⟨_, rfl, hee⟩

/-- Reads of one channel. -/
theorem readChannelLog_sat {E : Fail → Prop} (hE : ∀ e, E (.err e)) (al : Alloc) (ty : STy) {δ : Type} {rn : Runner δ ty.Val}
    (hrn : rn.Keeps E) {ix : Index} (hi : Inv ix) (c : ChannelPath) (start : Nat) (out : List ty.Val) (d : δ)
    (hok : MildAll E ∨ ∀ ls, ix.getChannelDataPositions c = some ls → TameAt ⟨ix, []⟩ ls ∧ (out = [] → SizedAt ⟨ix, []⟩ ls)) :
    R.SatE E (readChannelLog al ty rn ix c start out d).1 (fun _ => True) := by
  unfold readChannelLog
  cases hc : ix.getChannelDataPositions c with
  | none => exact Or.inr ⟨_, rfl, hE _⟩
  | some ls =>
    dsimp only
    obtain ⟨hm1, hm2⟩ := STy.memSize_bounds al ty
    obtain ⟨plan, h1, h2⟩ := readPositionsInto_sat hE (fun e => Act.Sat.value hE al ty e) hm1 hm2 hrn hi [ls] start
      (fun x hx => by rw [List.mem_singleton.mp hx]; exact ⟨c, hc⟩) [⟨out, 0⟩] d
      (hok.imp id fun h => ⟨fun x hx => by rw [List.mem_singleton.mp hx]; exact (h ls hc).1, by
        cases out with
        | nil => exact Or.inl (fun x hx => by rw [List.mem_singleton.mp hx]; exact (h ls hc).2 rfl)
        | cons v vs => exact Or.inr ⟨ls, _, rfl, rfl, rfl⟩⟩)
    rw [h1]
    dsimp only
    rcases h2 with ⟨a, ha, _⟩ | ⟨e, he, hee⟩
    · rw [ha]; exact Or.inl ⟨_, rfl, trivial⟩
    · rw [he]; exact Or.inr ⟨_, rfl, hee⟩

end Tedium
