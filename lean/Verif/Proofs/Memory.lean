import Verif.Spec.Memory
import Verif.Proofs.Source

/-! # Memory that was never written -/

namespace Tedium

/-! ## What programs ask for -/

/-- Every `read_exact` of the program is of a length with `P`. -/
def Act.Asks {α : Type} (P : Nat → Prop) : Act α → Prop
  | .ret _ => True
  | .stop _ => True
  | .exact n next => P n ∧ ∀ bs, Asks P (next bs)
  | .move _ next => Asks P next

/-- the same for programs that assign -/
def Prog.Asks {τ α : Type} (P : Nat → Prop) : Prog τ α → Prop
  | .ret _ => True
  | .stop _ => True
  | .exact n next => P n ∧ ∀ bs, Asks P (next bs)
  | .move _ next => Asks P next
  | .store _ next => Asks P next

section
variable {P : Nat → Prop}

namespace Act.Asks
variable {α β : Type}

theorem bind {x : Act α} {k : α → Act β} (hx : x.Asks P) (hk : ∀ a, (k a).Asks P) : Act.Asks P (x >>= k) := by
  show Act.Asks P (Act.bind x k)
  induction x with
  | ret a => exact hk a
  | stop e => trivial
  | exact n next ih => exact ⟨hx.1, fun bs => ih bs (hx.2 bs)⟩
  | move o next ih => exact ih hx

theorem take {n : Nat} (h : P n) : Act.Asks P (Act.take n) := ⟨h, fun _ => trivial⟩

theorem many {x : Act α} (h : x.Asks P) : ∀ n, Act.Asks P (Act.many x n) := by
  intro n
  induction n with
  | zero => trivial
  | succ n ih => exact h.bind (fun a => ih.bind (fun l => trivial))

section
variable (hP : ∀ n, n ≤ 16 → P n)
include hP

theorem uint (e : Endian) {w : Nat} (hw : w ≤ 16) : Act.Asks P (Act.uint e w) := (take (hP w hw)).bind (fun _ => trivial)

variable {al : Alloc} (hal : ∀ n, al (.str n) = true → P n)
include hal

theorem string (e : Endian) : Act.Asks P (Act.string al e) := by
  refine (uint hP e (by omega)).bind (fun n => ?_)
  unfold Act.stringWithLength
  split
  · rename_i h
    refine (take (hal n h)).bind (fun b => ?_)
    cases utf8Dec b <;> trivial
  · trivial

omit hP hal in
theorem property (e : Endian) (hv : ∀ t, Act.Asks P (Act.value al t e)) (hd : Act.Asks P (Act.dataType e)) :
    Act.Asks P (Act.property al e) := by
  unfold Act.property
  refine hd.bind (fun t => ?_)
  cases t <;> first
    | trivial
    | exact (hv _).bind (fun _ => trivial)

omit hal in
theorem dataType (e : Endian) : Act.Asks P (Act.dataType e) := by
  unfold Act.dataType
  refine (uint hP e (by omega)).bind (fun c => ?_)
  cases DataType.ofCode? c <;> trivial

/-- Values of a fixed size. -/
theorem value (t : STy) (e : Endian) : Act.Asks P (Act.value al t e) := by
  have hnum : ∀ w, w ≤ 16 → Act.Asks P (Act.numeric w e) := fun w hw => (take (hP w hw)).bind (fun _ => trivial)
  cases t <;> first
    | exact hnum _ (by omega)
    | exact (hnum _ (by omega)).bind (fun _ => (hnum _ (by omega)).bind (fun _ => trivial))
    | exact (take (hP _ (by omega))).bind (fun _ => trivial)
    | exact string hP hal e
    | skip
  refine (take (hP 10 (by omega))).bind (fun b => ?_)
  cases e <;> trivial

omit hal in
theorem rawDataIndex (e : Endian) : Act.Asks P (Act.rawDataIndex e) := by
  unfold Act.rawDataIndex
  refine (uint hP e (by omega)).bind (fun c => ?_)
  split
  · trivial
  · split
    · trivial
    · split
      · trivial
      · split
        · trivial
        · exact (dataType hP e).bind (fun _ => (uint hP e (by omega)).bind (fun _ => (uint hP e (by omega)).bind (fun _ => trivial)))

theorem object (e : Endian) : Act.Asks P (Act.object al e) := by
  unfold Act.object
  refine (string hP hal e).bind (fun _ => (rawDataIndex hP e).bind (fun i => (uint hP e (by omega)).bind (fun n => ?_)))
  split
  · refine (many ?_ n).bind (fun _ => trivial)
    exact (string hP hal e).bind (fun _ => (property e (fun t => value hP hal t e) (dataType hP e)).bind (fun _ => trivial))
  · trivial

theorem segment (e : Endian) (toc : ToC) : Act.Asks P (Act.segment al e toc) := by
  unfold Act.segment
  refine (uint hP e (by omega)).bind (fun _ => (uint hP e (by omega)).bind (fun _ => (uint hP e (by omega)).bind (fun _ => ?_)))
  refine Act.Asks.bind ?_ (fun md => trivial)
  unfold Act.metaData
  refine (uint hP e (by omega)).bind (fun n => ?_)
  split
  · exact (many (object hP hal e) n).bind (fun _ => trivial)
  · trivial

end

/-- Values other than strings. -/
theorem number (hP : ∀ n, n ≤ 16 → P n) (al : Alloc) {t : STy} (ht : t ≠ .string) (e : Endian) : Act.Asks P (Act.value al t e) := by
  have hnum : ∀ w, w ≤ 16 → Act.Asks P (Act.numeric w e) := fun w hw => (take (hP w hw)).bind (fun _ => trivial)
  cases t <;> first
    | exact hnum _ (by omega)
    | exact (hnum _ (by omega)).bind (fun _ => (hnum _ (by omega)).bind (fun _ => trivial))
    | exact (take (hP _ (by omega))).bind (fun _ => trivial)
    | exact absurd rfl ht
    | skip
  refine (take (hP 10 (by omega))).bind (fun b => ?_)
  cases e <;> trivial

end Act.Asks

namespace Prog.Asks
variable {τ α β : Type}

theorem bind {x : Prog τ α} {k : α → Prog τ β} (hx : x.Asks P) (hk : ∀ a, (k a).Asks P) : Prog.Asks P (x >>= k) := by
  show Prog.Asks P (Prog.bind x k)
  induction x with
  | ret a => exact hk a
  | stop e => trivial
  | exact n next ih => exact ⟨hx.1, fun bs => ih bs (hx.2 bs)⟩
  | move o next ih => exact ih hx
  | store s next ih => exact ih hx

theorem ofAct {x : Act α} (h : x.Asks P) : Prog.Asks P (Prog.ofAct x : Prog τ α) := by
  induction x with
  | ret a => trivial
  | stop e => trivial
  | exact n next ih => exact ⟨h.1, fun bs => ih bs (h.2 bs)⟩
  | move o next ih => exact ih h

theorem lift (x : R α) : Prog.Asks P (Prog.lift x : Prog τ α) := by
  cases x <;> trivial

variable {S : Storage α} {rd : Act α}

theorem values (hrd : rd.Asks P) (slot : Nat) : ∀ (n : Nat) (it : OutIter α), Prog.Asks P (Prog.values rd slot n it) := by
  intro n
  induction n with
  | zero => intro it; trivial
  | succ n ih =>
    intro it
    unfold Prog.values
    split
    · trivial
    · exact (ofAct hrd).bind (fun v => Prog.Asks.bind (x := Prog.assign _) trivial (fun _ => (ih _).bind (fun r => trivial)))

theorem sequential (hrd : rd.Asks P) (slot : Nat) (out : OutIter α) (n : Nat) :
    Prog.Asks P (Prog.sequential S rd slot out n) := by
  unfold Prog.sequential
  refine (values hrd slot n out).bind (fun r => ?_)
  dsimp only
  split
  · exact (lift _).bind (fun _ => trivial)
  · trivial

theorem subBlock (hrd : rd.Asks P) : ∀ (plan : List (RecordEntry α)) (length : Nat), Prog.Asks P (Prog.subBlock S rd length plan) := by
  intro plan
  induction plan with
  | nil => intro length; trivial
  | cons x xs ih =>
    intro length
    unfold Prog.subBlock
    split
    · dsimp only
      split
      · exact (lift _).bind (fun _ => Prog.Asks.bind (x := Prog.skip _) trivial (fun _ =>
          (sequential hrd _ _ _).bind (fun _ => (ih _).bind (fun _ => trivial))))
      · exact (sequential hrd _ _ _).bind (fun _ => (ih _).bind (fun _ => trivial))
    · exact (lift _).bind (fun _ => Prog.Asks.bind (x := Prog.skip _) trivial (fun _ => (ih _).bind (fun _ => trivial)))

theorem contigLoop (hrd : rd.Asks P) (bs toSkip remainder : Nat) : ∀ (n idx : Nat) (plan : List (RecordEntry α)) (length : Nat),
    Prog.Asks P (Prog.contigLoop S rd bs toSkip remainder n idx plan length) := by
  intro n
  induction n with
  | zero => intro idx plan length; trivial
  | succ n ih =>
    intro idx plan length
    unfold Prog.contigLoop
    split
    · exact Prog.Asks.bind (x := Prog.skip _) trivial (fun _ => ih _ _ _)
    · split
      all_goals exact (subBlock hrd _ _).bind (fun r => ih _ _ _)

theorem contigSkipLoop (hrd : rd.Asks P) (bs : Nat) (toSkip rem : List Nat) : ∀ (n idx : Nat) (plan : List (RecordEntry α)) (length : Nat),
    Prog.Asks P (Prog.contigSkipLoop S rd bs toSkip rem n idx plan length) := by
  intro n
  induction n with
  | zero => intro idx plan length; trivial
  | succ n ih =>
    intro idx plan length
    unfold Prog.contigSkipLoop
    split
    · exact (subBlock hrd _ _).bind (fun r => ih _ _ _)
    · exact Prog.Asks.bind (x := Prog.skip _) trivial (fun _ => ih _ _ _)

theorem row (hrd : rd.Asks P) (r : Nat) : ∀ (plan : List (RecordEntry α)) (any : Bool), Prog.Asks P (Prog.row rd r any plan) := by
  intro plan
  induction plan with
  | nil => intro any; trivial
  | cons en rest ih =>
    intro any
    unfold Prog.row
    split
    · refine (ofAct hrd).bind (fun v => Prog.Asks.bind ?_ (fun _ => (ih _).bind (fun _ => trivial)))
      split
      · split <;> trivial
      · trivial
    · exact Prog.Asks.bind (x := Prog.skip _) trivial (fun _ => (ih _).bind (fun _ => trivial))

theorem interLoop (hrd : rd.Asks P) : ∀ (n r : Nat) (plan : List (RecordEntry α)) (k : Nat),
    Prog.Asks P (Prog.interLoop rd n r plan k) := by
  intro n
  induction n with
  | zero => intro row plan k; trivial
  | succ n ih =>
    intro r plan k
    unfold Prog.interLoop
    refine (row hrd _ _ _).bind (fun x => ?_)
    dsimp only
    split
    · exact ih _ _ _
    · trivial

theorem interRead (hrd : rd.Asks P) (size : Nat) (plan : List (RecordEntry α)) : Prog.Asks P (Prog.interRead S rd size plan) := by
  unfold Prog.interRead
  refine (lift _).bind (fun _ => ?_)
  dsimp only
  split
  · exact (lift _).bind (fun _ => Prog.Asks.bind (x := Prog.skip _) trivial (fun _ => interLoop hrd _ _ _ _))
  · exact interLoop hrd _ _ _ _

theorem program {rd : Endian → Act α} (hrd : ∀ e, (rd e).Asks P) {b : DataBlock} {anySkip : Bool} {reqs : List (ChannelRequest α)}
    {a : Prog (CellStore α) (Nat × List (RecordEntry α))} (h : b.program S rd anySkip reqs = .ok a) : a.Asks P := by
  unfold DataBlock.program at h
  split at h
  · cases h
  · dsimp only at h
    split at h <;> cases h
    · unfold Prog.contigReadFrom
      exact (lift _).bind (fun _ => (lift _).bind (fun _ => (lift _).bind (fun _ => (lift _).bind (fun _ => contigLoop (hrd _) _ _ _ _ _ _ _))))
    · unfold Prog.contigReadSkip
      exact (lift _).bind (fun _ => (lift _).bind (fun _ => (lift _).bind (fun _ => (lift _).bind (fun _ => contigSkipLoop (hrd _) _ _ _ _ _ _ _))))
    · exact interRead (hrd _) _ _
    · exact interRead (hrd _) _ _

end Prog.Asks

/-! ## What holds of the file as long as programs run -/

/-- Programs that ask for lengths with `P` keep `I`. -/
def Runner.Preserves {δ α : Type} (P : Nat → Prop) (I : δ → Prop) (rn : Runner δ α) : Prop :=
  ∀ start a d, Prog.Asks P a → I d → I (rn start a d).2

variable {δ : Type} {I : δ → Prop}

theorem executePlanInto_preserves {α : Type} {S : Storage α} {rd : Endian → Act α} (hrd : ∀ e, (rd e).Asks P) {rn : Runner δ α}
    (hrn : rn.Preserves P I) (ix : Index) : ∀ (plan : List BlockRead) (ps : List (Progress α)) (d : δ), I d →
    I (executePlanInto S rd rn ix plan ps d).2.2 := by
  intro plan
  induction plan with
  | nil => intro ps d h; exact h
  | cons loc locs ih =>
    intro ps d h
    have hb : I (executeBlockInto S rd rn ix loc ps d).2.2 := by
      unfold executeBlockInto
      dsimp only
      split
      · exact h
      · split
        · exact h
        · rename_i a ha
          have := hrn (‹DataBlock›).start a d (Prog.Asks.program hrd ha) h
          generalize rn _ a d = x at this
          obtain ⟨⟨r, ss⟩, d'⟩ := x
          cases r with
          | error e => exact this
          | ok v => exact this
    unfold executePlanInto
    generalize executeBlockInto S rd rn ix loc ps d = x at hb
    obtain ⟨r, log, d'⟩ := x
    cases r with
    | error e => exact hb
    | ok ps' =>
      dsimp only
      split
      · exact hb
      · exact ih ps' d' hb

theorem readChannelsLog_preserves {al : Alloc} {ty : STy} (hrd : ∀ e, (Act.value al ty e).Asks P) {rn : Runner δ ty.Val}
    (hrn : rn.Preserves P I) (ix : Index) (cs : List ChannelPath) (start : Nat) (outs : List (List ty.Val)) (d : δ) (h : I d) :
    I (readChannelsLog al ty rn ix cs start outs d).2.2 := by
  unfold readChannelsLog
  split
  · exact h
  · split
    · exact h
    · exact executePlanInto_preserves hrd hrn ix _ _ d h

theorem readChannelLog_preserves {al : Alloc} {ty : STy} (hrd : ∀ e, (Act.value al ty e).Asks P) {rn : Runner δ ty.Val}
    (hrn : rn.Preserves P I) (ix : Index) (c : ChannelPath) (start : Nat) (out : List ty.Val) (d : δ) (h : I d) :
    I (readChannelLog al ty rn ix c start out d).2.2 := by
  unfold readChannelLog
  split
  · exact h
  · split
    · exact h
    · exact executePlanInto_preserves hrd hrn ix _ _ d h

end

/-! ## Buffers -/

theorem putBytes_length (puts : Nat → Option UInt8) (buf : List MemCell) : (putBytes puts buf).length = buf.length := by
  unfold putBytes
  generalize 0 = k
  induction buf generalizing k with
  | nil => rfl
  | cons c cs ih => unfold putBytesFrom; rw [List.length_cons, ih, List.length_cons]

theorem putBytes_get (puts : Nat → Option UInt8) (buf : List MemCell) (i : Nat) :
    (putBytes puts buf)[i]? = buf[i]?.map (fun c => (puts i).or c) := by
  have h : ∀ (k i : Nat), (putBytesFrom puts k buf)[i]? = buf[i]?.map (fun c => (puts (k + i)).or c) := by
    induction buf with
    | nil => intro k i; rfl
    | cons c cs ih =>
      intro k i
      unfold putBytesFrom
      cases i with
      | zero => rfl
      | succ i => rw [List.getElem?_cons_succ, List.getElem?_cons_succ, ih, show k + 1 + i = k + (i + 1) by omega]
  have := h 0 i
  rw [Nat.zero_add] at this
  exact this

theorem putBytes_some {puts : Nat → Option UInt8} {buf : List MemCell} (h : buf.all Option.isSome = true) :
    (putBytes puts buf).all Option.isSome = true := by
  rw [List.all_eq_true] at h ⊢
  intro c hc
  obtain ⟨i, hi⟩ := List.getElem?_of_mem hc
  rw [putBytes_get] at hi
  obtain ⟨c', h1, h2⟩ := Option.map_eq_some_iff.mp hi
  have := h c' (List.mem_of_getElem? h1)
  subst h2
  cases puts i with
  | none => exact this
  | some v => rfl

theorem all_map_some (bs : Bytes) : (bs.map some : List MemCell).all Option.isSome = true := by
  rw [List.all_map, List.all_eq_true]; intro _ _; rfl

theorem all_append {xs ys : List MemCell} : (xs ++ ys).all Option.isSome = true ↔ xs.all Option.isSome = true ∧ ys.all Option.isSome = true := by
  rw [List.all_append, Bool.and_eq_true]

theorem all_take {xs : List MemCell} (n : Nat) (h : xs.all Option.isSome = true) : (xs.take n).all Option.isSome = true := by
  rw [List.all_eq_true] at h ⊢
  exact fun c hc => h c (List.mem_of_mem_take hc)

theorem all_drop {xs : List MemCell} (n : Nat) (h : xs.all Option.isSome = true) : (xs.drop n).all Option.isSome = true := by
  rw [List.all_eq_true] at h ⊢
  exact fun c hc => h c (List.mem_of_mem_drop hc)

/-! ## The reader -/

namespace MemReader
variable {σ : Type} {M : SafeStream σ}

/-- What the stream gets to see in a step, and what it leaves in the buffer. -/
structure Step (M : SafeStream σ) (b : MemReader σ) (buf : List MemCell) (r : R Nat) (buf' : List MemCell) (b' : MemReader σ) : Prop where
  length : buf'.length = buf.length
  store : b'.store.length = b.store.length
  undefined : b'.seen.undefined = b.seen.undefined
  handed : (b'.seen.handed = b.seen.handed ∧ ∀ n, r = .ok n → n ≤ buf'.length → (buf'.take n).all Option.isSome = true) ∨
    (b'.seen.handed = b.seen.handed ++ [buf.length] ∧ b.store.length ≤ buf.length ∧ buf.all Option.isSome = false)
  full : buf.all Option.isSome = true → buf'.all Option.isSome = true
  honest : M.Honest → ∀ n, r = .ok n → n ≤ buf'.length → (buf'.take n).all Option.isSome = true

theorem read_step (b : MemReader σ) (buf : List MemCell) :
    Step M b buf (b.read M buf).1 (b.read M buf).2.1 (b.read M buf).2.2 := by
  have hcopy : ∀ bs : Bytes, bs.length ≤ buf.length → (bs.map some ++ buf.drop bs.length).length = buf.length := by
    intro bs h
    rw [List.length_append, List.length_map, List.length_drop]; omega
  have hfront : ∀ bs : Bytes, ∀ n, (Except.ok bs.length : R Nat) = .ok n →
      ((bs.map some ++ buf.drop bs.length).take n).all Option.isSome = true := by
    intro bs n h
    cases h
    rw [List.take_append_of_le_length (by rw [List.length_map]; exact Nat.le_refl _)]
    exact all_take _ (all_map_some bs)
  have hfull : ∀ bs : Bytes, buf.all Option.isSome = true → (bs.map some ++ buf.drop bs.length).all Option.isSome = true :=
    fun bs h => all_append.mpr ⟨all_map_some bs, all_drop _ h⟩
  unfold MemReader.read
  by_cases h1 : b.consumed = b.filled
  · rw [if_pos h1]
    by_cases h2 : buf.length ≥ b.store.length
    · rw [if_pos h2]
      unfold Seen.read
      cases hr : M.read b.seen.str buf with
      | mk x str =>
      obtain ⟨r, puts⟩ := x
      have hhanded : ∀ r' : R Nat, (∀ n, r' = .ok n → r = .ok n) →
          ((if buf.all Option.isSome then b.seen.handed else b.seen.handed ++ [buf.length]) = b.seen.handed ∧
            ∀ n, r' = .ok n → n ≤ (putBytes puts buf).length → ((putBytes puts buf).take n).all Option.isSome = true) ∨
          ((if buf.all Option.isSome then b.seen.handed else b.seen.handed ++ [buf.length]) = b.seen.handed ++ [buf.length] ∧
            b.store.length ≤ buf.length ∧ buf.all Option.isSome = false) := by
        intro r' hr'
        by_cases ha : buf.all Option.isSome = true
        · rw [if_pos ha]; exact Or.inl ⟨rfl, fun n _ _ => all_take _ (putBytes_some ha)⟩
        · rw [if_neg ha]; exact Or.inr ⟨rfl, h2, by simpa using ha⟩
      cases r with
      | error k =>
        exact ⟨putBytes_length _ _, rfl, rfl, hhanded _ (fun n h => by cases h), fun h => putBytes_some h, fun _ n h => by cases h⟩
      | ok n =>
        refine ⟨putBytes_length _ _, rfl, rfl, hhanded _ (fun n h => by cases h; rfl), fun h => putBytes_some h, ?_⟩
        intro hM m hm hle
        cases hm
        rw [List.all_eq_true]
        intro c hc
        obtain ⟨i, hi⟩ := List.getElem?_of_mem hc
        rw [List.getElem?_take] at hi
        split at hi
        · rename_i hin
          dsimp only at hi
          rw [putBytes_get] at hi
          obtain ⟨c', h3, h4⟩ := Option.map_eq_some_iff.mp hi
          subst h4
          cases c' with
          | some v => cases puts i <;> rfl
          | none =>
            have := hM _ _ _ _ _ hr i hin h3
            cases hp : puts i with
            | none => exact absurd hp this
            | some v => rfl
        · cases hi
    · rw [if_neg h2]
      unfold Seen.read
      cases hr : M.read b.seen.str (b.store.map some) with
      | mk x str =>
      obtain ⟨r, puts⟩ := x
      rw [if_pos (all_map_some b.store)]
      have hst : ((putBytes puts (b.store.map some)).map (Option.getD · 0)).length = b.store.length := by
        rw [List.length_map, putBytes_length, List.length_map]
      cases r with
      | error k =>
        exact ⟨rfl, hst, rfl, Or.inl ⟨rfl, fun n h => by cases h⟩, id, fun _ n h => by cases h⟩
      | ok n =>
        dsimp only
        by_cases h3 : n ≤ ((putBytes puts (b.store.map some)).map (Option.getD · 0)).length
        · rw [if_pos h3]
          refine ⟨hcopy _ (List.length_take_le _ _), hst, rfl, Or.inl ⟨rfl, fun n h _ => hfront _ n h⟩, hfull _, fun _ n h _ => hfront _ n h⟩
        · rw [if_neg h3]
          exact ⟨rfl, rfl, rfl, Or.inl ⟨rfl, fun n h => by cases h⟩, id, fun _ n h => by cases h⟩
  · rw [if_neg h1]
    exact ⟨hcopy _ (List.length_take_le _ _), rfl, rfl, Or.inl ⟨rfl, fun n h _ => hfront _ n h⟩, hfull _, fun _ n h _ => hfront _ n h⟩

theorem readExactLoop_seen : ∀ (fuel : Nat) (done rest : List MemCell) (b : MemReader σ),
    (b.readExactLoop M fuel done rest).2.store.length = b.store.length ∧
    (b.readExactLoop M fuel done rest).2.seen.undefined = b.seen.undefined ∧
    ∃ l, (b.readExactLoop M fuel done rest).2.seen.handed = b.seen.handed ++ l ∧
      (∀ m ∈ l, b.store.length ≤ m ∧ m ≤ rest.length) ∧ (rest.all Option.isSome = true → l = []) ∧
      ∀ cells, (b.readExactLoop M fuel done rest).1 = .ok cells → (l = [] ∨ M.Honest) → done.all Option.isSome = true →
        cells.all Option.isSome = true := by
  intro fuel
  induction fuel with
  | zero => intro done rest b; exact ⟨rfl, rfl, [], (List.append_nil _).symm, nofun, fun _ => rfl, fun _ h => by cases h⟩
  | succ fuel ih =>
    intro done rest b
    unfold readExactLoop
    by_cases he : rest = []
    · rw [if_pos he]; exact ⟨rfl, rfl, [], (List.append_nil _).symm, nofun, fun _ => rfl, fun _ h _ hd => by cases h; exact hd⟩
    · rw [if_neg he]
      have hs := read_step (M := M) b rest
      cases hr : b.read M rest with
      | mk r x =>
      obtain ⟨buf', b'⟩ := x
      rw [hr] at hs
      dsimp only at hs
      have hstop : ∀ e : Fail, ((Except.error e : R (List MemCell)), b').2.store.length = b.store.length ∧
          ((Except.error e : R (List MemCell)), b').2.seen.undefined = b.seen.undefined ∧
          ∃ l, b'.seen.handed = b.seen.handed ++ l ∧ (∀ m ∈ l, b.store.length ≤ m ∧ m ≤ rest.length) ∧
            (rest.all Option.isSome = true → l = []) ∧
            ∀ cells, (Except.error e : R (List MemCell)) = .ok cells → (l = [] ∨ M.Honest) → done.all Option.isSome = true →
              cells.all Option.isSome = true := by
        intro e
        refine ⟨hs.store, hs.undefined, ?_⟩
        rcases hs.handed with h | ⟨h1, h2, h3⟩
        · exact ⟨[], by rw [h.1, List.append_nil], nofun, fun _ => rfl, fun _ h => by cases h⟩
        · exact ⟨_, h1, fun m hm => by rw [List.mem_singleton.mp hm]; exact ⟨h2, Nat.le_refl _⟩,
            (fun h => by rw [h] at h3; cases h3), fun _ h => by cases h⟩
      cases r with
      | error e => exact hstop e
      | ok n =>
        dsimp only
        by_cases hn : n = 0
        · rw [if_pos hn]; exact hstop _
        · rw [if_neg hn]
          by_cases hle : n ≤ buf'.length
          · rw [if_pos hle]
            obtain ⟨h1, h2, l, h3, h4, h5, h6⟩ := ih (done ++ buf'.take n) (buf'.drop n) b'
            have hlen := hs.length
            refine ⟨h1.trans hs.store, h2.trans hs.undefined, ?_⟩
            have h4' : ∀ m ∈ l, b.store.length ≤ m ∧ m ≤ rest.length := by
              intro m hm
              have := h4 m hm
              rw [hs.store, List.length_drop] at this
              omega
            have h5' : rest.all Option.isSome = true → l = [] := fun h => h5 (all_drop _ (hs.full h))
            rcases hs.handed with ⟨ha, hb⟩ | ⟨ha, hb, hc⟩
            · refine ⟨l, by rw [h3, ha], h4', h5', fun cells hc hl hd => h6 cells hc hl (all_append.mpr ⟨hd, hb n rfl hle⟩)⟩
            · refine ⟨rest.length :: l, by rw [h3, ha, List.append_assoc]; rfl, ?_, (fun h => by rw [h] at hc; cases hc), ?_⟩
              · intro m hm
                rcases List.mem_cons.mp hm with rfl | hm
                · exact ⟨hb, Nat.le_refl _⟩
                · exact h4' m hm
              · intro cells hcells hl hd
                rcases hl with hl | hl
                · cases hl
                · exact h6 cells hcells (Or.inr hl) (all_append.mpr ⟨hd, hs.honest hl n rfl hle⟩)
          · rw [if_neg hle]; exact hstop _

theorem readExact_seen (b : MemReader σ) (buf : List MemCell) :
    (b.readExact M buf).2.store.length = b.store.length ∧
    ∃ l, (b.readExact M buf).2.seen.handed = b.seen.handed ++ l ∧
      (∀ m ∈ l, b.store.length ≤ m ∧ m ≤ buf.length) ∧ (buf.all Option.isSome = true → l = []) ∧
      ((b.readExact M buf).2.seen.undefined = true → b.seen.undefined = true ∨ (l ≠ [] ∧ ¬ M.Honest)) := by
  unfold readExact
  split
  · exact ⟨rfl, [], (List.append_nil _).symm, nofun, fun _ => rfl, Or.inl⟩
  · obtain ⟨h1, h2, l, h3, h4, h5, h6⟩ := readExactLoop_seen (M := M) (buf.length + 1) [] buf b
    cases hr : b.readExactLoop M (buf.length + 1) [] buf with
    | mk r b' =>
    rw [hr] at h1 h2 h3 h6
    cases r with
    | error e => exact ⟨h1, l, h3, h4, h5, fun h => Or.inl (h2 ▸ h)⟩
    | ok cells =>
      dsimp only
      unfold Seen.use
      split
      · exact ⟨h1, l, h3, h4, h5, fun h => Or.inl (h2 ▸ h)⟩
      · rename_i hall
        refine ⟨h1, l, h3, h4, h5, fun _ => Or.inr ?_⟩
        constructor
        · intro hl; exact hall (h6 cells rfl (Or.inl hl) rfl)
        · intro hM; exact hall (h6 cells rfl (Or.inr hM) rfl)

theorem seekStart_seen (b : MemReader σ) (p : Nat) : (b.seekStart M p).2.store.length = b.store.length ∧
    (b.seekStart M p).2.seen.handed = b.seen.handed ∧ (b.seekStart M p).2.seen.undefined = b.seen.undefined := by
  unfold seekStart
  cases M.seekStart b.seen.str p with
  | mk r str => cases r <;> exact ⟨rfl, rfl, rfl⟩

theorem seekRelative_seen (b : MemReader σ) (o : Int) : (b.seekRelative M o).2.store.length = b.store.length ∧
    (b.seekRelative M o).2.seen.handed = b.seen.handed ∧ (b.seekRelative M o).2.seen.undefined = b.seen.undefined := by
  unfold seekRelative
  dsimp only
  split
  · exact ⟨rfl, rfl, rfl⟩
  · unfold seekCurrent
    dsimp only
    split
    · cases M.seekCurrent b.seen.str (o - ((b.filled : Int) - b.consumed)) with
      | mk r str => cases r <;> exact ⟨rfl, rfl, rfl⟩
    · cases M.seekCurrent b.seen.str (-((b.filled : Int) - b.consumed)) with
      | mk r str =>
      cases r with
      | some k => exact ⟨rfl, rfl, rfl⟩
      | none =>
        dsimp only
        cases M.seekCurrent str o with
        | mk r str => cases r <;> exact ⟨rfl, rfl, rfl⟩

/-- The buffers that the stream got from `old` on have at least the capacity, and are the ends of buffers with `P`; bytes
    that were never written have been used only if there was such a buffer and the stream is not honest. -/
def Kept (M : SafeStream σ) (P : Nat → Prop) (capacity : Nat) (old : List Nat) (s : Seen σ) : Prop :=
  ∃ l, s.handed = old ++ l ∧ (∀ m ∈ l, capacity ≤ m ∧ ∃ n, m ≤ n ∧ P n) ∧ (s.undefined = true → l ≠ [] ∧ ¬ M.Honest)

variable {P : Nat → Prop} {capacity : Nat} {old : List Nat}

theorem Kept.of_eq {s s' : Seen σ} (h : Kept M P capacity old s) (h1 : s'.handed = s.handed) (h2 : s'.undefined = s.undefined) :
    Kept M P capacity old s' := by
  obtain ⟨l, a, b, c⟩ := h
  exact ⟨l, h1.trans a, b, fun h => c (h2 ▸ h)⟩

theorem readExact_kept {b : MemReader σ} (hb : b.store.length = capacity) (h : Kept M P capacity old b.seen) {buf : List MemCell}
    (hP : P buf.length) :
    (b.readExact M buf).2.store.length = capacity ∧ Kept M P capacity old (b.readExact M buf).2.seen := by
  obtain ⟨h1, l, h2, h3, _, h4⟩ := readExact_seen (M := M) b buf
  obtain ⟨l', a, b', c⟩ := h
  refine ⟨h1.trans hb, l' ++ l, by rw [h2, a, List.append_assoc], ?_, ?_⟩
  · intro m hm
    rcases List.mem_append.mp hm with hm | hm
    · exact b' m hm
    · rw [← hb]; exact ⟨(h3 m hm).1, _, (h3 m hm).2, hP⟩
  · intro hu
    rcases h4 hu with hu | ⟨hu, hM⟩
    · exact ⟨fun h => (c hu).1 (List.append_eq_nil_iff.mp h).1, (c hu).2⟩
    · exact ⟨fun h => hu (List.append_eq_nil_iff.mp h).2, hM⟩

/-- a buffer that is initialised -/
theorem readExact_kept_full {b : MemReader σ} (h : Kept M P capacity old b.seen) {buf : List MemCell}
    (hf : buf.all Option.isSome = true) : Kept M P capacity old (b.readExact M buf).2.seen := by
  obtain ⟨h1, l, h2, h3, h5, h4⟩ := readExact_seen (M := M) b buf
  have := h5 hf
  subst this
  rw [List.append_nil] at h2
  obtain ⟨l', a, b', c⟩ := h
  refine ⟨l', h2.trans a, b', fun hu => ?_⟩
  rcases h4 hu with hu | ⟨hu, _⟩
  · exact c hu
  · exact absurd rfl hu

theorem run_kept {α : Type} {x : Act α} (hx : x.Asks P) : ∀ b : MemReader σ, b.store.length = capacity →
    Kept M P capacity old b.seen → Kept M P capacity old (b.run M x).2.seen := by
  induction x with
  | ret a => intro b _ h; exact h
  | stop e => intro b _ h; exact h
  | exact n next ih =>
    intro b hb h
    unfold run
    obtain ⟨h1, h2⟩ := readExact_kept (M := M) hb h (buf := List.replicate n none) (by rw [List.length_replicate]; exact hx.1)
    cases hr : b.readExact M (List.replicate n none) with
    | mk r b' =>
    rw [hr] at h1 h2
    cases r with
    | error e => exact h2
    | ok bs => exact ih bs (hx.2 bs) b' h1 h2
  | move o next ih =>
    intro b hb h
    unfold run
    obtain ⟨h1, h2, h3⟩ := seekRelative_seen (M := M) b o
    cases hr : b.seekRelative M o with
    | mk r b' =>
    rw [hr] at h1 h2 h3
    cases r with
    | some e => exact h.of_eq h2 h3
    | none => exact ih hx b' (h1.trans hb) (h.of_eq h2 h3)

theorem runProg_kept {τ α : Type} {x : Prog τ α} (hx : x.Asks P) : ∀ b : MemReader σ, b.store.length = capacity →
    Kept M P capacity old b.seen → Kept M P capacity old (b.runProg M x).2.seen := by
  induction x with
  | ret a => intro b _ h; exact h
  | stop e => intro b _ h; exact h
  | exact n next ih =>
    intro b hb h
    unfold runProg
    obtain ⟨h1, h2⟩ := readExact_kept (M := M) hb h (buf := List.replicate n none) (by rw [List.length_replicate]; exact hx.1)
    cases hr : b.readExact M (List.replicate n none) with
    | mk r b' =>
    rw [hr] at h1 h2
    cases r with
    | error e => exact h2
    | ok bs => exact ih bs (hx.2 bs) b' h1 h2
  | move o next ih =>
    intro b hb h
    unfold runProg
    obtain ⟨h1, h2, h3⟩ := seekRelative_seen (M := M) b o
    cases hr : b.seekRelative M o with
    | mk r b' =>
    rw [hr] at h1 h2 h3
    cases r with
    | some e => exact h.of_eq h2 h3
    | none => exact ih hx b' (h1.trans hb) (h.of_eq h2 h3)
  | store s next ih => intro b hb h; exact ih hx b hb h

end MemReader

namespace SafeStream
variable {σ : Type} {M : SafeStream σ} {P : Nat → Prop} {capacity : Nat} {old : List Nat} {al : Alloc}

theorem runner_kept {α : Type} : Runner.Preserves P (MemReader.Kept M P capacity old) (M.runner capacity : Runner (Seen σ) α) := by
  intro start a s ha h
  unfold SafeStream.runner
  obtain ⟨h1, h2, h3⟩ := MemReader.seekStart_seen (M := M) (MemReader.new capacity s) start
  cases hr : (MemReader.new capacity s).seekStart M start with
  | mk r b =>
  rw [hr] at h1 h2 h3
  cases r with
  | some k => exact h.of_eq h2 h3
  | none => exact MemReader.runProg_kept ha b (h1.trans List.length_replicate) (h.of_eq h2 h3)

theorem readSegment_kept (hP : ∀ n, n ≤ 16 → P n) (hal : ∀ n, al (.str n) = true → P n) {s : Seen σ}
    (h : MemReader.Kept M P capacity old s) : MemReader.Kept M P capacity old (M.readSegment al capacity s).2 := by
  unfold SafeStream.readSegment
  have h1 := MemReader.readExact_kept_full (M := M) (b := MemReader.new 0 s) h (buf := List.replicate 4 (some 0)) rfl
  cases hr : (MemReader.new 0 s).readExact M (List.replicate 4 (some 0)) with
  | mk r b =>
  rw [hr] at h1
  cases r with
  | error e =>
    cases e with
    | err x =>
      cases x with
      | ioError k => cases k <;> exact h1
      | _ => exact h1
    | _ => exact h1
  | ok tag =>
    dsimp only
    split
    · exact h1
    · have h2 := MemReader.readExact_kept_full (M := M) (b := b) h1 (buf := List.replicate 4 (some 0)) rfl
      cases hr2 : b.readExact M (List.replicate 4 (some 0)) with
      | mk r b =>
      rw [hr2] at h2
      cases r with
      | error e => exact h2
      | ok buf => exact MemReader.run_kept (Act.Asks.segment hP hal _ _) _ List.length_replicate h2

theorem openLoop_kept (hP : ∀ n, n ≤ 16 → P n) (hal : ∀ n, al (.str n) = true → P n) : ∀ (fuel : Nat) (ix : Index) (s : Seen σ),
    MemReader.Kept M P capacity old s → MemReader.Kept M P capacity old (M.openLoop al capacity fuel ix s).2 := by
  intro fuel
  induction fuel with
  | zero => intro ix s h; exact h
  | succ fuel ih =>
    intro ix s h
    unfold SafeStream.openLoop
    have h1 := readSegment_kept (M := M) (capacity := capacity) hP hal h
    cases hr : M.readSegment al capacity s with
    | mk r s' =>
    rw [hr] at h1
    cases r with
    | error e =>
      cases e with
      | err x => cases x <;> exact h1
      | _ => exact h1
    | ok seg =>
      dsimp only
      cases ix.addSegment seg with
      | mk r ix' =>
      cases r with
      | error e => exact h1
      | ok next =>
        dsimp only
        cases M.seekStart s'.str next with
        | mk r str =>
        cases r with
        | some k => exact h1
        | none => exact ih ix' _ (h1.of_eq rfl rfl)

theorem buildIndex_kept (hP : ∀ n, n ≤ 16 → P n) (hal : ∀ n, al (.str n) = true → P n) {s : Seen σ}
    (h : MemReader.Kept M P capacity old s) : MemReader.Kept M P capacity old (M.buildIndex al capacity s).2 := by
  unfold SafeStream.buildIndex
  cases M.seekStart s.str 0 with
  | mk r str =>
  cases r with
  | some k => exact h
  | none => exact openLoop_kept hP hal _ _ _ (h.of_eq rfl rfl)

end SafeStream

end Tedium
