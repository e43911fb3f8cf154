import Verif.Proofs.Mono

/-!
# What a read returns is final, unless the file was too short

A read that does not fail with `UnexpectedEof` gives the same result, value or error, when bytes are appended to the file. -/

namespace Tedium

/-- The error at the end of the file. -/
abbrev tooShort {α : Type} : R α := R.err (.ioError .unexpectedEof)

/-- More bytes at the end do not change the result, unless it is that the file is too short. -/
def Rd.Steady {α : Type} (x : Rd α) : Prop := ∀ f g p, x f p ≠ tooShort → x (f ++ g) p = x f p

theorem Rd.Steady.pure {α : Type} (a : α) : Rd.Steady (Pure.pure a : Rd α) := fun _ _ _ _ => rfl

theorem Rd.Steady.pure' {α : Type} (a : α) : Rd.Steady (Rd.pure a) := fun _ _ _ _ => rfl

theorem Rd.Steady.bind {α β : Type} {x : Rd α} {k : α → Rd β} (hx : x.Steady) (hk : ∀ a, (k a).Steady) :
    Rd.Steady (x >>= k) := by
  intro f g p h
  rw [Rd.bind_eq] at h ⊢
  rw [Rd.bind_eq]
  cases h1 : x f p with
  | error e =>
    rw [h1] at h
    have hne : x f p ≠ tooShort := by
      intro he
      rw [h1] at he
      cases he
      exact h rfl
    rw [hx f g p hne, h1]
  | ok r =>
    obtain ⟨a, p'⟩ := r
    rw [h1] at h
    rw [hx f g p (by rw [h1]; nofun), h1]
    exact hk a f g p' h

theorem Rd.Steady.lift {α : Type} (x : R α) : Rd.Steady (Rd.lift x) := fun _ _ _ _ => rfl

theorem Rd.Steady.move (off : Int) : Rd.Steady (Rd.move off) := fun _ _ _ _ => rfl

theorem Rd.Steady.seek (pos : Nat) : Rd.Steady (Rd.seek pos) := fun _ _ _ _ => rfl

theorem Rd.Steady.fail {α : Type} (e : TdmsError) : Rd.Steady (Rd.fail e : Rd α) := fun _ _ _ _ => rfl

theorem Rd.Steady.exact (n : Nat) : Rd.Steady (Rd.exact n) := by
  intro f g p h
  cases hx : Rd.exact n f p with
  | ok r => exact Rd.Mono.exact n f g p r.1 r.2 hx
  | error e =>
    rw [hx] at h
    unfold Rd.exact at hx
    split at hx <;> cases hx
    exact absurd rfl h

theorem Rd.Steady.ite {α : Type} {c : Prop} [Decidable c] {x y : Rd α} (hx : x.Steady) (hy : y.Steady) :
    Rd.Steady (if c then x else y) := by
  split
  · exact hx
  · exact hy

theorem Rd.Steady.uint (e : Endian) (w : Nat) : Rd.Steady (Rd.uint e w) :=
  (Rd.Steady.exact w).bind (fun _ => .pure _)

theorem STy.steady (al : Alloc) (t : STy) (e : Endian) : Rd.Steady ((t.storage al).read e) := by
  have hnum : ∀ w n s, Rd.Steady ((numeric w n s).read e) := fun w n s =>
    (Rd.Steady.exact w).bind (fun _ => .pure _)
  cases t <;> first
    | exact hnum _ _ _
    | exact (hnum _ _ _).bind (fun _ => (hnum _ _ _).bind (fun _ => .pure _))
    | exact (Rd.Steady.exact _).bind (fun _ => .pure _)
    | skip
  · -- extended
    refine (Rd.Steady.exact 10).bind (fun b => ?_)
    cases e <;> exact .pure _
  · -- string
    refine (Rd.Steady.uint e 4).bind (fun n => ?_)
    unfold readStringWithLength
    refine Rd.Steady.ite ((Rd.Steady.exact n).bind (fun b => ?_)) (.fail _)
    cases utf8Dec b with
    | none => exact .fail _
    | some t => exact .pure _

section
variable {α : Type} {S : Storage α} (hS : ∀ e, Rd.Steady (S.read e))
include hS

theorem readValues_steady (e : Endian) : ∀ (n : Nat) (it : OutIter α), Rd.Steady (readValues S e n it) := by
  intro n
  induction n with
  | zero => intro it; exact .pure' _
  | succ n ih =>
    intro it
    unfold readValues
    split
    · exact .pure' _
    · exact (hS e).bind (fun v => (ih _).bind (fun _ => .pure _))

theorem readSequential_steady (e : Endian) (out : OutIter α) (n : Nat) : Rd.Steady (readSequential S e out n) := by
  unfold readSequential
  refine (readValues_steady hS e n out).bind (fun r => ?_)
  obtain ⟨length, out⟩ := r
  dsimp only
  refine Rd.Steady.ite ?_ (.pure _)
  exact (Rd.Steady.lift _).bind (fun _ => (Rd.Steady.move _).bind (fun _ => .pure _))

theorem readSubBlock_steady (e : Endian) : ∀ (plan : List (RecordEntry α)) (length : Nat),
    Rd.Steady (readSubBlock S e length plan) := by
  intro plan
  induction plan with
  | nil => intro length; exact .pure' _
  | cons en rest ih =>
    intro length
    unfold readSubBlock
    split
    · refine Rd.Steady.ite ((Rd.Steady.lift _).bind (fun _ => (Rd.Steady.move _).bind (fun _ => ?_))) ?_
      all_goals
        exact (readSequential_steady hS e _ _).bind (fun _ => (ih _).bind (fun _ => .pure _))
    · exact (Rd.Steady.lift _).bind (fun _ => (Rd.Steady.move _).bind (fun _ => (ih _).bind (fun _ => .pure _)))

theorem contigLoop_steady (e : Endian) (bs toSkip remainder : Nat) : ∀ (n idx : Nat) (plan : List (RecordEntry α))
    (length : Nat), Rd.Steady (contigLoop S e bs toSkip remainder n idx plan length) := by
  intro n
  induction n with
  | zero => intro idx plan length; exact .pure' _
  | succ n ih =>
    intro idx plan length
    unfold contigLoop
    refine Rd.Steady.ite ((Rd.Steady.move _).bind (fun _ => ih _ _ _)) (Rd.Steady.ite ?_ ?_)
    all_goals exact (readSubBlock_steady hS e _ _).bind (fun _ => ih _ _ _)

theorem contigReadFrom_steady (e : Endian) (start size : Nat) (plan : List (RecordEntry α)) (k : Nat) :
    Rd.Steady (contigReadFrom S e start size plan k) :=
  (Rd.Steady.seek _).bind (fun _ => (Rd.Steady.lift _).bind (fun _ => (Rd.Steady.lift _).bind (fun _ =>
    (Rd.Steady.lift _).bind (fun _ => (Rd.Steady.lift _).bind (fun _ => contigLoop_steady hS e _ _ _ _ _ _ _)))))

theorem contigSkipLoop_steady (e : Endian) (bs : Nat) (toSkip rem : List Nat) : ∀ (n idx : Nat)
    (plan : List (RecordEntry α)) (length : Nat), Rd.Steady (contigSkipLoop S e bs toSkip rem n idx plan length) := by
  intro n
  induction n with
  | zero => intro idx plan length; exact .pure' _
  | succ n ih =>
    intro idx plan length
    unfold contigSkipLoop
    exact Rd.Steady.ite ((readSubBlock_steady hS e _ _).bind (fun _ => ih _ _ _))
      ((Rd.Steady.move _).bind (fun _ => ih _ _ _))

theorem contigReadSkip_steady (e : Endian) (start size : Nat) (plan : List (RecordEntry α)) (ks : List Nat) :
    Rd.Steady (contigReadSkip S e start size plan ks) :=
  (Rd.Steady.seek _).bind (fun _ => (Rd.Steady.lift _).bind (fun _ => (Rd.Steady.lift _).bind (fun _ =>
    (Rd.Steady.lift _).bind (fun _ => (Rd.Steady.lift _).bind (fun _ => contigSkipLoop_steady hS e _ _ _ _ _ _ _)))))

theorem readRow_steady (e : Endian) (row : Nat) : ∀ (plan : List (RecordEntry α)) (any : Bool),
    Rd.Steady (readRow S e row any plan) := by
  intro plan
  induction plan with
  | nil => intro any; exact .pure' _
  | cons en rest ih =>
    intro any
    unfold readRow
    split
    · exact (hS e).bind (fun v => (ih _).bind (fun _ => .pure _))
    · exact (Rd.Steady.move _).bind (fun _ => (ih _).bind (fun _ => .pure _))

theorem interLoop_steady (e : Endian) : ∀ (n row : Nat) (plan : List (RecordEntry α)) (k : Nat),
    Rd.Steady (interLoop S e n row plan k) := by
  intro n
  induction n with
  | zero => intro row plan k; exact .pure' _
  | succ n ih =>
    intro row plan k
    unfold interLoop
    exact (readRow_steady hS e _ _ _).bind (fun _ => Rd.Steady.ite (ih _ _ _) (.pure _))

theorem interRead_steady (e : Endian) (start size : Nat) (plan : List (RecordEntry α)) :
    Rd.Steady (interRead S e start size plan) := by
  unfold interRead
  refine (Rd.Steady.seek _).bind (fun _ => (Rd.Steady.lift _).bind (fun _ => ?_))
  refine Rd.Steady.ite ((Rd.Steady.lift _).bind (fun _ => (Rd.Steady.move _).bind (fun _ => ?_))) ?_
  all_goals exact interLoop_steady hS e _ _ _ _

theorem DataBlock.read_steady {f : Bytes} (g : Bytes) {b : DataBlock} {reqs : List (ChannelRequest α)} :
    (b.read S f reqs ≠ tooShort → b.read S (f ++ g) reqs = b.read S f reqs) ∧
    (b.readWithSkip S f reqs ≠ tooShort → b.readWithSkip S (f ++ g) reqs = b.readWithSkip S f reqs) := by
  have key : ∀ (x : Rd (Nat × List (RecordEntry α))), x.Steady → ((x f 0 >>= fun r => Pure.pure r.1) : R _) ≠ tooShort →
      ((x (f ++ g) 0 >>= fun r => Pure.pure r.1) : R _) = (x f 0 >>= fun r => Pure.pure r.1) := by
    intro x hx h
    rw [hx f g 0]
    intro he
    rw [he] at h
    exact h rfl
  constructor
  · intro h
    unfold DataBlock.read at h ⊢
    cases hp : buildRecordPlan S b.channels reqs with
    | error e => rfl
    | ok plan =>
      rw [hp] at h
      revert h
      cases b.layout <;> intro h
      · exact key _ (interRead_steady hS _ _ _ _) h
      · exact key _ (contigReadFrom_steady hS _ _ _ _ _) h
  · intro h
    unfold DataBlock.readWithSkip at h ⊢
    cases hp : buildRecordPlan S b.channels reqs with
    | error e => rfl
    | ok plan =>
      rw [hp] at h
      revert h
      cases b.layout <;> intro h
      · exact key _ (interRead_steady hS _ _ _ _) h
      · exact key _ (contigReadSkip_steady hS _ _ _ _ _) h

theorem executeBlock_steady (ix : Index) (f g : Bytes) (loc : BlockRead) (ps : List (Progress α))
    (h : executeBlock S ⟨ix, f⟩ loc ps ≠ tooShort) : executeBlock S ⟨ix, f ++ g⟩ loc ps = executeBlock S ⟨ix, f⟩ loc ps := by
  unfold executeBlock at h ⊢
  dsimp only at h ⊢
  cases hb : ix.getDataBlock loc.dataBlock with
  | none => rfl
  | some b =>
    rw [hb] at h
    dsimp only at h ⊢
    generalize hany : List.any loc.channelIndexes _ = anySkip at h ⊢
    have hm := DataBlock.read_steady hS (f := f) g (b := b) (reqs := blockRequests 0 loc.channelIndexes ps)
    cases anySkip
    · rw [if_neg Bool.false_ne_true, if_neg Bool.false_ne_true]
      rw [if_neg Bool.false_ne_true] at h
      rw [hm.1]
      intro he
      rw [he] at h
      exact h rfl
    · rw [if_pos rfl, if_pos rfl]
      rw [if_pos rfl] at h
      rw [hm.2]
      intro he
      rw [he] at h
      exact h rfl

theorem executePlan_steady (ix : Index) (f g : Bytes) : ∀ (plan : List BlockRead) (ps : List (Progress α)),
    executePlan S ⟨ix, f⟩ plan ps ≠ tooShort → executePlan S ⟨ix, f ++ g⟩ plan ps = executePlan S ⟨ix, f⟩ plan ps := by
  intro plan
  induction plan with
  | nil => intro ps _; rfl
  | cons loc locs ih =>
    intro ps h
    unfold executePlan at h ⊢
    have hne : executeBlock S ⟨ix, f⟩ loc ps ≠ tooShort := by
      intro he
      rw [he] at h
      exact h rfl
    rw [executeBlock_steady hS ix f g loc ps hne]
    cases hb : executeBlock S ⟨ix, f⟩ loc ps with
    | error e => rfl
    | ok ps' =>
      rw [hb] at h
      dsimp only at h ⊢
      split
      · rfl
      · rename_i hc
        rw [if_neg hc] at h
        exact ih ps' h

theorem readChannelsFrom_steady (ix : Index) (f g : Bytes) (cs : List ChannelPath) (start : Nat) (outs : List (List α))
    (h : TdmsFile.readChannelsFrom S ⟨ix, f⟩ cs start outs ≠ tooShort) :
    TdmsFile.readChannelsFrom S ⟨ix, f ++ g⟩ cs start outs = TdmsFile.readChannelsFrom S ⟨ix, f⟩ cs start outs := by
  unfold TdmsFile.readChannelsFrom at h ⊢
  rw [lookupPositions_congr (t := ⟨ix, f⟩) (t' := ⟨ix, f ++ g⟩) (fun _ _ => rfl)]
  cases h1 : TdmsFile.lookupPositions ⟨ix, f⟩ cs with
  | error e => rfl
  | ok pos =>
    rw [h1] at h
    revert h
    show (readPlan pos start >>= _) ≠ _ → (readPlan pos start >>= _) = (readPlan pos start >>= _)
    cases h2 : readPlan pos start with
    | error e => intro _; rfl
    | ok plan =>
      show (executePlan S ⟨ix, f⟩ plan _ >>= _) ≠ _ → (executePlan S ⟨ix, f ++ g⟩ plan _ >>= _) = (executePlan S ⟨ix, f⟩ plan _ >>= _)
      intro h
      rw [executePlan_steady hS]
      intro he
      rw [he] at h
      exact h rfl

theorem readChannelFrom_steady (ix : Index) (f g : Bytes) (c : ChannelPath) (start : Nat) (out : List α)
    (h : TdmsFile.readChannelFrom S ⟨ix, f⟩ c start out ≠ tooShort) :
    TdmsFile.readChannelFrom S ⟨ix, f ++ g⟩ c start out = TdmsFile.readChannelFrom S ⟨ix, f⟩ c start out := by
  unfold TdmsFile.readChannelFrom at h ⊢
  dsimp only at h ⊢
  cases hp : ix.getChannelDataPositions c with
  | none => rfl
  | some ls =>
    rw [hp] at h
    dsimp only at h ⊢
    cases h2 : readPlan [ls] start with
    | error e => rfl
    | ok plan =>
      rw [h2] at h
      revert h
      show (executePlan S ⟨ix, f⟩ plan _ >>= _) ≠ _ → (executePlan S ⟨ix, f ++ g⟩ plan _ >>= _) = (executePlan S ⟨ix, f⟩ plan _ >>= _)
      intro h
      rw [executePlan_steady hS]
      intro he
      rw [he] at h
      exact h rfl

end
end Tedium
