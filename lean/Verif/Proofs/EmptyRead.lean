import Verif.Proofs.WrongType

/-!
# Reading into an empty buffer

Nothing is read, so that the type of the samples that are asked for does not matter: the plans consist of entries to skip.
-/

namespace Tedium

section
variable {α β : Type}

/-- A plan that reads nothing: for each channel the number of values and the bytes of a value. -/
def skipPlan (ss : List (Nat × Nat)) : List (RecordEntry α) := ss.map fun s => ⟨s.1, .skip s.2⟩

theorem skipPlan_cons (s : Nat × Nat) (ss : List (Nat × Nat)) :
    skipPlan (α := α) (s :: ss) = ⟨s.1, .skip s.2⟩ :: skipPlan ss := rfl

theorem baseRecord_skipPlan (chs : List RawDataMeta) :
    baseRecord (α := α) chs = skipPlan (chs.map fun c => (c.numberOfValues, c.dataType.size)) := by
  unfold baseRecord skipPlan
  rw [List.map_map]
  rfl

theorem mapSkips_skipPlan (g : Nat → Nat) (ss : List (Nat × Nat)) : mapSkips g (skipPlan (α := α) ss) = skipPlan ss := by
  unfold mapSkips skipPlan
  rw [List.map_map]
  rfl

theorem setSkips_skipPlan (ks : List Nat) (ss : List (Nat × Nat)) : setSkips ks (skipPlan (α := α) ss) = skipPlan ss := by
  induction ss with
  | nil => cases ks <;> rfl
  | cons s ss ih =>
    cases ks with
    | nil => rfl
    | cons k ks => exact congrArg _ ih

theorem rowSize_skipPlan (S : Storage α) (ss : List (Nat × Nat)) : rowSize S (skipPlan ss) = (ss.map (·.2)).sum := by
  unfold rowSize skipPlan
  rw [List.map_map]
  rfl

theorem blockSize_skipPlan (S : Storage α) (S' : Storage β) (ss : List (Nat × Nat)) :
    blockSize S (skipPlan ss) = blockSize S' (skipPlan ss) := by
  unfold blockSize skipPlan
  rw [List.map_map, List.map_map]
  rfl

theorem firstLength_skipPlan (ss : List (Nat × Nat)) :
    firstLength (skipPlan (α := α) ss) = firstLength (skipPlan (α := β) ss) := by
  cases ss <;> rfl

theorem planOutputs_skipPlan (ss : List (Nat × Nat)) : planOutputs (skipPlan (α := α) ss) = [] := by
  induction ss with
  | nil => rfl
  | cons s ss ih => exact ih

/-- Two readers do the same on a plan that reads nothing: they fail alike, or return the same number and leave the plan. -/
def EndsAlike (ss : List (Nat × Nat)) (x : Rd (Nat × List (RecordEntry α))) (y : Rd (Nat × List (RecordEntry β))) : Prop :=
  ∀ f p, (∃ n q, x f p = .ok ((n, skipPlan ss), q) ∧ y f p = .ok ((n, skipPlan ss), q)) ∨
    ∃ e, x f p = .error e ∧ y f p = .error e

namespace EndsAlike
variable {ss : List (Nat × Nat)} {γ : Type}

/-- The same step before. -/
theorem before (a : Rd γ) {x : γ → Rd (Nat × List (RecordEntry α))} {y : γ → Rd (Nat × List (RecordEntry β))}
    (h : ∀ v, EndsAlike ss (x v) (y v)) : EndsAlike ss (a >>= x) (a >>= y) := by
  intro f p
  rw [Rd.bind_eq, Rd.bind_eq]
  cases ha : a f p with
  | error e => exact Or.inr ⟨e, rfl, rfl⟩
  | ok r => exact h r.1 f r.2

/-- More after. -/
theorem after {x : Rd (Nat × List (RecordEntry α))} {y : Rd (Nat × List (RecordEntry β))} {ss' : List (Nat × Nat)}
    (h : EndsAlike ss' x y) {x' : Nat × List (RecordEntry α) → Rd (Nat × List (RecordEntry α))}
    {y' : Nat × List (RecordEntry β) → Rd (Nat × List (RecordEntry β))}
    (h' : ∀ n, EndsAlike ss (x' (n, skipPlan ss')) (y' (n, skipPlan ss'))) : EndsAlike ss (x >>= x') (y >>= y') := by
  intro f p
  rw [Rd.bind_eq, Rd.bind_eq]
  rcases h f p with ⟨n, q, h1, h2⟩ | ⟨e, h1, h2⟩
  · rw [h1, h2]; exact h' n f q
  · rw [h1, h2]; exact Or.inr ⟨e, rfl, rfl⟩

theorem pure (n : Nat) : EndsAlike ss (Rd.pure (n, skipPlan (α := α) ss)) (Rd.pure (n, skipPlan (α := β) ss)) :=
  fun _ p => Or.inl ⟨n, p, rfl, rfl⟩

theorem ite {c : Prop} [Decidable c] {x x' : Rd (Nat × List (RecordEntry α))} {y y' : Rd (Nat × List (RecordEntry β))}
    (h : EndsAlike ss x y) (h' : EndsAlike ss x' y') : EndsAlike ss (if c then x else x') (if c then y else y') := by
  split
  · exact h
  · exact h'

end EndsAlike

variable (S : Storage α) (S' : Storage β) (ss : List (Nat × Nat))

theorem readSubBlock_alike (e : Endian) : ∀ (ss : List (Nat × Nat)) (n : Nat),
    EndsAlike ss (readSubBlock S e n (skipPlan ss)) (readSubBlock S' e n (skipPlan ss)) := by
  intro ss
  induction ss with
  | nil => exact fun n => .pure n
  | cons s ss ih =>
    intro n
    rw [skipPlan_cons, skipPlan_cons]
    unfold readSubBlock
    dsimp only
    exact .before _ fun _ => .before _ fun _ => .after (ih n) fun n => .pure (ss := s :: ss) n

theorem contigLoop_alike (e : Endian) (bs toSkip remainder : Nat) : ∀ (k idx length : Nat),
    EndsAlike ss (contigLoop S e bs toSkip remainder k idx (skipPlan ss) length)
      (contigLoop S' e bs toSkip remainder k idx (skipPlan ss) length) := by
  intro k
  induction k with
  | zero => exact fun _ length => .pure length
  | succ k ih =>
    intro idx length
    unfold contigLoop
    rw [mapSkips_skipPlan, mapSkips_skipPlan, mapSkips_skipPlan, mapSkips_skipPlan]
    exact .ite (.before _ fun _ => ih _ _) (.ite (.after (readSubBlock_alike S S' e ss 0) fun n => ih _ _)
      (.after (readSubBlock_alike S S' e ss 0) fun n => ih _ _))

theorem contigSkipLoop_alike (e : Endian) (bs : Nat) (toSkip rem : List Nat) : ∀ (k idx length : Nat),
    EndsAlike ss (contigSkipLoop S e bs toSkip rem k idx (skipPlan ss) length)
      (contigSkipLoop S' e bs toSkip rem k idx (skipPlan ss) length) := by
  intro k
  induction k with
  | zero => exact fun _ length => .pure length
  | succ k ih =>
    intro idx length
    unfold contigSkipLoop
    dsimp only
    rw [setSkips_skipPlan, setSkips_skipPlan]
    exact .ite (.after (readSubBlock_alike S S' e ss 0) fun n => ih _ _) (.before _ fun _ => ih _ _)

theorem contigReadFrom_alike (e : Endian) (start size startSample : Nat) :
    EndsAlike ss (contigReadFrom S e start size (skipPlan ss) startSample)
      (contigReadFrom S' e start size (skipPlan ss) startSample) := by
  unfold contigReadFrom
  rw [blockSize_skipPlan S S', firstLength_skipPlan (α := α) (β := β)]
  exact .before _ fun _ => .before _ fun _ => .before _ fun _ => .before _ fun _ => .before _ fun _ =>
    contigLoop_alike S S' ss _ _ _ _ _ _ _

theorem contigReadSkip_alike (e : Endian) (start size : Nat) (skips : List Nat) :
    EndsAlike ss (contigReadSkip S e start size (skipPlan ss) skips) (contigReadSkip S' e start size (skipPlan ss) skips) := by
  unfold contigReadSkip
  rw [blockSize_skipPlan S S', firstLength_skipPlan (α := α) (β := β)]
  exact .before _ fun _ => .before _ fun _ => .before _ fun _ => .before _ fun _ => .before _ fun _ =>
    contigSkipLoop_alike S S' ss _ _ _ _ _ _ _

/-- A row in which nothing is read. -/
theorem readRow_alike (e : Endian) (row : Nat) (any : Bool) : ∀ (ss : List (Nat × Nat)) (f : Bytes) (p : Nat),
    (∃ q, readRow S e row any (skipPlan ss) f p = .ok ((any, skipPlan ss), q) ∧
      readRow S' e row any (skipPlan ss) f p = .ok ((any, skipPlan ss), q)) ∨
    ∃ x, readRow S e row any (skipPlan ss) f p = .error x ∧ readRow S' e row any (skipPlan ss) f p = .error x := by
  intro ss
  induction ss with
  | nil => exact fun f p => Or.inl ⟨p, rfl, rfl⟩
  | cons s ss ih =>
    intro f p
    rw [skipPlan_cons, skipPlan_cons]
    unfold readRow
    dsimp only
    rw [Rd.bind_eq, Rd.bind_eq]
    cases hm : Rd.move (s.2 : Int) f p with
    | error x => exact Or.inr ⟨x, rfl, rfl⟩
    | ok r =>
      dsimp only
      rw [Rd.bind_eq, Rd.bind_eq]
      rcases ih f r.2 with ⟨q, h1, h2⟩ | ⟨x, h1, h2⟩
      · rw [h1, h2]; exact Or.inl ⟨q, rfl, rfl⟩
      · rw [h1, h2]; exact Or.inr ⟨x, rfl, rfl⟩

theorem interLoop_alike (e : Endian) (k row n : Nat) :
    EndsAlike ss (interLoop S e k row (skipPlan ss) n) (interLoop S' e k row (skipPlan ss) n) := by
  cases k with
  | zero => exact .pure n
  | succ k =>
    intro f p
    unfold interLoop
    rw [Rd.bind_eq, Rd.bind_eq]
    rcases readRow_alike S S' e row false ss f p with ⟨q, h1, h2⟩ | ⟨x, h1, h2⟩
    · rw [h1, h2]; exact Or.inl ⟨n, q, rfl, rfl⟩
    · rw [h1, h2]; exact Or.inr ⟨x, rfl, rfl⟩

theorem blockSkips_skipPlan : blockSkips (skipPlan (α := α) ss) = [] := by
  induction ss with
  | nil => rfl
  | cons s ss ih => exact ih

theorem interRead_alike (e : Endian) (start size : Nat) :
    EndsAlike ss (interRead S e start size (skipPlan ss)) (interRead S' e start size (skipPlan ss)) := by
  unfold interRead
  rw [rowSize_skipPlan, rowSize_skipPlan, blockSkips_skipPlan, blockSkips_skipPlan]
  dsimp only
  rw [mapSkips_skipPlan, mapSkips_skipPlan]
  exact .before _ fun _ => .before _ fun _ => interLoop_alike S S' ss _ _ _ _

/-- Reading a block for no buffer does not depend on the type that is asked for. -/
theorem read_alike (f : Bytes) (b : DataBlock) :
    ((∃ n ss, b.read S f [] = .ok (n, skipPlan ss) ∧ b.read S' f [] = .ok (n, skipPlan ss)) ∨
      ∃ e, b.read S f [] = .error e ∧ b.read S' f [] = .error e) ∧
    ((∃ n ss, b.readWithSkip S f [] = .ok (n, skipPlan ss) ∧ b.readWithSkip S' f [] = .ok (n, skipPlan ss)) ∨
      ∃ e, b.readWithSkip S f [] = .error e ∧ b.readWithSkip S' f [] = .error e) := by
  have hp : ∀ {γ : Type} (T : Storage γ), buildRecordPlan T b.channels []
      = .ok (skipPlan (b.channels.map fun c => (c.numberOfValues, c.dataType.size))) := fun T => by
    rw [← baseRecord_skipPlan]; rfl
  unfold DataBlock.read DataBlock.readWithSkip
  rw [hp, hp]
  generalize b.channels.map (fun c => (c.numberOfValues, c.dataType.size)) = ss
  have key : ∀ {x : Rd (Nat × List (RecordEntry α))} {y : Rd (Nat × List (RecordEntry β))}, EndsAlike ss x y →
      (∃ n ss, (x f 0 >>= fun r => (Pure.pure r.1 : R _)) = .ok (n, skipPlan ss) ∧
        (y f 0 >>= fun r => (Pure.pure r.1 : R _)) = .ok (n, skipPlan ss)) ∨
      ∃ e, (x f 0 >>= fun r => (Pure.pure r.1 : R _)) = .error e ∧ (y f 0 >>= fun r => (Pure.pure r.1 : R _)) = .error e := by
    intro x y h
    rcases h f 0 with ⟨n, q, h1, h2⟩ | ⟨e, h1, h2⟩
    · rw [h1, h2]; exact Or.inl ⟨n, ss, rfl, rfl⟩
    · rw [h1, h2]; exact Or.inr ⟨e, rfl, rfl⟩
  cases b.layout with
  | contigious => exact ⟨key (contigReadFrom_alike S S' ss _ _ _ _), key (contigReadSkip_alike S S' ss _ _ _ _)⟩
  | interleaved =>
    refine ⟨key (interRead_alike S S' ss _ _ _), ?_⟩
    dsimp only [Bind.bind, Except.bind]
    rw [setSkips_skipPlan, setSkips_skipPlan]
    exact key (interRead_alike S S' ss b.byteOrder b.start b.length)

theorem blockRequests_complete : ∀ (plans : List (Option ChannelReadPlan)) (ps : List (Progress α)) (k : Nat),
    (∀ p ∈ ps, p.isComplete = true) → blockRequests k plans ps = [] := by
  intro plans
  induction plans with
  | nil => intro ps k _; unfold blockRequests; rfl
  | cons x plans ih =>
    intro ps k h
    cases ps with
    | nil => cases x <;> (unfold blockRequests; rfl)
    | cons p ps =>
      have hr := ih ps (k + 1) (fun q hq => h q (List.mem_cons_of_mem _ hq))
      cases x with
      | none => unfold blockRequests; exact hr
      | some pl =>
        unfold blockRequests
        rw [if_pos (h p List.mem_cons_self)]
        exact hr

theorem storeOutputs_nil : ∀ (ps : List (Progress α)) (k : Nat), storeOutputs [] k ps = ps := by
  intro ps
  induction ps with
  | nil => intro k; rfl
  | cons p ps ih => intro k; unfold storeOutputs; rw [ih]; rfl

/-- What a block that was read makes of an empty buffer. -/
def afterRead {γ : Type} (loc : BlockRead) (r : R (Nat × List (RecordEntry γ))) : R (List (Progress γ)) :=
  match r with
  | .error e => .error e
  | .ok (n, plan) => .ok (addSamples n loc.channelIndexes (storeOutputs (planOutputs plan) 0 [⟨[], 0⟩]))

/-- A block that is read into an empty buffer. -/
theorem executeBlock_no_room (t : TdmsFile) (loc : BlockRead) :
    ((∃ n, executeBlock S t loc [⟨[], 0⟩] = .ok [⟨[], n⟩]) ∧ ∃ n, executeBlock S' t loc [⟨[], 0⟩] = .ok [⟨[], n⟩]) ∨
    ∃ e, executeBlock S t loc [⟨[], 0⟩] = .error e ∧ executeBlock S' t loc [⟨[], 0⟩] = .error e := by
  have hadd : ∀ {γ : Type} (n : Nat), ∃ k, addSamples n loc.channelIndexes [(⟨[], 0⟩ : Progress γ)] = [⟨[], k⟩] := by
    intro γ n
    cases loc.channelIndexes with
    | nil => exact ⟨0, rfl⟩
    | cons x xs =>
      cases x with
      | none => exact ⟨0, by cases xs <;> rfl⟩
      | some pl => exact ⟨0 + n, by cases xs <;> rfl⟩
  have hreq : ∀ {γ : Type}, blockRequests 0 loc.channelIndexes [(⟨[], 0⟩ : Progress γ)] = [] := fun {γ} =>
    blockRequests_complete _ _ _ (fun p hp => by rw [List.mem_singleton.mp hp]; rfl)
  unfold executeBlock
  dsimp only
  rw [hreq, hreq]
  cases hb : t.index.getDataBlock loc.dataBlock with
  | none => exact Or.inr ⟨_, rfl, rfl⟩
  | some b =>
    dsimp only
    obtain ⟨h1, h2⟩ := read_alike S S' t.bytes b
    generalize List.any loc.channelIndexes _ = anySkip
    have key : ∀ {x : R (Nat × List (RecordEntry α))} {y : R (Nat × List (RecordEntry β))},
        ((∃ n ss, x = .ok (n, skipPlan ss) ∧ y = .ok (n, skipPlan ss)) ∨ ∃ e, x = .error e ∧ y = .error e) →
        ((∃ n, afterRead loc x = .ok [⟨[], n⟩]) ∧ ∃ n, afterRead loc y = .ok [⟨[], n⟩]) ∨
        ∃ e, afterRead loc x = .error e ∧ afterRead loc y = .error e := by
      intro x y h
      rcases h with ⟨n, ss, h1, h2⟩ | ⟨e, h1, h2⟩
      · left
        subst h1 h2
        unfold afterRead
        dsimp only
        rw [planOutputs_skipPlan, planOutputs_skipPlan, storeOutputs_nil, storeOutputs_nil]
        obtain ⟨k, hk⟩ := hadd (γ := α) n
        obtain ⟨k', hk'⟩ := hadd (γ := β) n
        exact ⟨⟨k, congrArg _ hk⟩, ⟨k', congrArg _ hk'⟩⟩
      · right
        subst h1 h2
        exact ⟨e, rfl, rfl⟩
    cases anySkip with
    | true => exact key h2
    | false => exact key h1

/-- A read into an empty buffer ends in the same way whatever type is asked for. -/
theorem empty_read_alike (t : TdmsFile) (c : ChannelPath) (start : Nat) :
    (t.readChannelFrom S c start [] = .ok [] ∧ t.readChannelFrom S' c start [] = .ok []) ∨
    ∃ e, t.readChannelFrom S c start [] = .error e ∧ t.readChannelFrom S' c start [] = .error e := by
  unfold TdmsFile.readChannelFrom
  cases t.index.getChannelDataPositions c with
  | none => exact Or.inr ⟨_, rfl, rfl⟩
  | some ls =>
    dsimp only
    cases readPlan [ls] start with
    | error e => exact Or.inr ⟨e, rfl, rfl⟩
    | ok pl =>
      cases pl with
      | nil => exact Or.inl ⟨rfl, rfl⟩
      | cons loc locs =>
        have hrun : ∀ {γ : Type} (T : Storage γ) {r : R (List (Progress γ))}, executeBlock T t loc [⟨[], 0⟩] = r →
            (Except.ok (loc :: locs) >>= fun plan => executePlan T t plan [⟨[], 0⟩] >>= fun ps =>
              (Pure.pure ((ps.map (·.output)).headD []) : R _)) =
            ((match r with
              | .error e => .error e
              | .ok ps => if ps.all Progress.isComplete then .ok ps else executePlan T t locs ps : R _) >>= fun ps =>
                Pure.pure ((ps.map (·.output)).headD [])) := by
          intro γ T r h
          subst h
          rfl
        rcases executeBlock_no_room S S' t loc with ⟨⟨n, h1⟩, ⟨k, h2⟩⟩ | ⟨e, h1, h2⟩
        · exact Or.inl ⟨hrun S h1, hrun S' h2⟩
        · exact Or.inr ⟨e, hrun S h1, hrun S' h2⟩

end
end Tedium
