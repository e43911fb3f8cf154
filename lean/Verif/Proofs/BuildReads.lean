import Verif.Proofs.Build

/-! # The panics of reading, in any build -/

namespace Tedium
open SegSpec PlanSpec

/-- `x` does not fail otherwise than with an error or a panic of a kind in `P`. -/
def R.Only {α : Type} (P : PanicKind → Prop) (x : R α) : Prop :=
  ∀ e, x = .error e → (∃ t, e = .err t) ∨ ∃ k, P k ∧ e = .panic k

def Rd.Only {α : Type} (P : PanicKind → Prop) (x : Rd α) : Prop := ∀ f p, R.Only P (x f p)

variable {P : PanicKind → Prop}

namespace R.Only
variable {α β : Type}

theorem ok {a : α} : R.Only P (.ok a) := fun _ h => by cases h
theorem err {e : TdmsError} : R.Only P (R.err e : R α) := fun _ h => by cases h; exact Or.inl ⟨e, rfl⟩
theorem panic {k : PanicKind} (hk : P k) : R.Only P (R.panic k : R α) := fun _ h => by cases h; exact Or.inr ⟨k, hk, rfl⟩

theorem bind' {x : R α} {k : α → R β} (h : R.Only P x) (hk : ∀ a, x = .ok a → R.Only P (k a)) : R.Only P (x >>= k) := by
  cases x with
  | error e =>
    intro e' he
    cases he
    exact h e rfl
  | ok a => exact hk a rfl

theorem bind {x : R α} {k : α → R β} (h : R.Only P x) (hk : ∀ a, R.Only P (k a)) : R.Only P (x >>= k) :=
  h.bind' (fun a _ => hk a)

theorem of_sat {x : R α} {Q : α → Prop} (h : R.Sat x Q) : R.Only P x := by
  rcases h with ⟨a, rfl, _⟩ | ⟨e, rfl⟩
  · exact ok
  · exact err

end R.Only

namespace Rd.Only
variable {α β : Type}

theorem bind {x : Rd α} {k : α → Rd β} (h : Rd.Only P x) (hk : ∀ a, Rd.Only P (k a)) : Rd.Only P (x >>= k) := by
  intro f p
  rw [Rd.bind_eq]
  have hx := h f p
  cases hxe : x f p with
  | error e =>
    rw [hxe] at hx
    intro e' he
    cases he
    exact hx e rfl
  | ok r => exact hk r.1 f r.2

theorem of_sat {x : Rd α} {Q : α → Prop} (h : Rd.Sat x Q) : Rd.Only P x := fun f p => R.Only.of_sat (h f p)

theorem pure {a : α} : Rd.Only P (Pure.pure a : Rd α) := fun _ _ => R.Only.ok
theorem pure' {a : α} : Rd.Only P (Rd.pure a : Rd α) := fun _ _ => R.Only.ok

theorem lift {x : R α} (h : R.Only P x) : Rd.Only P (Rd.lift x) := by
  intro f p
  cases x with
  | error e => intro e' he; cases he; exact h e rfl
  | ok a => exact R.Only.ok

theorem bindLift {x : R α} {k : α → Rd β} (h : R.Only P x) (hk : ∀ a, x = .ok a → Rd.Only P (k a)) :
    Rd.Only P (Rd.lift x >>= k) := by
  intro f p
  cases x with
  | error e => intro e' he; cases he; exact h e rfl
  | ok a => exact hk a rfl f p

theorem ite {c : Prop} [Decidable c] {x y : Rd α} (hx : Rd.Only P x) (hy : Rd.Only P y) :
    Rd.Only P (if c then x else y) := by
  split
  · exact hx
  · exact hy

theorem move {off : Int} : Rd.Only P (Rd.move off) := of_sat (Rd.Sat.move off)
theorem seek {n : Nat} : Rd.Only P (Rd.seek n) := of_sat (Rd.Sat.seek n)

end Rd.Only

/-- The panics of a build's arithmetic are in `P`. -/
structure Build.Panics (B : Build) (P : PanicKind → Prop) : Prop where
  mul : ∀ a b, R.Only P (B.mul a b)
  sum : ∀ n, R.Only P (B.sum n)

theorem Build.debug_panics (h : P .overflow) : Build.debug.Panics P where
  mul a b := by
    show R.Only _ (mulI64 a b)
    unfold mulI64
    split
    · exact .ok
    · exact .panic h
  sum n := by
    unfold Build.debug
    dsimp only
    split
    · exact .ok
    · exact .panic h

theorem Build.release_panics : Build.release.Panics P where
  mul _ _ := .ok
  sum _ := .ok

/-- the numbers that a block read divides by are not zero -/
def Divides {α : Type} (B : Build) (S : Storage α) (b : DataBlock) (plan : List (RecordEntry α)) : Prop :=
  (b.layout = .contigious → (∀ n, firstLength plan = .ok n → 0 < n) ∧ ∀ bs, B.blockSize S plan = .ok bs → 0 < bs) ∧
  0 < rowSize S plan

section
variable {B : Build} (hB : B.Panics P) {α : Type} {S : Storage α} (hS : ∀ e, Rd.Sat (S.read e) (fun _ => True))
include hB

omit hB in
theorem divR_only {a b : Nat} (h : P .divByZero ∨ 0 < b) : R.Only P (divR a b) := by
  unfold divR
  split
  · rcases h with h | h
    · exact .panic h
    · omega
  · exact .ok

omit hB in
theorem divAll_only {sub : Nat} (h : P .divByZero ∨ 0 < sub) : ∀ ks, R.Only P (divAll sub ks)
  | [] => .ok
  | _ :: ks => (divR_only h).bind (fun _ => (divAll_only h ks).bind (fun _ => .ok))

include hS

theorem readSequential_only (e : Endian) (out : OutIter α) (n : Nat) : Rd.Only P (B.readSequential S e out n) := by
  unfold Build.readSequential
  refine (Rd.Only.of_sat (readValues_sat hS e n out)).bind (fun r => ?_)
  exact Rd.Only.ite ((Rd.Only.lift (hB.mul _ _)).bind (fun _ => Rd.Only.move.bind (fun _ => .pure))) .pure

theorem readSubBlock_only (e : Endian) : ∀ (plan : List (RecordEntry α)) (length : Nat),
    Rd.Only P (B.readSubBlock S e length plan) := by
  intro plan
  induction plan with
  | nil => intro _; exact .pure'
  | cons en rest ih =>
    intro length
    obtain ⟨len, pl⟩ := en
    unfold Build.readSubBlock
    cases pl with
    | read slot out k =>
      refine Rd.Only.ite ((Rd.Only.lift (hB.mul _ _)).bind (fun _ => Rd.Only.move.bind (fun _ => ?_))) ?_
      all_goals exact (readSequential_only hB hS e _ _).bind (fun _ => (ih _).bind (fun _ => .pure))
    | skip b =>
      exact (Rd.Only.lift (hB.mul _ _)).bind (fun _ => Rd.Only.move.bind (fun _ => (ih _).bind (fun _ => .pure)))

theorem contigLoop_only (e : Endian) (bs toSkip remainder : Nat) : ∀ (n idx : Nat) (plan : List (RecordEntry α))
    (length : Nat), Rd.Only P (B.contigLoop S e bs toSkip remainder n idx plan length) := by
  intro n
  induction n with
  | zero => intro _ _ _; exact .pure'
  | succ n ih =>
    intro idx plan length
    unfold Build.contigLoop
    refine Rd.Only.ite (Rd.Only.move.bind (fun _ => ih _ _ _)) (Rd.Only.ite ?_ ?_)
    all_goals exact (readSubBlock_only hB hS e _ _).bind (fun _ => ih _ _ _)

theorem contigSkipLoop_only (e : Endian) (bs : Nat) (toSkip rem : List Nat) : ∀ (n idx : Nat)
    (plan : List (RecordEntry α)) (length : Nat), Rd.Only P (B.contigSkipLoop S e bs toSkip rem n idx plan length) := by
  intro n
  induction n with
  | zero => intro _ _ _; exact .pure'
  | succ n ih =>
    intro idx plan length
    unfold Build.contigSkipLoop
    exact Rd.Only.ite ((readSubBlock_only hB hS e _ _).bind (fun _ => ih _ _ _)) (Rd.Only.move.bind (fun _ => ih _ _ _))

omit hB hS in
theorem firstLength_only {plan : List (RecordEntry α)} (h : plan ≠ []) : R.Only P (firstLength plan) := by
  cases plan with
  | nil => exact absurd rfl h
  | cons _ _ => exact .ok

theorem contigReadFrom_only (e : Endian) (start size : Nat) {plan : List (RecordEntry α)} (hp : plan ≠ []) (k : Nat)
    (hd : P .divByZero ∨ (∀ n, firstLength plan = .ok n → 0 < n) ∧ ∀ bs, B.blockSize S plan = .ok bs → 0 < bs) :
    Rd.Only P (B.contigReadFrom S e start size plan k) :=
  Rd.Only.seek.bind (fun _ => Rd.Only.bindLift (hB.sum _) (fun bs hbs =>
    (Rd.Only.lift (divR_only (hd.imp id (fun h => h.2 bs hbs)))).bind (fun _ =>
      Rd.Only.bindLift (firstLength_only hp) (fun n hn =>
        (Rd.Only.lift (divR_only (hd.imp id (fun h => h.1 n hn)))).bind (fun _ =>
          contigLoop_only hB hS e _ _ _ _ _ _ _)))))

theorem contigReadSkip_only (e : Endian) (start size : Nat) {plan : List (RecordEntry α)} (hp : plan ≠ []) (ks : List Nat)
    (hd : P .divByZero ∨ (∀ n, firstLength plan = .ok n → 0 < n) ∧ ∀ bs, B.blockSize S plan = .ok bs → 0 < bs) :
    Rd.Only P (B.contigReadSkip S e start size plan ks) :=
  Rd.Only.seek.bind (fun _ => Rd.Only.bindLift (hB.sum _) (fun bs hbs =>
    (Rd.Only.lift (divR_only (hd.imp id (fun h => h.2 bs hbs)))).bind (fun _ =>
      Rd.Only.bindLift (firstLength_only hp) (fun n hn =>
        (Rd.Only.lift (divAll_only (hd.imp id (fun h => h.1 n hn)) _)).bind (fun _ =>
          contigSkipLoop_only hB hS e _ _ _ _ _ _ _)))))

theorem interRead_only (e : Endian) (start size : Nat) {plan : List (RecordEntry α)}
    (hd : P .divByZero ∨ 0 < rowSize S plan) : Rd.Only P (B.interRead S e start size plan) := by
  unfold Build.interRead
  refine Rd.Only.seek.bind (fun _ => (Rd.Only.lift (divR_only hd)).bind (fun _ => ?_))
  refine Rd.Only.ite ((Rd.Only.lift (hB.mul _ _)).bind (fun _ => Rd.Only.move.bind (fun _ => ?_))) ?_
  all_goals exact Rd.Only.of_sat (interLoop_sat hS e _ _ _ _)

theorem readBlock_only (f : Bytes) {b : DataBlock} (hb : b.channels ≠ []) {reqs : List (ChannelRequest α)}
    (hlt : ∀ r ∈ reqs, r.channelIndex < b.channels.length)
    (hd : P .divByZero ∨ ∀ plan, buildRecordPlan S b.channels reqs = .ok plan → Divides B S b plan) :
    R.Only P (B.readBlock S f b reqs) ∧ R.Only P (B.readBlockSkip S f b reqs) := by
  have hne : ∀ plan : List (RecordEntry α), PlanFor b.channels plan → plan ≠ [] := by
    intro plan hp h
    have := hp.length
    rw [h] at this
    exact hb (List.length_eq_zero_iff.mp this.symm)
  have hsat := buildRecordPlan_sat (S := S) hlt
  unfold Build.readBlock Build.readBlockSkip
  generalize buildRecordPlan S b.channels reqs = bp at hsat hd
  rcases hsat with ⟨plan, rfl, hpf, _⟩ | ⟨e, rfl⟩
  · have hd : P .divByZero ∨ Divides B S b plan := hd.imp id (fun h => h plan rfl)
    unfold Divides at hd
    cases hl : b.layout with
    | contigious =>
      rw [hl] at hd
      have hd := hd.imp id (fun h => h.1 rfl)
      constructor
      · have h := contigReadFrom_only hB hS b.byteOrder b.start b.length (hne _ hpf) 0 hd f 0
        exact h.bind (k := fun r => (pure r.1 : R _)) (fun _ => .ok)
      · have h := contigReadSkip_only hB hS b.byteOrder b.start b.length (hne _ hpf) (reqs.map (·.skip)) hd f 0
        exact h.bind (k := fun r => (pure r.1 : R _)) (fun _ => .ok)
    | interleaved =>
      have hd := hd.imp id And.right
      constructor
      · have h := interRead_only hB hS b.byteOrder b.start b.length hd f 0
        exact h.bind (k := fun r => (pure r.1 : R _)) (fun _ => .ok)
      · have h := interRead_only hB hS b.byteOrder b.start b.length (plan := setSkips (reqs.map (·.skip)) plan)
          (hd.imp id (fun h => by
            have h2 := congrArg (List.map (fun (x : Nat × Nat) => x.1)) (sizes_setSkips (S := S) (reqs.map (·.skip)) plan)
            rw [List.map_map, List.map_map] at h2
            unfold rowSize at h ⊢
            exact (congrArg List.sum h2) ▸ h)) f 0
        exact h.bind (k := fun r => (pure r.1 : R _)) (fun _ => .ok)
  · exact ⟨.err, .err⟩

theorem executePlan_only {t : TdmsFile} : ∀ (plan : List BlockRead) (ps : List (Progress α)),
    (∀ br ∈ plan, ∀ b, t.index.getDataBlock br.dataBlock = some b → b.channels ≠ [] ∧
      (∀ pl, some pl ∈ br.channelIndexes → pl.index < b.channels.length) ∧
      (P .divByZero ∨ ∀ reqs plan, buildRecordPlan S b.channels reqs = .ok plan → Divides B S b plan)) →
    R.Only P (B.executePlan S t plan ps) := by
  intro plan
  induction plan with
  | nil => intro ps _; exact .ok
  | cons br brs ih =>
    intro ps h
    have hblock : R.Only P (B.executeBlock S t br ps) := by
      unfold Build.executeBlock
      dsimp only
      cases hb : t.index.getDataBlock br.dataBlock with
      | none => exact .err
      | some b =>
        dsimp only
        obtain ⟨hne, hidx, hd⟩ := h br List.mem_cons_self b hb
        have hread := readBlock_only hB hS t.bytes hne (reqs := blockRequests 0 br.channelIndexes ps) (fun r hr => by
          obtain ⟨pl, h1, h2, _⟩ := mem_blockRequests hr
          rw [h2]; exact hidx pl h1) (hd.imp id (fun h => h _))
        generalize List.any br.channelIndexes _ = anySkip
        have hr : R.Only P (if anySkip = true then B.readBlockSkip S t.bytes b (blockRequests 0 br.channelIndexes ps)
            else B.readBlock S t.bytes b (blockRequests 0 br.channelIndexes ps)) := by
          split
          · exact hread.2
          · exact hread.1
        revert hr
        cases (if anySkip = true then B.readBlockSkip S t.bytes b (blockRequests 0 br.channelIndexes ps)
            else B.readBlock S t.bytes b (blockRequests 0 br.channelIndexes ps)) with
        | error e => intro hr e' he; cases he; exact hr e rfl
        | ok r => intro _; exact .ok
    unfold Build.executePlan
    revert hblock
    cases B.executeBlock S t br ps with
    | error e => intro hr e' he; cases he; exact hr e rfl
    | ok qs =>
      intro _
      dsimp only
      split
      · exact .ok
      · exact ih qs (fun x hx => h x (List.mem_cons_of_mem _ hx))

omit hB hS in
/-- the blocks in which a channel has samples are divided by other numbers than zero -/
def DividesAt (B : Build) (S : Storage α) (t : TdmsFile) (ls : List DataLocation) : Prop :=
  ∀ l ∈ ls, 0 < l.numberOfSamples → ∀ b, t.index.getDataBlock l.dataBlock = some b →
    ∀ (reqs : List (ChannelRequest α)) plan, buildRecordPlan S b.channels reqs = .ok plan → Divides B S b plan

theorem readPositions_only {t : TdmsFile} (hi : Inv t.index) (pos : List (List DataLocation)) (start : Nat)
    (hl : ∀ ls ∈ pos, ∃ c, t.index.getChannelDataPositions c = some ls)
    (hd : P .divByZero ∨ ∀ ls ∈ pos, DividesAt B S t ls) (ps : List (Progress α)) :
    R.Only P (readPlan pos start >>= fun plan => B.executePlan S t plan ps) := by
  have hvalid : ∀ ls ∈ pos, Increasing ls ∧ ∀ l ∈ ls, ValidLocation t.index.dataBlocks l := by
    intro ls hls
    obtain ⟨c, hc⟩ := hl ls hls
    obtain ⟨o, ho, rfl⟩ := Option.map_eq_some_iff.mp hc
    exact ⟨hi.incr _ _ ho, hi.valid _ _ ho⟩
  rw [readPlan_eq start t.index.dataBlocks.length pos (fun ls h => (hvalid ls h).1) (fun ls h l hlm => by
    obtain ⟨b, _, _, hb, _⟩ := (hvalid ls h).2 l hlm
    exact (List.getElem?_eq_some_iff.mp hb).1)]
  show R.Only P (B.executePlan S t _ ps)
  refine executePlan_only hB hS _ ps (fun br hbr b hb => ?_)
  have hch : br.channelIndexes = pos.map (visit start br.dataBlock) ∧
      ∃ ls ∈ pos, ∃ pl, visit start br.dataBlock ls = some pl := by
    unfold plan at hbr
    obtain ⟨B, hB, hva⟩ := List.mem_filterMap.mp hbr
    unfold visitAll at hva
    split at hva
    · rename_i hany
      cases hva
      rw [List.any_map, List.any_eq_true] at hany
      obtain ⟨ls, hls, hv⟩ := hany
      obtain ⟨pl, hv⟩ := Option.isSome_iff_exists.mp hv
      exact ⟨rfl, ls, hls, pl, hv⟩
    · cases hva
  have hidx : ∀ pl ls, ls ∈ pos → visit start br.dataBlock ls = some pl → pl.index < b.channels.length := by
    intro pl ls hls hv
    obtain ⟨_, b', m', _, _, _, hb', hm', _⟩ := visit_valid (hvalid ls hls).2 hv
    rw [hb] at hb'
    cases hb'
    exact (List.getElem?_eq_some_iff.mp hm').1
  obtain ⟨hch, ls, hls, pl, hv⟩ := hch
  refine ⟨fun h0 => ?_, fun pl' hpl' => ?_, hd.imp id (fun hd => ?_)⟩
  · have := hidx pl ls hls hv
    rw [h0] at this
    exact absurd this (Nat.not_lt_zero _)
  · rw [hch] at hpl'
    obtain ⟨ls', hls', hv'⟩ := List.mem_map.mp hpl'
    exact hidx pl' ls' hls' hv'
  · obtain ⟨l, _, _, hlm, hlB, hn, _⟩ := visit_valid (hvalid ls hls).2 hv
    exact hd ls hls l hlm hn b (by rw [hlB]; exact hb)

theorem readChannelsFrom_only {t : TdmsFile} (hi : Inv t.index) (cs : List ChannelPath) (start : Nat)
    (outs : List (List α))
    (hd : P .divByZero ∨ ∀ c ∈ cs, ∀ ls, t.index.getChannelDataPositions c = some ls → DividesAt B S t ls) : R.Only P (B.readChannelsFrom S t cs start outs) := by
  unfold Build.readChannelsFrom
  refine (R.Only.of_sat (lookupPositions_sat t cs)).bind' (fun pos hpos => ?_)
  have hl : ∀ ls ∈ pos, ∃ c ∈ cs, t.index.getChannelDataPositions c = some ls := by
    rcases lookupPositions_sat t cs with ⟨p, hp, h⟩ | ⟨e, he⟩
    · rw [hpos] at hp
      cases hp
      exact h
    · rw [hpos] at he; cases he
  rw [← bind_assoc]
  exact (readPositions_only hB hS hi pos start (fun ls hls => by
    obtain ⟨c, _, hc⟩ := hl ls hls
    exact ⟨c, hc⟩) (hd.imp id (fun hd ls hls => by
    obtain ⟨c, hc, h⟩ := hl ls hls
    exact hd c hc ls h)) _).bind (fun _ => .ok)

theorem readChannelFrom_only {t : TdmsFile} (hi : Inv t.index) (c : ChannelPath) (start : Nat)
    (out : List α)
    (hd : P .divByZero ∨ ∀ ls, t.index.getChannelDataPositions c = some ls → DividesAt B S t ls) : R.Only P (B.readChannelFrom S t c start out) := by
  unfold Build.readChannelFrom
  cases hc : t.index.getChannelDataPositions c with
  | none => exact .err
  | some ls =>
    dsimp only
    rw [← bind_assoc]
    exact (readPositions_only hB hS hi [ls] start (fun x hx => by
      rw [List.mem_singleton.mp hx]; exact ⟨c, hc⟩) (hd.imp id (fun hd x hx => by
      rw [List.mem_singleton.mp hx]; exact hd ls hc)) _).bind (fun _ => .ok)

end
end Tedium
