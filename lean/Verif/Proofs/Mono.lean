import Verif.Proofs.Read

/-!
# Reading is stable under growth

A read that succeeds gives the same result when bytes are appended to the file and data blocks to
the index. -/

namespace Tedium

/-- More bytes at the end do not change a successful read. -/
def Rd.Mono {α : Type} (x : Rd α) : Prop :=
  ∀ f g p a q, x f p = .ok (a, q) → x (f ++ g) p = .ok (a, q)

theorem Rd.Mono.pure {α : Type} (a : α) : Rd.Mono (Pure.pure a : Rd α) := by
  intro f g p b q h
  exact h

theorem Rd.Mono.pure' {α : Type} (a : α) : Rd.Mono (Rd.pure a) := by
  intro f g p b q h
  exact h

theorem Rd.Mono.bind {α β : Type} {x : Rd α} {k : α → Rd β} (hx : x.Mono) (hk : ∀ a, (k a).Mono) :
    Rd.Mono (x >>= k) := by
  intro f g p b q h
  rw [Rd.bind_eq] at h ⊢
  cases h1 : x f p with
  | error e => rw [h1] at h; cases h
  | ok r =>
    obtain ⟨a, p'⟩ := r
    rw [h1] at h
    rw [hx f g p a p' h1]
    exact hk a f g p' b q h

theorem Rd.Mono.lift {α : Type} (x : R α) : Rd.Mono (Rd.lift x) := by
  intro f g p a q h
  exact h

theorem Rd.Mono.move (off : Int) : Rd.Mono (Rd.move off) := by
  intro f g p a q h
  exact h

theorem Rd.Mono.seek (pos : Nat) : Rd.Mono (Rd.seek pos) := by
  intro f g p a q h
  exact h

theorem Rd.Mono.fail {α : Type} (e : TdmsError) : Rd.Mono (Rd.fail e : Rd α) := by
  intro f g p a q h
  cases h

theorem Rd.Mono.exact (n : Nat) : Rd.Mono (Rd.exact n) := by
  intro f g p a q h
  unfold Rd.exact at h ⊢
  by_cases hc : n = 0 ∨ p + n ≤ f.length
  · rw [if_pos hc] at h
    rw [if_pos (by rw [List.length_append]; omega)]
    rw [← h]
    congr 2
    rcases hc with rfl | hc
    · simp
    · rw [List.drop_append_of_le_length (by omega), List.take_append_of_le_length (by rw [List.length_drop]; omega)]
  · rw [if_neg hc] at h; cases h

theorem Rd.Mono.ite {α : Type} {c : Prop} [Decidable c] {x y : Rd α} (hx : x.Mono) (hy : y.Mono) :
    Rd.Mono (if c then x else y) := by
  split
  · exact hx
  · exact hy

theorem Rd.Mono.uint (e : Endian) (w : Nat) : Rd.Mono (Rd.uint e w) :=
  (Rd.Mono.exact w).bind (fun _ => .pure _)

theorem STy.mono (al : Alloc) (t : STy) (e : Endian) : Rd.Mono ((t.storage al).read e) := by
  have hnum : ∀ w n s, Rd.Mono ((numeric w n s).read e) := fun w n s =>
    (Rd.Mono.exact w).bind (fun _ => .pure _)
  cases t <;> first
    | exact hnum _ _ _
    | exact (hnum _ _ _).bind (fun _ => (hnum _ _ _).bind (fun _ => .pure _))
    | exact (Rd.Mono.exact _).bind (fun _ => .pure _)
    | skip
  · -- extended
    refine (Rd.Mono.exact 10).bind (fun b => ?_)
    cases e <;> exact .pure _
  · -- string
    refine (Rd.Mono.uint e 4).bind (fun n => ?_)
    unfold readStringWithLength
    refine Rd.Mono.ite ((Rd.Mono.exact n).bind (fun b => ?_)) (.fail _)
    cases utf8Dec b with
    | none => exact .fail _
    | some t => exact .pure _

section
variable {α : Type} {S : Storage α} (hS : ∀ e, Rd.Mono (S.read e))
include hS

theorem readValues_mono (e : Endian) : ∀ (n : Nat) (it : OutIter α), Rd.Mono (readValues S e n it) := by
  intro n
  induction n with
  | zero => intro it; exact .pure' _
  | succ n ih =>
    intro it
    unfold readValues
    split
    · exact .pure' _
    · exact (hS e).bind (fun v => (ih _).bind (fun _ => .pure _))

theorem readSequential_mono (e : Endian) (out : OutIter α) (n : Nat) : Rd.Mono (readSequential S e out n) := by
  unfold readSequential
  refine (readValues_mono hS e n out).bind (fun r => ?_)
  obtain ⟨length, out⟩ := r
  dsimp only
  refine Rd.Mono.ite ?_ (.pure _)
  exact (Rd.Mono.lift _).bind (fun _ => (Rd.Mono.move _).bind (fun _ => .pure _))

theorem readSubBlock_mono (e : Endian) : ∀ (plan : List (RecordEntry α)) (length : Nat),
    Rd.Mono (readSubBlock S e length plan) := by
  intro plan
  induction plan with
  | nil => intro length; exact .pure' _
  | cons en rest ih =>
    intro length
    unfold readSubBlock
    split
    · refine Rd.Mono.ite ((Rd.Mono.lift _).bind (fun _ => (Rd.Mono.move _).bind (fun _ => ?_))) ?_
      all_goals
        exact (readSequential_mono hS e _ _).bind (fun _ => (ih _).bind (fun _ => .pure _))
    · exact (Rd.Mono.lift _).bind (fun _ => (Rd.Mono.move _).bind (fun _ => (ih _).bind (fun _ => .pure _)))

theorem contigLoop_mono (e : Endian) (bs toSkip remainder : Nat) : ∀ (n idx : Nat) (plan : List (RecordEntry α))
    (length : Nat), Rd.Mono (contigLoop S e bs toSkip remainder n idx plan length) := by
  intro n
  induction n with
  | zero => intro idx plan length; exact .pure' _
  | succ n ih =>
    intro idx plan length
    unfold contigLoop
    refine Rd.Mono.ite ((Rd.Mono.move _).bind (fun _ => ih _ _ _)) (Rd.Mono.ite ?_ ?_)
    all_goals exact (readSubBlock_mono hS e _ _).bind (fun _ => ih _ _ _)

theorem contigReadFrom_mono (e : Endian) (start size : Nat) (plan : List (RecordEntry α)) (k : Nat) :
    Rd.Mono (contigReadFrom S e start size plan k) :=
  (Rd.Mono.seek _).bind (fun _ => (Rd.Mono.lift _).bind (fun _ => (Rd.Mono.lift _).bind (fun _ =>
    (Rd.Mono.lift _).bind (fun _ => (Rd.Mono.lift _).bind (fun _ => contigLoop_mono hS e _ _ _ _ _ _ _)))))

theorem contigSkipLoop_mono (e : Endian) (bs : Nat) (toSkip rem : List Nat) : ∀ (n idx : Nat)
    (plan : List (RecordEntry α)) (length : Nat), Rd.Mono (contigSkipLoop S e bs toSkip rem n idx plan length) := by
  intro n
  induction n with
  | zero => intro idx plan length; exact .pure' _
  | succ n ih =>
    intro idx plan length
    unfold contigSkipLoop
    exact Rd.Mono.ite ((readSubBlock_mono hS e _ _).bind (fun _ => ih _ _ _))
      ((Rd.Mono.move _).bind (fun _ => ih _ _ _))

theorem contigReadSkip_mono (e : Endian) (start size : Nat) (plan : List (RecordEntry α)) (ks : List Nat) :
    Rd.Mono (contigReadSkip S e start size plan ks) :=
  (Rd.Mono.seek _).bind (fun _ => (Rd.Mono.lift _).bind (fun _ => (Rd.Mono.lift _).bind (fun _ =>
    (Rd.Mono.lift _).bind (fun _ => (Rd.Mono.lift _).bind (fun _ => contigSkipLoop_mono hS e _ _ _ _ _ _ _)))))

theorem readRow_mono (e : Endian) (row : Nat) : ∀ (plan : List (RecordEntry α)) (any : Bool),
    Rd.Mono (readRow S e row any plan) := by
  intro plan
  induction plan with
  | nil => intro any; exact .pure' _
  | cons en rest ih =>
    intro any
    unfold readRow
    split
    · exact (hS e).bind (fun v => (ih _).bind (fun _ => .pure _))
    · exact (Rd.Mono.move _).bind (fun _ => (ih _).bind (fun _ => .pure _))

theorem interLoop_mono (e : Endian) : ∀ (n row : Nat) (plan : List (RecordEntry α)) (k : Nat),
    Rd.Mono (interLoop S e n row plan k) := by
  intro n
  induction n with
  | zero => intro row plan k; exact .pure' _
  | succ n ih =>
    intro row plan k
    unfold interLoop
    exact (readRow_mono hS e _ _ _).bind (fun _ => Rd.Mono.ite (ih _ _ _) (.pure _))

theorem interRead_mono (e : Endian) (start size : Nat) (plan : List (RecordEntry α)) :
    Rd.Mono (interRead S e start size plan) := by
  unfold interRead
  refine (Rd.Mono.seek _).bind (fun _ => (Rd.Mono.lift _).bind (fun _ => ?_))
  refine Rd.Mono.ite ((Rd.Mono.lift _).bind (fun _ => (Rd.Mono.move _).bind (fun _ => ?_))) ?_
  all_goals exact interLoop_mono hS e _ _ _ _

omit hS in
theorem bind_ok_iff {β γ : Type} {x : R β} {k : β → R γ} {c : γ} :
    (x >>= k) = .ok c ↔ ∃ b, x = .ok b ∧ k b = .ok c := by
  cases x with
  | error e =>
    constructor
    · intro h; cases h
    · rintro ⟨b, hb, _⟩; cases hb
  | ok b =>
    constructor
    · intro h; exact ⟨b, rfl, h⟩
    · rintro ⟨b', hb, h⟩; cases hb; exact h

theorem DataBlock.read_mono {f : Bytes} (g : Bytes) {b : DataBlock} {reqs : List (ChannelRequest α)}
    {r : Nat × List (RecordEntry α)} :
    (b.read S f reqs = .ok r → b.read S (f ++ g) reqs = .ok r) ∧
    (b.readWithSkip S f reqs = .ok r → b.readWithSkip S (f ++ g) reqs = .ok r) := by
  constructor
  · intro h
    unfold DataBlock.read at h ⊢
    obtain ⟨plan, hp, h⟩ := bind_ok_iff.mp h
    refine bind_ok_iff.mpr ⟨plan, hp, ?_⟩
    dsimp only at h ⊢
    revert h
    cases b.layout <;> dsimp only <;> intro h <;> obtain ⟨⟨a, q⟩, hx, h⟩ := bind_ok_iff.mp h
    · exact bind_ok_iff.mpr ⟨_, interRead_mono hS _ _ _ _ f g _ _ _ hx, h⟩
    · exact bind_ok_iff.mpr ⟨_, contigReadFrom_mono hS _ _ _ _ _ f g _ _ _ hx, h⟩
  · intro h
    unfold DataBlock.readWithSkip at h ⊢
    obtain ⟨plan, hp, h⟩ := bind_ok_iff.mp h
    refine bind_ok_iff.mpr ⟨plan, hp, ?_⟩
    dsimp only at h ⊢
    revert h
    cases b.layout <;> dsimp only <;> intro h <;> obtain ⟨⟨a, q⟩, hx, h⟩ := bind_ok_iff.mp h
    · exact bind_ok_iff.mpr ⟨_, interRead_mono hS _ _ _ _ f g _ _ _ hx, h⟩
    · exact bind_ok_iff.mpr ⟨_, contigReadSkip_mono hS _ _ _ _ _ f g _ _ _ hx, h⟩

/-- bytes appended to the file, data blocks to the index -/
def Grows (t t' : TdmsFile) : Prop :=
  (∃ g, t'.bytes = t.bytes ++ g) ∧ ∃ bs, t'.index.dataBlocks = t.index.dataBlocks ++ bs

theorem executeBlock_mono {t t' : TdmsFile} (hg : Grows t t') {loc : BlockRead} {ps qs : List (Progress α)}
    (h : executeBlock S t loc ps = .ok qs) : executeBlock S t' loc ps = .ok qs := by
  obtain ⟨⟨g, hbytes⟩, bs, hblocks⟩ := hg
  unfold executeBlock at h ⊢
  dsimp only at h ⊢
  cases hb : t.index.getDataBlock loc.dataBlock with
  | none => rw [hb] at h; cases h
  | some b =>
    have hb' : t'.index.getDataBlock loc.dataBlock = some b := by
      unfold Index.getDataBlock at hb ⊢
      rw [hblocks, List.getElem?_append_left (List.getElem?_eq_some_iff.mp hb).1, hb]
    rw [hb] at h
    rw [hb', hbytes]
    dsimp only at h ⊢
    generalize hany : List.any loc.channelIndexes _ = anySkip at h ⊢
    have hm := fun r => DataBlock.read_mono hS (f := t.bytes) g (b := b) (reqs := blockRequests 0 loc.channelIndexes ps) (r := r)
    cases hr : (if anySkip = true then b.readWithSkip S t.bytes (blockRequests 0 loc.channelIndexes ps)
        else b.read S t.bytes (blockRequests 0 loc.channelIndexes ps)) with
    | error e => rw [hr] at h; cases h
    | ok r =>
      have hr' : (if anySkip = true then b.readWithSkip S (t.bytes ++ g) (blockRequests 0 loc.channelIndexes ps)
        else b.read S (t.bytes ++ g) (blockRequests 0 loc.channelIndexes ps)) = .ok r := by
        cases anySkip
        · exact (hm r).1 hr
        · exact (hm r).2 hr
      rw [hr] at h
      rw [hr']
      exact h

theorem executePlan_mono {t t' : TdmsFile} (hg : Grows t t') : ∀ (plan : List BlockRead) {ps qs : List (Progress α)},
    executePlan S t plan ps = .ok qs → executePlan S t' plan ps = .ok qs := by
  intro plan
  induction plan with
  | nil => intro ps qs h; exact h
  | cons loc locs ih =>
    intro ps qs h
    unfold executePlan at h ⊢
    cases hb : executeBlock S t loc ps with
    | error e => rw [hb] at h; cases h
    | ok ps' =>
      rw [hb] at h
      rw [executeBlock_mono hS hg hb]
      dsimp only at h ⊢
      split
      · rename_i hc; rw [if_pos hc] at h; exact h
      · rename_i hc; rw [if_neg hc] at h; exact ih h

omit hS in
theorem lookupPositions_congr {t t' : TdmsFile} {cs : List ChannelPath}
    (hp : ∀ c ∈ cs, t'.index.getChannelDataPositions c = t.index.getChannelDataPositions c) :
    t'.lookupPositions cs = t.lookupPositions cs := by
  induction cs with
  | nil => rfl
  | cons c cs ih =>
    unfold TdmsFile.lookupPositions
    rw [hp c List.mem_cons_self, ih (fun c hc => hp c (List.mem_cons_of_mem _ hc))]

theorem readChannelsFrom_mono {t t' : TdmsFile} (hg : Grows t t') {cs : List ChannelPath}
    (hp : ∀ c ∈ cs, t'.index.getChannelDataPositions c = t.index.getChannelDataPositions c)
    {start : Nat} {outs res : List (List α)} (h : t.readChannelsFrom S cs start outs = .ok res) :
    t'.readChannelsFrom S cs start outs = .ok res := by
  unfold TdmsFile.readChannelsFrom at h ⊢
  rw [lookupPositions_congr hp]
  obtain ⟨pos, h1, h⟩ := bind_ok_iff.mp h
  obtain ⟨plan, h2, h⟩ := bind_ok_iff.mp h
  obtain ⟨ps, h3, h⟩ := bind_ok_iff.mp h
  exact bind_ok_iff.mpr ⟨pos, h1, bind_ok_iff.mpr ⟨plan, h2, bind_ok_iff.mpr ⟨ps, executePlan_mono hS hg _ h3, h⟩⟩⟩

theorem readChannelFrom_mono {t t' : TdmsFile} (hg : Grows t t') {c : ChannelPath}
    (hp : t'.index.getChannelDataPositions c = t.index.getChannelDataPositions c)
    {start : Nat} {out res : List α} (h : t.readChannelFrom S c start out = .ok res) :
    t'.readChannelFrom S c start out = .ok res := by
  unfold TdmsFile.readChannelFrom at h ⊢
  rw [hp]
  cases hc : t.index.getChannelDataPositions c with
  | none => rw [hc] at h; cases h
  | some ls =>
    rw [hc] at h
    obtain ⟨plan, h2, h⟩ := bind_ok_iff.mp h
    obtain ⟨ps, h3, h⟩ := bind_ok_iff.mp h
    exact bind_ok_iff.mpr ⟨plan, h2, bind_ok_iff.mpr ⟨ps, executePlan_mono hS hg _ h3, h⟩⟩

end
end Tedium
