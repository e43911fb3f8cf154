import Verif.Model.Build
import Verif.Proofs.Mono
import Verif.Proofs.NoPanic

/-! # Builds with and without overflow checks -/

namespace Tedium
open SegSpec

/-! ## The model of the other modules is the build with overflow checks -/

namespace Build

theorem debug_fromSegment (s : Segment) (start : Nat) (ms : List RawDataMeta) :
    debug.fromSegment s start ms = DataBlock.fromSegment s start ms := by
  unfold fromSegment DataBlock.fromSegment debug
  dsimp only
  split
  · rfl
  · split
    · rfl
    · split
      · rfl
      · split <;> rfl

theorem debug_addRawData (ix : Index) (s : Segment) : debug.addRawData ix s = ix.addRawData s := by
  unfold addRawData Index.addRawData
  simp only [debug_fromSegment]
  rfl

theorem debug_addSegment (ix : Index) (s : Segment) : debug.addSegment ix s = ix.addSegment s := by
  unfold addSegment Index.addSegment
  simp only [debug_addRawData]
  rfl

theorem debug_channelLength (t : TdmsFile) (c : ChannelPath) : debug.channelLength t c = t.channelLength c := by
  unfold channelLength TdmsFile.channelLength Index.channelLength debug
  cases t.index.objects.get? c.path with
  | none => rfl
  | some o =>
    dsimp only
    split <;> rfl

theorem debug_openLoop (al : Alloc) (f : Bytes) : ∀ (n pos : Nat) (ix : Index),
    debug.openLoop al f n pos ix = Tedium.openLoop al f n pos ix := by
  intro n
  induction n with
  | zero => intro pos ix; rfl
  | succ n ih =>
    intro pos ix
    unfold openLoop Tedium.openLoop
    simp only [debug_addSegment, ih]
    rfl

theorem debug_new (al : Alloc) (f : Bytes) : debug.new al f = TdmsFile.new al f := by
  unfold new TdmsFile.new buildIndex
  rw [debug_openLoop]

theorem debug_writeChannels {α : Type} (S : Storage α) (e : Endian) (t : TdmsFile) (cs : List ChannelPath)
    (vals : List α) (layout : DataLayout) :
    debug.writeChannels S e t cs vals layout = t.writeChannels S e cs vals layout := by
  unfold writeChannels TdmsFile.writeChannels
  simp only [debug_addSegment]

theorem debug_writeProperties (e : Endian) (t : TdmsFile) (path : PropertyPath)
    (ps : List (Text × PropertyValue)) : debug.writeProperties e t path ps = t.writeProperties e path ps := by
  unfold writeProperties TdmsFile.writeProperties
  simp only [debug_addSegment]

theorem debug_run (al : Alloc) (t : TdmsFile) (op : Op) : debug.run al t op = op.run al t := by
  cases op with
  | write => exact debug_writeChannels _ _ _ _ _ _
  | props => exact debug_writeProperties _ _ _ _

section
variable {α : Type} (S : Storage α)

theorem debug_blockSize (plan : List (RecordEntry α)) : debug.blockSize S plan = Tedium.blockSize S plan := rfl

theorem debug_readSequential (e : Endian) (out : OutIter α) (n : Nat) :
    debug.readSequential S e out n = Tedium.readSequential S e out n := rfl

theorem debug_readSubBlock (e : Endian) : ∀ (plan : List (RecordEntry α)) (length : Nat),
    debug.readSubBlock S e length plan = Tedium.readSubBlock S e length plan := by
  intro plan
  induction plan with
  | nil => intro _; rfl
  | cons en rest ih =>
    intro length
    unfold readSubBlock Tedium.readSubBlock
    simp only [ih, debug_readSequential]
    rfl

theorem debug_contigLoop (e : Endian) (bs toSkip remainder : Nat) : ∀ (n idx : Nat) (plan : List (RecordEntry α))
    (length : Nat), debug.contigLoop S e bs toSkip remainder n idx plan length =
      Tedium.contigLoop S e bs toSkip remainder n idx plan length := by
  intro n
  induction n with
  | zero => intro _ _ _; rfl
  | succ n ih =>
    intro idx plan length
    unfold contigLoop Tedium.contigLoop
    simp only [ih, debug_readSubBlock]

theorem debug_contigReadFrom (e : Endian) (start size : Nat) (plan : List (RecordEntry α)) (k : Nat) :
    debug.contigReadFrom S e start size plan k = Tedium.contigReadFrom S e start size plan k := by
  unfold contigReadFrom Tedium.contigReadFrom
  simp only [debug_contigLoop, debug_blockSize]

theorem debug_contigSkipLoop (e : Endian) (bs : Nat) (toSkip rem : List Nat) : ∀ (n idx : Nat)
    (plan : List (RecordEntry α)) (length : Nat), debug.contigSkipLoop S e bs toSkip rem n idx plan length =
      Tedium.contigSkipLoop S e bs toSkip rem n idx plan length := by
  intro n
  induction n with
  | zero => intro _ _ _; rfl
  | succ n ih =>
    intro idx plan length
    unfold contigSkipLoop Tedium.contigSkipLoop
    simp only [ih, debug_readSubBlock]

theorem debug_contigReadSkip (e : Endian) (start size : Nat) (plan : List (RecordEntry α)) (ks : List Nat) :
    debug.contigReadSkip S e start size plan ks = Tedium.contigReadSkip S e start size plan ks := by
  unfold contigReadSkip Tedium.contigReadSkip
  simp only [debug_contigSkipLoop, debug_blockSize]

theorem debug_interRead (e : Endian) (start size : Nat) (plan : List (RecordEntry α)) :
    debug.interRead S e start size plan = Tedium.interRead S e start size plan := rfl

theorem debug_readBlock (f : Bytes) (b : DataBlock) (reqs : List (ChannelRequest α)) :
    debug.readBlock S f b reqs = b.read S f reqs := by
  unfold readBlock DataBlock.read
  simp only [debug_contigReadFrom, debug_interRead]
  rfl

theorem debug_readBlockSkip (f : Bytes) (b : DataBlock) (reqs : List (ChannelRequest α)) :
    debug.readBlockSkip S f b reqs = b.readWithSkip S f reqs := by
  unfold readBlockSkip DataBlock.readWithSkip
  simp only [debug_contigReadSkip, debug_interRead]
  rfl

theorem debug_executeBlock (t : TdmsFile) (loc : BlockRead) (ps : List (Progress α)) :
    debug.executeBlock S t loc ps = Tedium.executeBlock S t loc ps := by
  unfold executeBlock Tedium.executeBlock
  simp only [debug_readBlock, debug_readBlockSkip]
  rfl

theorem debug_executePlan (t : TdmsFile) : ∀ (plan : List BlockRead) (ps : List (Progress α)),
    debug.executePlan S t plan ps = Tedium.executePlan S t plan ps := by
  intro plan
  induction plan with
  | nil => intro _; rfl
  | cons loc locs ih =>
    intro ps
    unfold executePlan Tedium.executePlan
    simp only [ih, debug_executeBlock]
    rfl

theorem debug_readChannelsFrom (t : TdmsFile) (cs : List ChannelPath) (start : Nat) (outs : List (List α)) :
    debug.readChannelsFrom S t cs start outs = t.readChannelsFrom S cs start outs := by
  unfold readChannelsFrom TdmsFile.readChannelsFrom
  simp only [debug_executePlan]

theorem debug_readChannelFrom (t : TdmsFile) (c : ChannelPath) (start : Nat) (out : List α) :
    debug.readChannelFrom S t c start out = t.readChannelFrom S c start out := by
  unfold readChannelFrom TdmsFile.readChannelFrom
  simp only [debug_executePlan]
  rfl

end
end Build

/-! ## Where the builds differ -/

/-- `y` is `x`, unless `x` is an overflow panic. -/
def R.Unless {α : Type} (x y : R α) : Prop := x = R.panic .overflow ∨ y = x

def Rd.Unless {α : Type} (x y : Rd α) : Prop := ∀ f p, R.Unless (x f p) (y f p)

namespace R.Unless
variable {α β : Type}

theorem rfl {x : R α} : R.Unless x x := Or.inr (Eq.refl _)

theorem bind {x y : R α} {k l : α → R β} (h : R.Unless x y) (hk : ∀ a, R.Unless (k a) (l a)) :
    R.Unless (x >>= k) (y >>= l) := by
  rcases h with h | h
  · subst h; exact Or.inl (Eq.refl _)
  · subst h
    cases y with
    | error e => exact Or.inr (Eq.refl _)
    | ok a => exact hk a

theorem ite {c : Prop} [Decidable c] {x y x' y' : R α} (hx : R.Unless x x') (hy : R.Unless y y') :
    R.Unless (if c then x else y) (if c then x' else y') := by
  split
  · exact hx
  · exact hy

end R.Unless

namespace Rd.Unless
variable {α β : Type}

theorem rfl {x : Rd α} : Rd.Unless x x := fun _ _ => Or.inr (Eq.refl _)

theorem bind {x y : Rd α} {k l : α → Rd β} (h : Rd.Unless x y) (hk : ∀ a, Rd.Unless (k a) (l a)) :
    Rd.Unless (x >>= k) (y >>= l) := by
  intro f p
  rw [Rd.bind_eq, Rd.bind_eq]
  rcases h f p with h | h
  · rw [h]; exact Or.inl (Eq.refl _)
  · rw [h]
    cases x f p with
    | error e => exact Or.inr (Eq.refl _)
    | ok r => exact hk r.1 f r.2

theorem lift {x y : R α} (h : R.Unless x y) : Rd.Unless (Rd.lift x) (Rd.lift y) := by
  intro f p
  rcases h with h | h
  · rw [h]; exact Or.inl (Eq.refl _)
  · rw [h]; exact Or.inr (Eq.refl _)

theorem ite {c : Prop} [Decidable c] {x y x' y' : Rd α} (hx : Rd.Unless x x') (hy : Rd.Unless y y') :
    Rd.Unless (if c then x else y) (if c then x' else y') := by
  split
  · exact hx
  · exact hy

end Rd.Unless

theorem wrapI64_eq {x : Int} (h : -(2 ^ 63) ≤ x ∧ x < 2 ^ 63) : wrapI64 x = x := by
  unfold wrapI64
  rw [Int.emod_eq_of_lt] <;> omega

theorem mul_unless (a b : Int) : R.Unless (mulI64 a b) (Build.release.mul a b) := by
  unfold mulI64
  split
  · rename_i h
    right
    show Except.ok (wrapI64 (a * b)) = _
    rw [wrapI64_eq h]
  · exact Or.inl rfl

theorem sum_unless (n : Nat) : R.Unless (Build.debug.sum n) (Build.release.sum n) := by
  unfold Build.debug Build.release
  dsimp only
  split
  · rename_i h
    right
    rw [Nat.mod_eq_of_lt h]
  · exact Or.inl rfl

section
variable {α : Type} (S : Storage α)

theorem readSequential_unless (e : Endian) (out : OutIter α) (n : Nat) :
    Rd.Unless (readSequential S e out n) (Build.release.readSequential S e out n) := by
  unfold readSequential Build.readSequential
  refine Rd.Unless.rfl.bind (fun r => ?_)
  refine Rd.Unless.ite ?_ .rfl
  exact (Rd.Unless.lift (mul_unless _ _)).bind (fun _ => .rfl)

theorem readSubBlock_unless (e : Endian) : ∀ (plan : List (RecordEntry α)) (length : Nat),
    Rd.Unless (readSubBlock S e length plan) (Build.release.readSubBlock S e length plan) := by
  intro plan
  induction plan with
  | nil => intro _; exact .rfl
  | cons en rest ih =>
    intro length
    obtain ⟨len, pl⟩ := en
    unfold readSubBlock Build.readSubBlock
    cases pl with
    | read slot out k =>
      refine Rd.Unless.ite ((Rd.Unless.lift (mul_unless _ _)).bind (fun _ => Rd.Unless.rfl.bind (fun _ => ?_))) ?_
      all_goals exact (readSequential_unless S e _ _).bind (fun _ => (ih _).bind (fun _ => .rfl))
    | skip b =>
      exact (Rd.Unless.lift (mul_unless _ _)).bind (fun _ => Rd.Unless.rfl.bind (fun _ => (ih _).bind (fun _ => .rfl)))

theorem contigLoop_unless (e : Endian) (bs toSkip remainder : Nat) : ∀ (n idx : Nat) (plan : List (RecordEntry α))
    (length : Nat), Rd.Unless (contigLoop S e bs toSkip remainder n idx plan length)
      (Build.release.contigLoop S e bs toSkip remainder n idx plan length) := by
  intro n
  induction n with
  | zero => intro _ _ _; exact .rfl
  | succ n ih =>
    intro idx plan length
    unfold contigLoop Build.contigLoop
    refine Rd.Unless.ite (Rd.Unless.rfl.bind (fun _ => ih _ _ _)) (Rd.Unless.ite ?_ ?_)
    all_goals exact (readSubBlock_unless S e _ _).bind (fun _ => ih _ _ _)

theorem contigReadFrom_unless (e : Endian) (start size : Nat) (plan : List (RecordEntry α)) (k : Nat) :
    Rd.Unless (contigReadFrom S e start size plan k) (Build.release.contigReadFrom S e start size plan k) :=
  Rd.Unless.rfl.bind (fun _ => (Rd.Unless.lift (sum_unless _)).bind (fun _ => Rd.Unless.rfl.bind (fun _ =>
    Rd.Unless.rfl.bind (fun _ => Rd.Unless.rfl.bind (fun _ => contigLoop_unless S e _ _ _ _ _ _ _)))))

theorem contigSkipLoop_unless (e : Endian) (bs : Nat) (toSkip rem : List Nat) : ∀ (n idx : Nat)
    (plan : List (RecordEntry α)) (length : Nat), Rd.Unless (contigSkipLoop S e bs toSkip rem n idx plan length)
      (Build.release.contigSkipLoop S e bs toSkip rem n idx plan length) := by
  intro n
  induction n with
  | zero => intro _ _ _; exact .rfl
  | succ n ih =>
    intro idx plan length
    unfold contigSkipLoop Build.contigSkipLoop
    exact Rd.Unless.ite ((readSubBlock_unless S e _ _).bind (fun _ => ih _ _ _))
      (Rd.Unless.rfl.bind (fun _ => ih _ _ _))

theorem contigReadSkip_unless (e : Endian) (start size : Nat) (plan : List (RecordEntry α)) (ks : List Nat) :
    Rd.Unless (contigReadSkip S e start size plan ks) (Build.release.contigReadSkip S e start size plan ks) :=
  Rd.Unless.rfl.bind (fun _ => (Rd.Unless.lift (sum_unless _)).bind (fun _ => Rd.Unless.rfl.bind (fun _ =>
    Rd.Unless.rfl.bind (fun _ => Rd.Unless.rfl.bind (fun _ => contigSkipLoop_unless S e _ _ _ _ _ _ _)))))

theorem interRead_unless (e : Endian) (start size : Nat) (plan : List (RecordEntry α)) :
    Rd.Unless (interRead S e start size plan) (Build.release.interRead S e start size plan) := by
  unfold interRead Build.interRead
  refine Rd.Unless.rfl.bind (fun _ => Rd.Unless.rfl.bind (fun _ => ?_))
  exact Rd.Unless.ite ((Rd.Unless.lift (mul_unless _ _)).bind (fun _ => .rfl)) .rfl

theorem readBlock_unless (f : Bytes) (b : DataBlock) (reqs : List (ChannelRequest α)) :
    R.Unless (b.read S f reqs) (Build.release.readBlock S f b reqs) := by
  unfold DataBlock.read Build.readBlock
  refine R.Unless.rfl.bind (fun plan => ?_)
  cases b.layout with
  | contigious => exact R.Unless.bind (contigReadFrom_unless S _ _ _ _ _ _ _) (fun _ => .rfl)
  | interleaved => exact R.Unless.bind (interRead_unless S _ _ _ _ _ _) (fun _ => .rfl)

theorem readBlockSkip_unless (f : Bytes) (b : DataBlock) (reqs : List (ChannelRequest α)) :
    R.Unless (b.readWithSkip S f reqs) (Build.release.readBlockSkip S f b reqs) := by
  unfold DataBlock.readWithSkip Build.readBlockSkip
  refine R.Unless.rfl.bind (fun plan => ?_)
  cases b.layout with
  | contigious => exact R.Unless.bind (contigReadSkip_unless S _ _ _ _ _ _ _) (fun _ => .rfl)
  | interleaved => exact R.Unless.bind (interRead_unless S _ _ _ _ _ _) (fun _ => .rfl)

theorem executeBlock_unless (t : TdmsFile) (loc : BlockRead) (ps : List (Progress α)) :
    R.Unless (executeBlock S t loc ps) (Build.release.executeBlock S t loc ps) := by
  rw [← Build.debug_executeBlock]
  unfold Build.executeBlock
  dsimp only
  split
  · exact .rfl
  · rename_i block _
    have hr := readBlock_unless S t.bytes block (blockRequests 0 loc.channelIndexes ps)
    have hs := readBlockSkip_unless S t.bytes block (blockRequests 0 loc.channelIndexes ps)
    rw [← Build.debug_readBlock] at hr
    rw [← Build.debug_readBlockSkip] at hs
    generalize (loc.channelIndexes.any _) = c
    cases c
    · rw [if_neg Bool.false_ne_true, if_neg Bool.false_ne_true]
      rcases hr with h | h
      · rw [h]; exact Or.inl rfl
      · rw [h]; exact .rfl
    · rw [if_pos rfl, if_pos rfl]
      rcases hs with h | h
      · rw [h]; exact Or.inl rfl
      · rw [h]; exact .rfl

theorem executePlan_unless (t : TdmsFile) : ∀ (plan : List BlockRead) (ps : List (Progress α)),
    R.Unless (executePlan S t plan ps) (Build.release.executePlan S t plan ps) := by
  intro plan
  induction plan with
  | nil => intro _; exact .rfl
  | cons loc locs ih =>
    intro ps
    unfold executePlan Build.executePlan
    rcases executeBlock_unless S t loc ps with h | h
    · rw [h]; exact Or.inl rfl
    · rw [h]
      cases executeBlock S t loc ps with
      | error e => exact .rfl
      | ok qs => exact R.Unless.ite .rfl (ih qs)

theorem readChannelsFrom_unless (t : TdmsFile) (cs : List ChannelPath) (start : Nat) (outs : List (List α)) :
    R.Unless (t.readChannelsFrom S cs start outs) (Build.release.readChannelsFrom S t cs start outs) :=
  R.Unless.rfl.bind (fun _ => R.Unless.rfl.bind (fun _ => (executePlan_unless S t _ _).bind (fun _ => .rfl)))

theorem readChannelFrom_unless (t : TdmsFile) (c : ChannelPath) (start : Nat) (out : List α) :
    R.Unless (t.readChannelFrom S c start out) (Build.release.readChannelFrom S t c start out) := by
  unfold TdmsFile.readChannelFrom Build.readChannelFrom
  cases t.index.getChannelDataPositions c with
  | none => exact .rfl
  | some ls => exact R.Unless.rfl.bind (fun _ => (executePlan_unless S t _ _).bind (fun _ => .rfl))

end

theorem channelLength_unless (t : TdmsFile) (c : ChannelPath) :
    R.Unless (t.channelLength c) (Build.release.channelLength t c) := by
  rw [← Build.debug_channelLength]
  unfold Build.channelLength
  split
  · exact .rfl
  · exact (sum_unless _).bind (fun _ => .rfl)

/-! ## The index -/

theorem fromSegment_unless (s : Segment) (start : Nat) (ms : List RawDataMeta) :
    R.Unless (DataBlock.fromSegment s start ms) (Build.release.fromSegment s start ms) := by
  rw [← Build.debug_fromSegment]
  unfold Build.fromSegment
  refine R.Unless.ite .rfl (R.Unless.ite .rfl (R.Unless.ite .rfl ?_))
  exact (sum_unless _).bind (fun _ => .rfl)

theorem addRawData_unless (ix : Index) (s : Segment) :
    (ix.addRawData s).1 = R.panic .overflow ∨ Build.release.addRawData ix s = ix.addRawData s := by
  unfold Index.addRawData Build.addRawData
  by_cases hr : s.toc.containsRawData = true
  · rw [if_pos hr, if_pos hr]
    cases Index.activeRawDataMeta ix.objects ix.activeObjects with
    | error e => exact Or.inr rfl
    | ok ms =>
      dsimp only
      by_cases hm : ms.isEmpty = true
      · rw [if_pos hm, if_pos hm]; exact Or.inr rfl
      · rw [if_neg hm, if_neg hm]
        rcases fromSegment_unless s ix.nextSegmentStart ms with h | h
        · rw [h]; exact Or.inl rfl
        · rw [h]; exact Or.inr rfl
  · rw [if_neg hr, if_neg hr]; exact Or.inr rfl

theorem Build.addSegment_eq (B : Build) (ix : Index) (s : Segment) :
    B.addSegment ix s =
      match afterObjects ix s with
      | (.error e, ix) => (.error e, ix)
      | (.ok (), ix) =>
        match B.addRawData ix s with
        | (.error e, ix) => (.error e, ix)
        | (.ok (), ix) => ix.advance s := by
  unfold Build.addSegment afterObjects entriesOf
  cases s.metaData <;> rfl

theorem addSegment_unless (ix : Index) (s : Segment) :
    (ix.addSegment s).1 = R.panic .overflow ∨ Build.release.addSegment ix s = ix.addSegment s := by
  rw [addSegment_eq, Build.addSegment_eq]
  obtain ⟨r, ix1⟩ := afterObjects ix s
  cases r with
  | error e => exact Or.inr rfl
  | ok u =>
    dsimp only
    rcases addRawData_unless ix1 s with h | h
    · left
      revert h
      cases ix1.addRawData s with
      | mk r2 ix2 => intro h; dsimp only at h; subst h; rfl
    · rw [h]; exact Or.inr rfl

end Tedium
