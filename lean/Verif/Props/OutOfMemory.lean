import Verif.Proofs.Alloc
import Verif.Props.Joint

/-! # Memory (C56) -/

namespace Tedium
open SegSpec WriteSpec ReadSpec

theorem cells_eq {α : Type} : ∀ (k : Nat) (as : List α), Cells (fun _ a b => a = b) (fun _ => True) k as as
  | _, [] => trivial
  | k, _ :: as => ⟨rfl, cells_eq (k + 1) as⟩

theorem bufRel_eq {α : Type} : ∀ (s : Nat) (os : List (List α)),
    BufRel (fun _ _ a b => a = b) (fun _ _ => True) s os os
  | _, [] => trivial
  | s, o :: os => ⟨cells_eq 0 o, bufRel_eq (s + 1) os⟩

theorem eq_of_cells {α : Type} : ∀ {k : Nat} {as bs : List α}, Cells (fun _ a b => a = b) (fun _ => True) k as bs → as = bs
  | _, [], [], _ => rfl
  | _, _ :: _, _ :: _, h => by rw [h.1, eq_of_cells h.2]

theorem eq_of_bufRel {α : Type} : ∀ {s : Nat} {os os' : List (List α)},
    BufRel (fun _ _ a b => a = b) (fun _ _ => True) s os os' → os = os'
  | _, [], [], _ => rfl
  | _, _ :: _, _ :: _, h => by rw [eq_of_cells h.1, eq_of_bufRel h.2]

theorem eq_or_bad {α : Type} {bad : Fail → Prop} {x y : R α} (h : ResRel bad Eq x y) :
    x = y ∨ ∃ e, bad e ∧ x = .error e := by
  cases x with
  | error e =>
    rcases h with h | h
    · exact Or.inr ⟨e, h, rfl⟩
    · exact Or.inl h.symm
  | ok a =>
    cases y with
    | error e => exact h.elim
    | ok b => exact Or.inl (congrArg Except.ok h)

/-- **C56, opening.** Whatever requests for memory the allocator refuses while a file is opened, for every byte
    string: the call does what it would do if none were refused, or returns an allocation error. -/
theorem open_memory (al al' : Alloc) (h' : Generous al') (f : Bytes) :
    TdmsFile.new al f = TdmsFile.new al' f ∨ ∃ e, OutOfMemory e ∧ TdmsFile.new al f = .error e := by
  have h : ResRel OutOfMemory Eq (buildIndex al f) (buildIndex al' f) := openLoop_rel h' f _ _ _
  unfold TdmsFile.new
  refine eq_or_bad (h.bind (fun a b hab => ?_))
  subst hab
  rfl

/-- **C56, reading.** The same for reading several channels, in every state of a file. -/
theorem read_channels_memory (al al' : Alloc) (h' : Generous al') (ty : STy) (t : TdmsFile) (cs : List ChannelPath)
    (start : Nat) (outs : List (List ty.Val)) :
    t.readChannelsFrom (ty.storage al) cs start outs = t.readChannelsFrom (ty.storage al') cs start outs ∨
    ∃ e, OutOfMemory e ∧ t.readChannelsFrom (ty.storage al) cs start outs = .error e :=
  eq_or_bad ((readChannelsFrom_rel (STy.storage_rel h' ty) (fun _ _ _ _ _ _ _ h => h) t cs start (bufRel_eq 0 outs)).imp
    (fun _ _ h => eq_of_bufRel h))

/-- **C56, reading.** The same for reading one channel. -/
theorem read_channel_memory (al al' : Alloc) (h' : Generous al') (ty : STy) (t : TdmsFile) (c : ChannelPath)
    (start : Nat) (out : List ty.Val) :
    t.readChannelFrom (ty.storage al) c start out = t.readChannelFrom (ty.storage al') c start out ∨
    ∃ e, OutOfMemory e ∧ t.readChannelFrom (ty.storage al) c start out = .error e := by
  have h := read_channels_memory al al' h' ty t [c] start [out]
  rw [read_channels_single, read_channels_single] at h
  revert h
  cases t.readChannelFrom (ty.storage al) c start out with
  | error e =>
    rintro (h | ⟨e', h1, h2⟩)
    · revert h
      cases t.readChannelFrom (ty.storage al') c start out with
      | error e' => intro h; exact Or.inl (congrArg Except.error (Except.error.inj h))
      | ok b => intro h; cases h
    · exact Or.inr ⟨e', h1, congrArg Except.error (Except.error.inj h2)⟩
  | ok a =>
    rintro (h | ⟨e', h1, h2⟩)
    · revert h
      cases t.readChannelFrom (ty.storage al') c start out with
      | error e' => intro h; cases h
      | ok b => intro h; exact Or.inl (congrArg Except.ok (List.cons.inj (Except.ok.inj h)).1)
    · cases h2

/-! ### Without a refusal there is no allocation error -/

/-- a reading action that reports no allocation error -/
def Quiet {α : Type} (x : Rd α) : Prop := ∀ f p e, x f p = .error e → ¬ OutOfMemory e

theorem Quiet.bind {α β : Type} {x : Rd α} {k : α → Rd β} (h : Quiet x) (hk : ∀ a, Quiet (k a)) : Quiet (x >>= k) := by
  intro f p e he
  replace he : Rd.bind x k f p = .error e := he
  unfold Rd.bind at he
  cases hx : x f p with
  | error e' => rw [hx] at he; cases he; exact h f p _ hx
  | ok u => rw [hx] at he; exact hk _ _ _ _ he

theorem Quiet.pure {α : Type} (a : α) : Quiet (Pure.pure a : Rd α) := by
  intro f p e he; cases he

theorem quiet_err {α : Type} {er : TdmsError} (h1 : er ≠ .vecAllocationFailed) (h2 : er ≠ .stringAllocationFailed)
    (h3 : er ≠ .propertyTableAllocationFailed) : Quiet (Rd.fail er : Rd α) := by
  intro f p e he
  cases he
  rintro (h | h | h) <;> cases h <;> contradiction

theorem quiet_exact (n : Nat) : Quiet (Rd.exact n) := by
  intro f p e he
  unfold Rd.exact at he
  split at he
  · cases he
  · cases he; rintro (h | h | h) <;> cases h

theorem quiet_uint (e : Endian) (n : Nat) : Quiet (Rd.uint e n) := (quiet_exact n).bind (fun _ => Quiet.pure _)

theorem Quiet.generous {α : Type} {al : Alloc} {r : AllocReq} {x y : Rd α} (h : Generous al) (hx : Quiet x) :
    Quiet (if al r then x else y) := by
  rw [if_pos (h r)]; exact hx

theorem quiet_many {α : Type} {x : Rd α} (h : Quiet x) : ∀ n, Quiet (Rd.many x n)
  | 0 => Quiet.pure _
  | n + 1 => h.bind (fun _ => (quiet_many h n).bind (fun _ => Quiet.pure _))

theorem quiet_storage {al : Alloc} (h : Generous al) (ty : STy) (e : Endian) : Quiet ((ty.storage al).read e) := by
  have hnum : ∀ w a b, Quiet ((numeric w a b).read e) := fun w a b => (quiet_exact w).bind (fun _ => Quiet.pure _)
  cases ty
  case string =>
    refine (quiet_uint e 4).bind (fun n => Quiet.generous h ((quiet_exact n).bind (fun b => ?_)))
    cases utf8Dec b with
    | none => exact quiet_err (by decide) (by decide) (by decide)
    | some t => exact Quiet.pure _
  case bool => exact (quiet_exact 1).bind (fun _ => Quiet.pure _)
  case extended => exact (quiet_exact 10).bind (fun _ => by cases e <;> exact Quiet.pure _)
  case timestamp => exact (quiet_exact 16).bind (fun _ => Quiet.pure _)
  case complex32 => exact (hnum _ _ _).bind (fun _ => (hnum _ _ _).bind (fun _ => Quiet.pure _))
  case complex64 => exact (hnum _ _ _).bind (fun _ => (hnum _ _ _).bind (fun _ => Quiet.pure _))
  all_goals exact hnum _ _ _

theorem quiet_dataType (e : Endian) : Quiet (readDataType e) := by
  refine (quiet_uint e 4).bind (fun n => ?_)
  cases DataType.ofCode? n with
  | none => exact quiet_err (by rintro h; cases h) (by rintro h; cases h) (by rintro h; cases h)
  | some t => exact Quiet.pure _

theorem quiet_value {al : Alloc} (h : Generous al) (e : Endian) : Quiet (PropertyValue.read al e) := by
  refine (quiet_dataType e).bind (fun ty => ?_)
  cases ty
  case void => exact Quiet.pure _
  case fixedPoint => exact quiet_err (by rintro h; cases h) (by rintro h; cases h) (by rintro h; cases h)
  case daqmxRawData => exact quiet_err (by rintro h; cases h) (by rintro h; cases h) (by rintro h; cases h)
  all_goals exact (quiet_storage h _ e).bind (fun _ => Quiet.pure _)

theorem quiet_rawIndex (e : Endian) : Quiet (RawDataIndex.read e) := by
  refine (quiet_uint e 4).bind (fun n => ?_)
  repeat' split
  · exact Quiet.pure _
  · exact Quiet.pure _
  · exact quiet_err (by decide) (by decide) (by decide)
  · exact quiet_err (by decide) (by decide) (by decide)
  · exact (quiet_dataType e).bind (fun _ => (quiet_uint e 4).bind (fun _ => (quiet_uint e 8).bind (fun _ => Quiet.pure _)))

theorem quiet_object {al : Alloc} (h : Generous al) (e : Endian) : Quiet (ObjectMetaData.read al e) :=
  Quiet.bind (quiet_storage h .string e) (fun _ => (quiet_rawIndex e).bind (fun _ => (quiet_uint e 4).bind (fun n =>
    Quiet.generous h ((quiet_many (Quiet.bind (quiet_storage h .string e) (fun _ => (quiet_value h e).bind
      (fun _ => Quiet.pure _))) n).bind (fun _ => Quiet.pure _)))))

theorem quiet_readSegment {al : Alloc} (h : Generous al) (e : Endian) (toc : ToC) : Quiet (Segment.readSegment al e toc) :=
  (quiet_uint e 4).bind (fun _ => (quiet_uint e 8).bind (fun _ => (quiet_uint e 8).bind (fun _ =>
    Quiet.bind ((quiet_uint e 4).bind (fun n => Quiet.generous h ((quiet_many (quiet_object h e) n).bind (fun _ => Quiet.pure _))))
      (fun _ => Quiet.pure _))))

theorem quiet_segment {al : Alloc} (h : Generous al) : Quiet (Segment.read al) := by
  intro f p e he
  unfold Segment.read at he
  split at he
  · cases he; rintro (h | h | h) <;> cases h
  · rename_i hx; cases he; exact quiet_exact 4 f p _ hx
  · split at he
    · cases he; rintro (h | h | h) <;> cases h
    · exact ((quiet_exact 4).bind (fun _ => quiet_readSegment h _ _)) f _ _ he

/-- **C56, opening, the other direction.** When no request is refused, opening reports no allocation error. -/
theorem open_memory_enough (al : Alloc) (h : Generous al) (f : Bytes) (e : Fail) (he : TdmsFile.new al f = .error e) :
    ¬ OutOfMemory e := by
  have hb : buildIndex al f = .error e := by
    unfold TdmsFile.new at he
    cases hb : buildIndex al f with
    | error e' => rw [hb] at he; cases he; rfl
    | ok ix => rw [hb] at he; cases he
  have hloop : ∀ (fuel pos : Nat) (ix : Index), Inv ix → openLoop al f fuel pos ix = .error e → ¬ OutOfMemory e := by
    intro fuel
    induction fuel with
    | zero => intro pos ix _ h; cases h; rintro (h | h | h) <;> cases h
    | succ fuel ih =>
      intro pos ix hi hl
      unfold openLoop at hl
      split at hl
      · cases hl
      · rename_i hx; cases hl; exact quiet_segment h f pos _ hx
      · rename_i s q hx
        have hadd := hi.addSegment s
        revert hl hadd
        cases ix.addSegment s with
        | mk r ix2 =>
          cases r with
          | ok n => intro hl hadd; exact ih _ _ hadd.1 hl
          | error er =>
            intro hl hadd
            cases hl
            rcases hadd.2 with ⟨n, hok, _⟩ | ⟨e', he', hse, _⟩
            · cases hok
            · cases he'
              cases hse with
              | noPrevious => rintro (h | h | h) <;> cases h
              | address _ => rintro (h | h | h) <;> cases h
              | raw hraw hre => cases hre <;> (rintro (h | h | h) <;> cases h)
  exact hloop _ _ _ Reach.new.inv hb

/-- An allocator that refuses strings of more than `n` bytes. -/
def smallStrings (n : Nat) : Alloc
  | .str k => k ≤ n
  | _ => true

/-- Both cases for opening: the paths in the file have eight bytes. -/
theorem memory_example :
    TdmsFile.new (smallStrings 7) (fileOf windowFile) = R.err .stringAllocationFailed ∧
    TdmsFile.new (smallStrings 8) (fileOf windowFile) = TdmsFile.new anyAlloc (fileOf windowFile) := by
  constructor <;> decide +kernel

end Tedium
