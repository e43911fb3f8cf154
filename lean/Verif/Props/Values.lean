import Verif.Model.Chrono
import Verif.Props.Codec
import Verif.Props.Index
import Verif.Props.Reopen

/-! # C65: typed properties and dates -/

namespace Tedium
open SegSpec WriteSpec

/-- The call gives no value to this property of this object. -/
def Op.LeavesAlone (path n : Text) (op : Op) : Prop := ∀ v, (n, v) ∉ op.propsFor path

theorem lastValue_append (a b : List (Text × PropertyValue)) (n : Text) :
    lastValue (a ++ b) n = (lastValue b n).or (lastValue a n) := by
  unfold lastValue
  rw [List.filter_append, List.getLast?_append]
  cases ((b.filter (fun p => p.1 = n)).getLast?) <;> rfl

theorem lastValue_none {ps : List (Text × PropertyValue)} {n : Text} (h : ∀ v, (n, v) ∉ ps) : lastValue ps n = none := by
  unfold lastValue
  rw [show ps.filter (fun p => p.1 = n) = [] from ?_]
  · rfl
  · rw [List.filter_eq_nil_iff]
    intro p hp hpn
    have := of_decide_eq_true hpn
    subst this
    exact h p.2 hp

/-- Nothing else than the last value given to the property matters. -/
theorem property_read_back (al : Alloc) (t : TdmsFile) (before after : List Op) (e : Endian) (path : PropertyPath) (n : Text)
    (p : PropertyValue) (ps qs : List (Text × PropertyValue)) (hqs : ∀ v, (n, v) ∉ qs)
    (hafter : ∀ op ∈ after, op.LeavesAlone path.path n) :
    (runOps al t (before ++ .props e path (ps ++ (n, p) :: qs) :: after)).readProperty path n = .ok (some p) := by
  have h := last_write_wins al t (before ++ .props e path (ps ++ (n, p) :: qs) :: after) path n
  have h1 : lastValue (after.flatMap (Op.propsFor path.path)) n = none := by
    apply lastValue_none
    intro v hv
    obtain ⟨op, ho, hm⟩ := List.mem_flatMap.mp hv
    exact hafter op ho v hm
  have h2 : lastValue (ps ++ (n, p) :: qs) n = some p := by
    rw [show ps ++ (n, p) :: qs = (ps ++ [(n, p)]) ++ qs by simp, lastValue_append, lastValue_none hqs, Option.none_or,
      lastValue_append]
    simp [lastValue]
  rw [List.flatMap_append, List.flatMap_cons, lastValue_append, lastValue_append, h1, Option.none_or,
    show Op.propsFor path.path (.props e path (ps ++ (n, p) :: qs)) = ps ++ (n, p) :: qs from if_pos rfl, h2] at h
  rw [Option.some_or, Option.some_or] at h
  cases hr : (runOps al t (before ++ .props e path (ps ++ (n, p) :: qs) :: after)).readProperty path n with
  | error e => rw [hr] at h; cases h
  | ok v => rw [hr] at h; cases h; rfl

/-- **C65.** A value of any type that can be made a property, written under a name, is found again under that name after any
    further calls that do not set the property, on any file, and converts back to the same value; a conversion to
    another type is refused, naming both types. -/
theorem typed_property (al : Alloc) (t : TdmsFile) (before after : List Op) (e : Endian) (path : PropertyPath) (n : Text)
    (ty : STy) (v : ty.Val) (p : PropertyValue) (hp : PropertyValue.ofVal? ty v = some p)
    (hafter : ∀ op ∈ after, op.LeavesAlone path.path n) :
    (runOps al t (before ++ .props e path [(n, p)] :: after)).readProperty path n = .ok (some p) ∧
    PropertyValue.toVal ty p = .ok v ∧
    ∀ ty' : STy, ty' ≠ ty → ty' ≠ .extended →
      PropertyValue.toVal ty' p = R.err (.dataTypeMismatch (ty.storage al).natural (ty'.storage al).natural) := by
  refine ⟨property_read_back al t before after e path n p [] [] (fun _ h => by cases h) hafter,
    property_conversion_roundtrip ty v p hp, fun ty' hne hext => ?_⟩
  cases ty <;> simp only [PropertyValue.ofVal?, Option.some.injEq, reduceCtorEq] at hp <;> subst hp <;>
    cases ty' <;> first | exact absurd rfl hne | exact absurd rfl hext | rfl

/-- **C65, dates.** A date written as a property is found again and converted to what `labview-interop` makes of it when it
    converts it there and back, with an error of that conversion passed on; if it converts there and back
    faithfully the date is the same. No other property value is taken for a date. -/
theorem date_property (C : DateTimes) (al : Alloc) (t : TdmsFile) (before after : List Op) (e : Endian) (path : PropertyPath)
    (n : Text) (d : C.DateTime) (hafter : ∀ op ∈ after, op.LeavesAlone path.path n) :
    ∃ p, (runOps al t (before ++ .props e path [(n, .ofDateTime C d)] :: after)).readProperty path n = .ok (some p) ∧
      (∀ d', C.ofLVTime (C.toLVTime d) = .ok d' → p.toDateTime C = .ok d') ∧
      (∀ x, C.ofLVTime (C.toLVTime d) = .error x → p.toDateTime C = .error (.conversionFailed x)) := by
  refine ⟨_, property_read_back al t before after e path n _ [] [] (fun _ h => by cases h) hafter, ?_, ?_⟩
  · intro d' h
    simp only [PropertyValue.toDateTime, PropertyValue.ofDateTime, PropertyValue.toVal, h]
  · intro x h
    simp only [PropertyValue.toDateTime, PropertyValue.ofDateTime, PropertyValue.toVal, h]

/-- **C65, dates from anywhere.** The outcome of converting any property value to a date. -/
theorem date_conversion (C : DateTimes) (p : PropertyValue) :
    (∀ d, p.toDateTime C = .ok d ↔ ∃ time, p = .timestamp time ∧ C.ofLVTime time = .ok d) ∧
    (∀ x, p.toDateTime C = .error (.conversionFailed x) ↔ ∃ time, p = .timestamp time ∧ C.ofLVTime time = .error x) ∧
    (∀ f, p.toDateTime C = .error (.other f) ↔
      (∀ time, p ≠ .timestamp time) ∧ f = .err (.dataTypeMismatch p.datatype .timestamp)) := by
  cases p with
  | timestamp time =>
    unfold PropertyValue.toDateTime PropertyValue.toVal
    dsimp only
    cases hc : C.ofLVTime time with
    | ok d =>
      refine ⟨fun d' => ⟨fun h => ?_, ?_⟩, fun x => ⟨fun h => ?_, ?_⟩, fun f => ⟨fun h => ?_, ?_⟩⟩
      · cases h; exact ⟨time, rfl, hc⟩
      · rintro ⟨_, h1, h2⟩; cases h1; rw [hc] at h2; cases h2; rfl
      · cases h
      · rintro ⟨_, h1, h2⟩; cases h1; rw [hc] at h2; cases h2
      · cases h
      · rintro ⟨h1, _⟩; exact absurd rfl (h1 time)
    | error x0 =>
      refine ⟨fun d' => ⟨fun h => ?_, ?_⟩, fun x => ⟨fun h => ?_, ?_⟩, fun f => ⟨fun h => ?_, ?_⟩⟩
      · cases h
      · rintro ⟨_, h1, h2⟩; cases h1; rw [hc] at h2; cases h2
      · cases h; exact ⟨time, rfl, hc⟩
      · rintro ⟨_, h1, h2⟩; cases h1; rw [hc] at h2; cases h2; rfl
      · cases h
      · rintro ⟨h1, _⟩; exact absurd rfl (h1 time)
  | _ =>
    refine ⟨fun d' => ⟨fun h => ?_, ?_⟩, fun x => ⟨fun h => ?_, ?_⟩, fun f => ⟨fun h => ?_, ?_⟩⟩
    · cases h
    · rintro ⟨_, h1, _⟩; cases h1
    · cases h
    · rintro ⟨_, h1, _⟩; cases h1
    · cases h
      exact ⟨fun _ h => (by cases h), rfl⟩
    · rintro ⟨_, rfl⟩; rfl

/-- Dates as seconds since 1904, for the example: only up to the year 9999. -/
def secondDates : DateTimes where
  DateTime := Nat
  Err := Unit
  ofLVTime time := if time.toNat < 300000000000 then .ok time.toNat else .error ()
  toLVTime d := BitVec.ofNat 128 d

/-- An example with a value of each outcome, after reopening as well. -/
theorem typed_property_example :
    let ops : List Op := [writeU16 ["a"] [1, 2], .props .big (.group "g".toList) [("d".toList, .ofDateTime secondDates (5 : Nat))],
      .props .little (.group "g".toList) [("e".toList, .i32 7)], writeU16 ["b"] [1, 2]]
    (∀ op ∈ ops.drop 2, op.LeavesAlone (PropertyPath.group "g".toList).path "d".toList) ∧
    (session ops).readProperty (.group "g".toList) "d".toList = .ok (some (.timestamp 5#128)) ∧
    (do let t ← TdmsFile.new anyAlloc (session ops).bytes; t.readProperty (.group "g".toList) "d".toList)
      = .ok (some (.timestamp 5#128)) ∧
    PropertyValue.toDateTime secondDates (.timestamp 5#128) = .ok (5 : Nat) ∧
    PropertyValue.toDateTime secondDates (.timestamp (BitVec.ofNat 128 (2 ^ 100))) = .error (.conversionFailed ()) ∧
    PropertyValue.toDateTime secondDates (.i32 5) = .error (.other (.err (.dataTypeMismatch .i32 .timestamp))) := by
  refine ⟨?_, by decide +kernel, by decide +kernel, rfl, rfl, rfl⟩
  intro op hop
  simp only [List.drop_succ_cons, List.drop_zero, List.mem_cons, List.not_mem_nil, or_false] at hop
  rcases hop with rfl | rfl
  · intro v hv
    simp only [Op.propsFor, ↓reduceIte, List.mem_cons, List.not_mem_nil, or_false, Prod.mk.injEq] at hv
    exact absurd hv.1 (by decide)
  · intro v hv
    cases hv

end Tedium
