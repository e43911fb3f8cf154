import Verif.Spec.Errors
import Verif.Proofs.BuildReads
import Verif.Proofs.Several

/-! # Helper lemmas: the errors of calls -/

namespace Tedium
open SegSpec PlanSpec WriteSpec

/-- `x` fails only with errors in `E`, or panics. -/
def R.Errs {α : Type} (E : TdmsError → Prop) (x : R α) : Prop := ∀ e, x = R.err e → E e

/-- the same for reading actions -/
def Rd.Errs {α : Type} (E : TdmsError → Prop) (x : Rd α) : Prop := ∀ f p, R.Errs E (x f p)

variable {E : TdmsError → Prop}

namespace R.Errs
variable {α β : Type}

theorem ok {a : α} : R.Errs E (.ok a) := fun _ h => by cases h
theorem err {e : TdmsError} (h : E e) : R.Errs E (R.err e : R α) := fun _ h' => by cases h'; exact h
theorem panic {k : PanicKind} : R.Errs E (R.panic k : R α) := fun _ h => by cases h

theorem error {e : Fail} (h : R.Errs E (.error e : R α)) : R.Errs E (.error e : R β) := fun x hx => by
  cases hx
  exact h x rfl

theorem bind' {x : R α} {k : α → R β} (h : R.Errs E x) (hk : ∀ a, x = .ok a → R.Errs E (k a)) : R.Errs E (x >>= k) := by
  cases x with
  | error e => exact h.error
  | ok a => exact hk a rfl

theorem bind {x : R α} {k : α → R β} (h : R.Errs E x) (hk : ∀ a, R.Errs E (k a)) : R.Errs E (x >>= k) :=
  h.bind' (fun a _ => hk a)

end R.Errs

namespace Rd.Errs
variable {α β : Type}

theorem bind {x : Rd α} {k : α → Rd β} (h : Rd.Errs E x) (hk : ∀ a, Rd.Errs E (k a)) : Rd.Errs E (x >>= k) := by
  intro f p
  rw [Rd.bind_eq]
  have hx := h f p
  cases hxe : x f p with
  | error e =>
    rw [hxe] at hx
    exact hx.error
  | ok r => exact hk r.1 f r.2

theorem pure {a : α} : Rd.Errs E (Pure.pure a : Rd α) := fun _ _ => R.Errs.ok
theorem pure' {a : α} : Rd.Errs E (Rd.pure a : Rd α) := fun _ _ => R.Errs.ok
theorem fail {e : TdmsError} (h : E e) : Rd.Errs E (Rd.fail e : Rd α) := fun _ _ => R.Errs.err h

theorem lift {x : R α} (h : R.Errs E x) : Rd.Errs E (Rd.lift x) := by
  intro f p
  cases x with
  | error e => exact h.error
  | ok a => exact R.Errs.ok

theorem ite {c : Prop} [Decidable c] {x y : Rd α} (hx : c → Rd.Errs E x) (hy : ¬ c → Rd.Errs E y) :
    Rd.Errs E (if c then x else y) := by
  split
  · rename_i h; exact hx h
  · rename_i h; exact hy h

theorem move {off : Int} (h : E (.ioError .invalidInput)) : Rd.Errs E (Rd.move off) := by
  intro f p
  unfold Rd.move
  dsimp only
  split
  · exact .err h
  · exact .ok

theorem seek {n : Nat} : Rd.Errs E (Rd.seek n) := fun _ _ => .ok

theorem exact (n : Nat) (h : E (.ioError .unexpectedEof)) : Rd.Errs E (Rd.exact n) := by
  intro f p
  unfold Rd.exact
  split
  · exact .ok
  · exact .err h

theorem uint (e : Endian) (w : Nat) (h : E (.ioError .unexpectedEof)) : Rd.Errs E (Rd.uint e w) :=
  (exact w h).bind (fun _ => pure)

theorem many {x : Rd α} (h : Rd.Errs E x) : ∀ n, Rd.Errs E (Rd.many x n)
  | 0 => pure'
  | n + 1 => h.bind (fun _ => (many h n).bind (fun _ => pure))

end Rd.Errs

/-! ## Parsing -/

theorem storage_errs (al : Alloc) (ty : STy) (e : Endian) (h : E (.ioError .unexpectedEof))
    (hs : ty = .string → E .stringFormatError ∧ ∀ n, al (.str n) = false → E .stringAllocationFailed) : Rd.Errs E ((ty.storage al).read e) := by
  have hnum : ∀ w n s, Rd.Errs E ((numeric w n s).read e) := fun w n s =>
    (Rd.Errs.exact w h).bind (fun _ => .pure)
  cases ty <;> first
    | exact hnum _ _ _
    | exact (hnum _ _ _).bind (fun _ => (hnum _ _ _).bind (fun _ => .pure))
    | exact (Rd.Errs.exact _ h).bind (fun _ => .pure)
    | skip
  · refine (Rd.Errs.exact 10 h).bind (fun b => ?_)
    cases e <;> exact .pure
  · refine (Rd.Errs.uint e 4 h).bind (fun n => ?_)
    unfold readStringWithLength
    refine Rd.Errs.ite (fun _ => (Rd.Errs.exact n h).bind (fun b => ?_)) (fun hn => .fail ((hs rfl).2 n (Bool.eq_false_iff.mpr hn)))
    cases utf8Dec b with
    | none => exact .fail (hs rfl).1
    | some t => exact .pure

open ErrorSpec

theorem ofCode?_lookup (n : Nat) : DataType.ofCode? n = Format.typeCodes.lookup n := by
  unfold DataType.ofCode? DataType.all Format.typeCodes
  simp only [List.find?, List.lookup, DataType.code]
  have hb : ∀ k : Nat, (k == n) = (n == k) := fun k => by
    rw [Bool.eq_iff_iff, beq_iff_eq, beq_iff_eq, eq_comm]
  simp only [hb]
  repeat' split
  all_goals first | rfl | simp_all

theorem decNat_lt4 (e : Endian) (bs : Bytes) (h : bs.length = 4) : decNat e bs < 2 ^ 32 := by
  have key : ∀ bs : Bytes, leVal bs < 256 ^ bs.length := by
    intro bs
    induction bs with
    | nil => exact Nat.one_pos
    | cons b bs ih =>
      have := b.toNat_lt
      simp only [leVal, List.length_cons, Nat.pow_succ]
      omega
  cases e with
  | little =>
    have := key bs
    rw [h] at this
    exact this
  | big =>
    have := key bs.reverse
    rw [List.length_reverse, h] at this
    exact this

theorem readDataType_errs {al : Alloc} (e : Endian) : Rd.Errs (Opening al) (readDataType e) := by
  intro f p
  unfold readDataType
  rw [Rd.bind_eq]
  unfold Rd.uint
  rw [Rd.bind_eq]
  have hx := Rd.Errs.exact (E := Opening al) 4 .ends f p
  cases he : Rd.exact 4 f p with
  | error er => rw [he] at hx; exact hx.error
  | ok r =>
    have hlen : r.1.length = 4 := by
      unfold Rd.exact at he
      split at he
      · rename_i hc
        cases he
        have : p + 4 ≤ f.length := hc.resolve_left (by decide)
        simp only [List.length_take, List.length_drop]
        omega
      · cases he
    show R.Errs (Opening al) ((match DataType.ofCode? (decNat e r.1) with
      | some t => Pure.pure t
      | none => Rd.fail (.unknownPropertyType (decNat e r.1)) : Rd DataType) f r.2)
    rw [ofCode?_lookup]
    cases hl : Format.typeCodes.lookup (decNat e r.1) with
    | none => exact .err (.code (decNat_lt4 e r.1 hlen) hl)
    | some t => exact .ok

theorem readText_errs (al : Alloc) (e : Endian) : Rd.Errs (Opening al) (readText al e) :=
  storage_errs al .string e .ends (fun _ => ⟨.text, fun _ => .string⟩)

theorem propertyValue_errs (al : Alloc) (e : Endian) : Rd.Errs (Opening al) (PropertyValue.read al e) := by
  unfold PropertyValue.read
  refine (readDataType_errs e).bind (fun t => ?_)
  have hs : ∀ ty : STy, Rd.Errs (Opening al) ((ty.storage al).read e) := fun ty =>
    storage_errs al ty e .ends (fun _ => ⟨.text, fun _ => .string⟩)
  cases t <;> first
    | exact .pure
    | exact .fail .fixedPoint
    | exact .fail .daqmxProperty
    | exact (hs _).bind (fun _ => .pure)

theorem rawDataIndex_errs {al : Alloc} (e : Endian) : Rd.Errs (Opening al) (RawDataIndex.read e) := by
  unfold RawDataIndex.read
  refine (Rd.Errs.uint e 4 .ends).bind (fun n => ?_)
  refine Rd.Errs.ite (fun _ => .pure) (fun _ => Rd.Errs.ite (fun _ => .pure) (fun _ =>
    Rd.Errs.ite (fun _ => .fail .daqmx) (fun _ => Rd.Errs.ite (fun _ => .fail .daqmx) (fun _ => ?_))))
  exact (readDataType_errs e).bind (fun _ => (Rd.Errs.uint e 4 .ends).bind (fun _ =>
    (Rd.Errs.uint e 8 .ends).bind (fun _ => .pure)))

theorem objectMetaData_errs (al : Alloc) (e : Endian) : Rd.Errs (Opening al) (ObjectMetaData.read al e) := by
  unfold ObjectMetaData.read
  refine (readText_errs al e).bind (fun _ => (rawDataIndex_errs e).bind (fun _ =>
    (Rd.Errs.uint e 4 .ends).bind (fun n => Rd.Errs.ite (fun _ => ?_) (fun h => .fail (.table (Bool.eq_false_iff.mpr h))))))
  refine (Rd.Errs.many ?_ n).bind (fun _ => .pure)
  exact (readText_errs al e).bind (fun _ => (propertyValue_errs al e).bind (fun _ => .pure))

theorem metaData_errs (al : Alloc) (e : Endian) : Rd.Errs (Opening al) (MetaData.read al e) := by
  unfold MetaData.read
  exact (Rd.Errs.uint e 4 .ends).bind (fun n => Rd.Errs.ite
    (fun _ => (Rd.Errs.many (objectMetaData_errs al e) n).bind (fun _ => .pure)) (fun h => .fail (.vec (Bool.eq_false_iff.mpr h))))

theorem segment_errs (al : Alloc) : Rd.Errs (fun e => Opening al e ∨ e = .endOfFile) (Segment.read al) := by
  intro f p
  unfold Segment.read
  cases he : Rd.exact 4 f p with
  | error er =>
    have : er = .err (.ioError .unexpectedEof) := by
      unfold Rd.exact at he
      split at he <;> cases he
      rfl
    subst this
    exact .err (Or.inr rfl)
  | ok r =>
    obtain ⟨tag, q⟩ := r
    have hlen : tag.length = 4 := by
      unfold Rd.exact at he
      split at he
      · rename_i hc
        cases he
        have : p + 4 ≤ f.length := hc.resolve_left (by decide)
        simp only [List.length_take, List.length_drop]
        omega
      · cases he
    dsimp only
    split
    · rename_i ht
      exact .err (Or.inl (.tag hlen ht))
    · have key : Rd.Errs (Opening al) (do
          let buf ← Rd.exact 4
          let toc := ToC.fromU32 (decNat .little buf)
          Segment.readSegment al (if toc.bigEndian then .big else .little) toc) := by
        refine (Rd.Errs.exact 4 .ends).bind (fun _ => ?_)
        exact (Rd.Errs.uint _ 4 .ends).bind (fun _ => (Rd.Errs.uint _ 8 .ends).bind (fun _ =>
          (Rd.Errs.uint _ 8 .ends).bind (fun _ => (metaData_errs al _).bind (fun _ => .pure))))
      intro e he
      exact Or.inl (key f q e he)

/-! ## Opening -/

theorem addSegment_errs {al : Alloc} {ix : Index} (h : Inv ix) (s : Segment) : R.Errs (Opening al) (ix.addSegment s).1 := by
  rcases (h.addSegment s).2 with ⟨n, h, _⟩ | ⟨er, h, hse, _⟩
  · rw [h]; exact .ok
  · rw [h]
    intro e he
    cases he
    cases hse with
    | noPrevious => exact .previous
    | address _ => exact .address
    | raw _ hr =>
      cases hr with
      | noChannels _ => exact .channels
      | rawOffset _ => exact .offset
      | zeroLength _ => exact .zero
      | chunk => exact .chunk

theorem openLoop_errs (al : Alloc) (f : Bytes) : ∀ (fuel pos : Nat) {ix : Index}, Inv ix →
    R.Errs (Opening al) (openLoop al f fuel pos ix)
  | 0, _, _, _ => fun _ h => by cases h
  | fuel + 1, pos, ix, hi => by
    unfold openLoop
    have hs := segment_errs al f pos
    cases hr : Segment.read al f pos with
    | error er =>
      rw [hr] at hs
      split
      · exact .ok
      · rename_i e' hne heq
        cases heq
        intro e he
        cases he
        exact (hs e rfl).resolve_right (fun h => hne (by rw [h]))
      · rename_i heq; cases heq
    | ok r =>
      dsimp only
      have ha := addSegment_errs (al := al) hi r.1
      have hinv := (hi.addSegment r.1).1
      generalize ix.addSegment r.1 = x at ha hinv
      obtain ⟨x1, x2⟩ := x
      cases x1 with
      | error e => exact ha.error
      | ok n => exact openLoop_errs al f fuel n hinv

/-! ## Reading -/

section
variable {α : Type} {S : Storage α} (hS : ∀ e, Rd.Errs E (S.read e)) (hmove : E (.ioError .invalidInput))

theorem mulI64_errs (a b : Int) : R.Errs E (mulI64 a b) := by
  unfold mulI64; split
  · exact .ok
  · exact .panic

theorem divR_errs (a b : Nat) : R.Errs E (divR a b) := by
  unfold divR; split
  · exact .panic
  · exact .ok

theorem divAll_errs (sub : Nat) : ∀ ks, R.Errs E (divAll sub ks)
  | [] => .ok
  | _ :: ks => (divR_errs _ _).bind (fun _ => (divAll_errs sub ks).bind (fun _ => .ok))

theorem blockSize_errs (plan : List (RecordEntry α)) : R.Errs E (blockSize S plan) := by
  unfold blockSize; dsimp only; split
  · exact .ok
  · exact .panic

theorem firstLength_errs (plan : List (RecordEntry α)) : R.Errs E (firstLength plan) := by
  cases plan with
  | nil => exact .panic
  | cons _ _ => exact .ok

include hS in
theorem readValues_errs (e : Endian) : ∀ (n : Nat) (it : OutIter α), Rd.Errs E (readValues S e n it)
  | 0, _ => .pure'
  | n + 1, it => by
    unfold readValues
    split
    · exact .pure'
    · exact (hS e).bind (fun _ => (readValues_errs e n _).bind (fun _ => .pure))

include hS hmove

theorem readSequential_errs (e : Endian) (out : OutIter α) (n : Nat) : Rd.Errs E (readSequential S e out n) := by
  unfold readSequential
  refine (readValues_errs hS e n out).bind (fun r => ?_)
  exact Rd.Errs.ite (fun _ => (Rd.Errs.lift (mulI64_errs _ _)).bind (fun _ => (Rd.Errs.move hmove).bind (fun _ => .pure)))
    (fun _ => .pure)

theorem readSubBlock_errs (e : Endian) : ∀ (plan : List (RecordEntry α)) (length : Nat),
    Rd.Errs E (readSubBlock S e length plan) := by
  intro plan
  induction plan with
  | nil => intro _; exact .pure'
  | cons en rest ih =>
    intro length
    obtain ⟨len, pl⟩ := en
    unfold readSubBlock
    cases pl with
    | read slot out k =>
      refine Rd.Errs.ite (fun _ => (Rd.Errs.lift (mulI64_errs _ _)).bind (fun _ => (Rd.Errs.move hmove).bind (fun _ => ?_))) (fun _ => ?_)
      all_goals exact (readSequential_errs hS hmove e _ _).bind (fun _ => (ih _).bind (fun _ => .pure))
    | skip b =>
      exact (Rd.Errs.lift (mulI64_errs _ _)).bind (fun _ => (Rd.Errs.move hmove).bind (fun _ => (ih _).bind (fun _ => .pure)))

theorem contigLoop_errs (e : Endian) (bs toSkip remainder : Nat) : ∀ (n idx : Nat) (plan : List (RecordEntry α))
    (length : Nat), Rd.Errs E (contigLoop S e bs toSkip remainder n idx plan length) := by
  intro n
  induction n with
  | zero => intro _ _ _; exact .pure'
  | succ n ih =>
    intro idx plan length
    unfold contigLoop
    refine Rd.Errs.ite (fun _ => (Rd.Errs.move hmove).bind (fun _ => ih _ _ _)) (fun _ => Rd.Errs.ite (fun _ => ?_) (fun _ => ?_))
    all_goals exact (readSubBlock_errs hS hmove e _ _).bind (fun _ => ih _ _ _)

theorem contigSkipLoop_errs (e : Endian) (bs : Nat) (toSkip rem : List Nat) : ∀ (n idx : Nat)
    (plan : List (RecordEntry α)) (length : Nat), Rd.Errs E (contigSkipLoop S e bs toSkip rem n idx plan length) := by
  intro n
  induction n with
  | zero => intro _ _ _; exact .pure'
  | succ n ih =>
    intro idx plan length
    unfold contigSkipLoop
    exact Rd.Errs.ite (fun _ => (readSubBlock_errs hS hmove e _ _).bind (fun _ => ih _ _ _))
      (fun _ => (Rd.Errs.move hmove).bind (fun _ => ih _ _ _))

theorem contigReadFrom_errs (e : Endian) (start size : Nat) (plan : List (RecordEntry α)) (k : Nat) :
    Rd.Errs E (contigReadFrom S e start size plan k) :=
  Rd.Errs.seek.bind (fun _ => (Rd.Errs.lift (blockSize_errs _)).bind (fun _ =>
    (Rd.Errs.lift (divR_errs _ _)).bind (fun _ => (Rd.Errs.lift (firstLength_errs _)).bind (fun _ =>
      (Rd.Errs.lift (divR_errs _ _)).bind (fun _ => contigLoop_errs hS hmove e _ _ _ _ _ _ _)))))

theorem contigReadSkip_errs (e : Endian) (start size : Nat) (plan : List (RecordEntry α)) (ks : List Nat) :
    Rd.Errs E (contigReadSkip S e start size plan ks) :=
  Rd.Errs.seek.bind (fun _ => (Rd.Errs.lift (blockSize_errs _)).bind (fun _ =>
    (Rd.Errs.lift (divR_errs _ _)).bind (fun _ => (Rd.Errs.lift (firstLength_errs _)).bind (fun _ =>
      (Rd.Errs.lift (divAll_errs _ _)).bind (fun _ => contigSkipLoop_errs hS hmove e _ _ _ _ _ _ _)))))

theorem readRow_errs (e : Endian) (row : Nat) : ∀ (plan : List (RecordEntry α)) (any : Bool),
    Rd.Errs E (readRow S e row any plan) := by
  intro plan
  induction plan with
  | nil => intro _; exact .pure'
  | cons en rest ih =>
    intro any
    obtain ⟨len, pl⟩ := en
    unfold readRow
    cases pl with
    | read slot out k => exact (hS e).bind (fun _ => (ih _).bind (fun _ => .pure))
    | skip b => exact (Rd.Errs.move hmove).bind (fun _ => (ih _).bind (fun _ => .pure))

theorem interLoop_errs (e : Endian) : ∀ (n row : Nat) (plan : List (RecordEntry α)) (samples : Nat),
    Rd.Errs E (interLoop S e n row plan samples)
  | 0, _, _, _ => .pure'
  | n + 1, row, plan, samples => by
    unfold interLoop
    exact (readRow_errs hS hmove e row plan false).bind (fun r =>
      Rd.Errs.ite (fun _ => interLoop_errs e n _ _ _) (fun _ => .pure))

theorem interRead_errs (e : Endian) (start size : Nat) (plan : List (RecordEntry α)) :
    Rd.Errs E (interRead S e start size plan) := by
  unfold interRead
  refine Rd.Errs.seek.bind (fun _ => (Rd.Errs.lift (divR_errs _ _)).bind (fun _ => ?_))
  refine Rd.Errs.ite (fun _ => (Rd.Errs.lift (mulI64_errs _ _)).bind (fun _ => (Rd.Errs.move hmove).bind (fun _ => ?_))) (fun _ => ?_)
  all_goals exact interLoop_errs hS hmove e _ _ _ _

omit hS hmove in
theorem buildRecordPlan_errs (channels : List RawDataMeta) (reqs : List (ChannelRequest α))
    (htype : ∀ r ∈ reqs, ∀ m, channels[r.channelIndex]? = some m → m.dataType ∉ S.supported →
      E (.dataTypeMismatch m.dataType S.natural)) : R.Errs E (buildRecordPlan S channels reqs) := by
  have h1 : R.Errs E (validateTypes S channels reqs) := by
    induction reqs with
    | nil => exact .ok
    | cons r rs ih =>
      unfold validateTypes
      split
      · exact .panic
      · rename_i hc
        split
        · exact ih (fun x hx => htype x (List.mem_cons_of_mem _ hx))
        · rename_i h
          exact .err (htype r List.mem_cons_self _ hc (fun hm => h (List.contains_iff_mem.mpr hm)))
  have h2 : ∀ (reqs : List (ChannelRequest α)) plan, R.Errs E (setReadable plan reqs) := by
    intro reqs
    induction reqs with
    | nil => intro _; exact .ok
    | cons r rs ih =>
      intro plan
      unfold setReadable
      split
      · exact .panic
      · exact ih _
  exact h1.bind (fun _ => h2 _ _)

theorem dataBlock_errs (f : Bytes) (b : DataBlock) (reqs : List (ChannelRequest α))
    (htype : ∀ r ∈ reqs, ∀ m, b.channels[r.channelIndex]? = some m → m.dataType ∉ S.supported →
      E (.dataTypeMismatch m.dataType S.natural)) :
    R.Errs E (b.read S f reqs) ∧ R.Errs E (b.readWithSkip S f reqs) := by
  unfold DataBlock.read DataBlock.readWithSkip
  constructor
  all_goals
    refine (buildRecordPlan_errs _ _ htype).bind (fun plan => ?_)
    cases b.layout
  · exact R.Errs.bind (interRead_errs hS hmove _ _ _ _ f 0) (k := fun r => (pure r.1 : R _)) (fun _ => .ok)
  · exact R.Errs.bind (contigReadFrom_errs hS hmove _ _ _ _ _ f 0) (k := fun r => (pure r.1 : R _)) (fun _ => .ok)
  · exact R.Errs.bind (interRead_errs hS hmove _ _ _ _ f 0) (k := fun r => (pure r.1 : R _)) (fun _ => .ok)
  · exact R.Errs.bind (contigReadSkip_errs hS hmove _ _ _ _ _ f 0) (k := fun r => (pure r.1 : R _)) (fun _ => .ok)

omit hS hmove in
theorem blockRequests_planned : ∀ (plans : List (Option ChannelReadPlan)) (slot : Nat) (ps : List (Progress α)),
    ∀ r ∈ blockRequests slot plans ps, ∃ pl, some pl ∈ plans ∧ r.channelIndex = pl.index := by
  intro plans
  induction plans with
  | nil => intro slot ps r hr; unfold blockRequests at hr; cases hr
  | cons p plans ih =>
    intro slot ps r hr
    have tail : ∀ ps', r ∈ blockRequests (slot + 1) plans ps' → ∃ pl, some pl ∈ p :: plans ∧ r.channelIndex = pl.index := by
      intro ps' h
      obtain ⟨pl, h1, h2⟩ := ih _ _ r h
      exact ⟨pl, List.mem_cons_of_mem _ h1, h2⟩
    cases ps with
    | nil => cases p <;> (unfold blockRequests at hr; cases hr)
    | cons q ps =>
      cases p with
      | none => unfold blockRequests at hr; exact tail _ hr
      | some pl =>
        unfold blockRequests at hr
        split at hr
        · exact tail _ hr
        · rcases List.mem_cons.mp hr with h | h
          · exact ⟨pl, List.mem_cons_self, by rw [h]⟩
          · exact tail _ h

theorem executePlan_errs {t : TdmsFile} : ∀ (plan : List BlockRead) (ps : List (Progress α)),
    (∀ br ∈ plan, t.index.getDataBlock br.dataBlock ≠ none) →
    (∀ br ∈ plan, ∀ b, t.index.getDataBlock br.dataBlock = some b → ∀ pl, some pl ∈ br.channelIndexes →
      ∀ m, b.channels[pl.index]? = some m → m.dataType ∉ S.supported → E (.dataTypeMismatch m.dataType S.natural)) →
    R.Errs E (executePlan S t plan ps) := by
  intro plan
  induction plan with
  | nil => intro ps _ _; exact .ok
  | cons br brs ih =>
    intro ps h htype
    have hblock : R.Errs E (executeBlock S t br ps) := by
      unfold executeBlock
      dsimp only
      cases hb : t.index.getDataBlock br.dataBlock with
      | none => exact absurd hb (h br List.mem_cons_self)
      | some b =>
        dsimp only
        have hread := dataBlock_errs hS hmove t.bytes b (blockRequests 0 br.channelIndexes ps)
          (fun r hr m hm => by
            obtain ⟨pl, hpl, hi⟩ := blockRequests_planned _ _ _ r hr
            rw [hi] at hm
            exact htype br List.mem_cons_self b hb pl hpl m hm)
        generalize List.any br.channelIndexes _ = anySkip
        have hr : R.Errs E (if anySkip = true then b.readWithSkip S t.bytes (blockRequests 0 br.channelIndexes ps)
            else b.read S t.bytes (blockRequests 0 br.channelIndexes ps)) := by
          split
          · exact hread.2
          · exact hread.1
        revert hr
        cases (if anySkip = true then b.readWithSkip S t.bytes (blockRequests 0 br.channelIndexes ps)
            else b.read S t.bytes (blockRequests 0 br.channelIndexes ps)) with
        | error e => intro hr; exact hr.error
        | ok r => intro _; exact .ok
    unfold executePlan
    revert hblock
    cases executeBlock S t br ps with
    | error e => intro hr; exact hr.error
    | ok qs =>
      intro _
      dsimp only
      split
      · exact .ok
      · exact ih qs (fun x hx => h x (List.mem_cons_of_mem _ hx)) (fun x hx => htype x (List.mem_cons_of_mem _ hx))

theorem readPositions_errs {t : TdmsFile} (hi : Inv t.index) (pos : List (List DataLocation)) (start : Nat)
    (hl : ∀ ls ∈ pos, ∃ c, t.index.getChannelDataPositions c = some ls) (ps : List (Progress α))
    (htype : ∀ ls ∈ pos, ∀ l ∈ ls, 0 < l.numberOfSamples → ∀ b, t.index.getDataBlock l.dataBlock = some b → ∀ m,
      b.channels[l.channelIndex]? = some m → m.dataType ∉ S.supported → E (.dataTypeMismatch m.dataType S.natural)) :
    R.Errs E (readPlan pos start >>= fun plan => executePlan S t plan ps) := by
  have hvalid : ∀ ls ∈ pos, Increasing ls ∧ ∀ l ∈ ls, ValidLocation t.index.dataBlocks l := by
    intro ls hls
    obtain ⟨c, hc⟩ := hl ls hls
    obtain ⟨o, ho, rfl⟩ := Option.map_eq_some_iff.mp hc
    exact ⟨hi.incr _ _ ho, hi.valid _ _ ho⟩
  rw [readPlan_eq start t.index.dataBlocks.length pos (fun ls h => (hvalid ls h).1) (fun ls h l hlm => by
    obtain ⟨b, _, _, hb, _⟩ := (hvalid ls h).2 l hlm
    exact (List.getElem?_eq_some_iff.mp hb).1)]
  show R.Errs E (executePlan S t _ ps)
  refine executePlan_errs hS hmove _ ps (fun br hbr hb => ?_) (fun br hbr b hb pl hpl m hm => ?_)
  rotate_left
  · unfold plan at hbr
    obtain ⟨B, hB, hva⟩ := List.mem_filterMap.mp hbr
    unfold visitAll at hva
    split at hva
    · cases hva
      obtain ⟨ls, hls, hv⟩ := List.mem_map.mp hpl
      unfold visit at hv
      cases hf : ls.find? (fun l => l.dataBlock == B) with
      | none => rw [hf] at hv; cases hv
      | some l =>
        rw [hf] at hv
        dsimp only at hv
        split at hv
        · rename_i hc
          cases hv
          have hlB : l.dataBlock = B := by simpa using List.find?_some hf
          exact htype ls hls l (List.mem_of_find?_eq_some hf) hc.1 b (by rw [hlB]; exact hb) m hm
        · cases hv
    · cases hva
  unfold plan at hbr
  obtain ⟨B, hB, hva⟩ := List.mem_filterMap.mp hbr
  unfold visitAll at hva
  split at hva
  · rename_i hany
    cases hva
    rw [List.any_map, List.any_eq_true] at hany
    obtain ⟨ls, hls, hv⟩ := hany
    obtain ⟨pl, hv⟩ := Option.isSome_iff_exists.mp hv
    obtain ⟨_, b', m', _, _, _, hb', hm', _⟩ := visit_valid (hvalid ls hls).2 hv
    dsimp only at hb
    rw [hb'] at hb
    cases hb
  · cases hva

omit hS hmove in
theorem lookupPositions_errs {t : TdmsFile} (cs : List ChannelPath)
    (hm : ∀ c ∈ cs, t.channelLength c = .ok none → E (.missingObject c.path)) :
    R.Errs E (t.lookupPositions cs) := by
  induction cs with
  | nil => exact .ok
  | cons c cs ih =>
    unfold TdmsFile.lookupPositions
    cases hc : t.index.getChannelDataPositions c with
    | none =>
      refine .err (hm c List.mem_cons_self ?_)
      unfold TdmsFile.channelLength Index.channelLength
      rw [Option.map_eq_none_iff.mp hc]
    | some ls => exact (ih (fun c h => hm c (List.mem_cons_of_mem _ h))).bind (fun _ => .ok)

end

/-! ## Writing -/

theorem addObjects_previous : ∀ (es : List ObjectMetaData) {ix : Index}, Inv ix →
    (∀ o ∈ es, o.rawDataIndex = .matchPrevious → (ix.objects.get? o.path).bind (·.latestDataFormat) ≠ none) →
    (ix.addObjects es).1 = .ok () ∧ ((∃ o ∈ es, o.rawDataIndex ≠ .none) → (ix.addObjects es).2.activeObjects ≠ []) ∧
      (ix.activeObjects ≠ [] → (ix.addObjects es).2.activeObjects ≠ []) := by
  intro es
  induction es with
  | nil => intro ix _ _; exact ⟨rfl, fun ⟨_, h, _⟩ => absurd h List.not_mem_nil, id⟩
  | cons e es ih =>
    intro ix hi hp
    have hkeep : ∀ o ∈ es, o.rawDataIndex = .matchPrevious →
        ((ix.objects.insert e.path (updatedObject (ix.objects.get? e.path) e)).get? o.path).bind (·.latestDataFormat) ≠ none := by
      intro o ho hmp
      rw [SMap.get?_insert]
      split
      · rename_i heq
        have := hp o (List.mem_cons_of_mem _ ho) hmp
        rw [← heq] at this
        cases hg : ix.objects.get? e.path with
        | none => rw [hg] at this; exact absurd rfl this
        | some old =>
          rw [hg] at this
          show (declares e).or old.latestDataFormat ≠ none
          have hold : old.latestDataFormat ≠ none := this
          cases declares e with
          | none => exact hold
          | some m => nofun
      · exact hp o (List.mem_cons_of_mem _ ho) hmp
    unfold Index.addObjects
    by_cases he : e.rawDataIndex = .none
    · simp only [he]
      have hinv := hi.updateMetaObject e (Or.inl he)
      rcases updateMetaObject_cases ix e with ⟨heq, _⟩ | ⟨o, ho, _, hmp, heq⟩ | ⟨_, hmp, heq⟩
      · rw [heq] at hinv ⊢
        obtain ⟨h1, h2, h3⟩ := ih hinv hkeep
        refine ⟨h1, fun ⟨o, ho, hne⟩ => ?_, h3⟩
        rcases List.mem_cons.mp ho with rfl | ho
        · exact absurd he hne
        · exact h2 ⟨o, ho, hne⟩
      · rw [he] at hmp; cases hmp
      · rw [he] at hmp; cases hmp
    · have hinv := hi.updateOrActivate e he
      simp only
      rcases updateOrActivate_cases hi e he with ⟨hm, heq⟩ | ⟨hnm, m, hfm, heq⟩ | ⟨hnm, hmp, hno, heq⟩
      · rw [heq] at hinv ⊢
        obtain ⟨h1, h2, h3⟩ := ih hinv hkeep
        refine ⟨h1, fun _ => h3 ?_, fun _ => h3 ?_⟩
        all_goals
          dsimp only
          intro hnil
          rw [List.map_eq_nil_iff] at hnil
          rw [hnil] at hm
          exact absurd hm List.not_mem_nil
      · rw [heq] at hinv ⊢
        obtain ⟨h1, h2, h3⟩ := ih hinv hkeep
        exact ⟨h1, fun _ => h3 (by simp), fun _ => h3 (by simp)⟩
      · exact absurd hno (hp e List.mem_cons_self hmp)

theorem map_errs {α β : Type} {x : R α} {g : α → β} (h : R.Errs E x) : R.Errs E (x.map g) := by
  cases x with
  | error e => exact h.error
  | ok a => exact .ok

theorem writeChannels_errs {α : Type} (S : Storage α) (hsz : 0 < S.memSize) (e : Endian) {t : TdmsFile} (hi : Inv t.index)
    (chs : List ChannelPath) (vals : List α) (layout : DataLayout) :
    R.Errs (Writing chs.length vals.length) (t.writeChannels S e chs vals layout).1 := by
  unfold TdmsFile.writeChannels
  by_cases c1 : chs.length = 0
  · rw [if_pos c1]; exact .err (.none c1)
  by_cases c2 : vals.length % chs.length ≠ 0
  · rw [if_neg c1, if_pos c2]
    exact .err (.uneven c1 (fun h => c2 (Nat.mod_eq_zero_of_dvd h)))
  rw [if_neg c1, if_neg c2]
  have hz : ((chs.map ChannelPath.path).zip (TdmsFile.dataStructure S vals chs.length)) ≠ [] := by
    intro h
    have := congrArg List.length h
    unfold TdmsFile.dataStructure at this
    rw [List.length_zip, List.length_map, List.length_replicate, Nat.min_self] at this
    exact c1 this
  generalize (chs.map ChannelPath.path).zip (TdmsFile.dataStructure S vals chs.length) = z at hz
  show R.Errs _ ((t.index.addSegment (writeSegment e
    { containsNewObjectList := !(t.index.checkWriteValues z).1, dataIsInterleaved := decide (layout = .interleaved) }
    (if (t.index.checkWriteValues z).1 = true then none
      else some { objects := (t.index.checkWriteValues z).2.map (fun (p, i) =>
        ({ path := p, properties := [], rawDataIndex := i } : ObjectMetaData)) })
    (some (TdmsFile.sliceData S e vals))).1).1.map (fun _ => ()))
  refine map_errs ?_
  generalize hmd : (if (t.index.checkWriteValues z).1 = true then none
      else some ({ objects := (t.index.checkWriteValues z).2.map (fun (p, i) =>
        ({ path := p, properties := [], rawDataIndex := i } : ObjectMetaData)) } : MetaData)) = md
  generalize hs : (writeSegment e
    { containsNewObjectList := !(t.index.checkWriteValues z).1, dataIsInterleaved := decide (layout = .interleaved) }
    md (some (TdmsFile.sliceData S e vals))).1 = s
  have hraw : s.toc.containsRawData = true := by rw [← hs]; rfl
  have hnew : s.toc.containsNewObjectList = !(t.index.checkWriteValues z).1 := by rw [← hs]; rfl
  have hmeta : s.metaData = md := by rw [← hs]; rfl
  have hoff : s.nextSegmentOffset = s.rawDataOffset + S.memSize * vals.length := by rw [← hs]; rfl
  have hao : (afterObjects t.index s).1 = .ok () ∧ (afterObjects t.index s).2.activeObjects ≠ [] := by
    unfold afterObjects
    rw [hnew]
    cases hm : (t.index.checkWriteValues z).1 with
    | true =>
      rw [hm, if_pos rfl] at hmd
      have : entriesOf s = [] := by unfold entriesOf; rw [hmeta, ← hmd]
      rw [this]
      refine ⟨rfl, fun h => ?_⟩
      change t.index.activeObjects = [] at h
      change Index.liveMatches t.index.activeObjects z = true at hm
      rw [h] at hm
      cases hm
    | false =>
      rw [hm, if_neg (by decide)] at hmd
      have hent : entriesOf s = (t.index.checkWriteValues z).2.map (fun (p, i) =>
        ({ path := p, properties := [], rawDataIndex := i } : ObjectMetaData)) := by
        unfold entriesOf; rw [hmeta, ← hmd]
      have hmem : ∀ o ∈ entriesOf s, ∃ f, o.rawDataIndex = t.index.rawIndexFor o.path f := by
        intro o ho
        rw [hent] at ho
        obtain ⟨y, hy, rfl⟩ := List.mem_map.mp ho
        obtain ⟨x, hx, rfl⟩ := List.mem_map.mp hy
        exact ⟨x.2, rfl⟩
      have key := addObjects_previous (entriesOf s) hi.deactivate (fun o ho hmp => by
        obtain ⟨f, hf⟩ := hmem o ho
        rw [hf] at hmp
        unfold Index.rawIndexFor at hmp
        intro hn
        change (t.index.objects.get? o.path).bind (·.latestDataFormat) = none at hn
        rw [hn] at hmp
        cases hmp)
      refine ⟨key.1, key.2.1 ?_⟩
      cases z with
      | nil => exact absurd rfl hz
      | cons x xs =>
        refine ⟨_, by rw [hent]; exact List.mem_cons_self, ?_⟩
        show t.index.rawIndexFor x.1 x.2 ≠ .none
        unfold Index.rawIndexFor
        split
        · split <;> nofun
        · nofun
  have hinv := (hi.afterObjects s).1
  rw [addSegment_eq]
  generalize afterObjects t.index s = ao at hao hinv
  obtain ⟨r1, ix1⟩ := ao
  obtain ⟨hok, hact⟩ := hao
  dsimp only at hok hact hinv
  subst hok
  dsimp only
  have hard : R.Errs (Writing chs.length vals.length) (ix1.addRawData s).1 ∧
      ((ix1.addRawData s).1 = .ok () → vals.length ≠ 0) := by
    unfold Index.addRawData
    rw [if_pos hraw]
    obtain ⟨ms, hms, hlen, _, _⟩ := activeRawDataMeta_ok hinv.active
    rw [hms]
    dsimp only
    have hne : ms ≠ [] := by
      intro h
      rw [h] at hlen
      exact hact (List.length_eq_zero_iff.mp hlen.symm)
    rw [if_neg (by simpa using hne)]
    rcases fromSegment_cases s ix1.nextSegmentStart ms hne with ⟨hc, he⟩ | ⟨hc, he⟩ | ⟨hc, ho, he⟩ | ⟨hc, _, he⟩
    · rw [hoff] at hc; omega
    · rw [he]
      refine ⟨.err (.nothing c1 ?_), fun h => by cases h⟩
      have h0 : S.memSize * vals.length = 0 := by omega
      rcases Nat.mul_eq_zero.mp h0 with h | h
      · omega
      · exact h
    · rw [he]; exact ⟨.panic, fun h => by cases h⟩
    · have hv : vals.length ≠ 0 := by
        intro h
        rw [h, Nat.mul_zero] at hoff
        omega
      rw [he]
      dsimp only
      refine ⟨?_, fun _ => hv⟩
      rcases insertDataBlock_result hinv
          { start := s.rawDataOffset + leadInBytes + ix1.nextSegmentStart
            length := s.nextSegmentOffset - s.rawDataOffset
            layout := if s.toc.dataIsInterleaved then .interleaved else .contigious
            channels := ms
            byteOrder := if s.toc.bigEndian then .big else .little } with h1 | h1
      · rw [h1]; exact .ok
      · rw [h1]; exact .err (.chunk c1 hv)
  generalize ix1.addRawData s = ard at hard
  obtain ⟨r2, ix2⟩ := ard
  obtain ⟨h1, h2⟩ := hard
  cases r2 with
  | error er => exact h1.error
  | ok u =>
    dsimp only
    rw [advance_eq]
    split
    · exact .ok
    · exact .err (.address c1 (h2 rfl))

end Tedium
