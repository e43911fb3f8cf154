import Verif.Model.Act

/-! # The programs of `Model/Act.lean` are the reading functions of `Model/` -/

namespace Tedium
namespace Act
variable {α β : Type}

theorem rd_bind_assoc {α β γ : Type} (x : Rd α) (k : α → Rd β) (l : β → Rd γ) :
    Rd.bind (Rd.bind x k) l = Rd.bind x (fun a => Rd.bind (k a) l) := by
  funext f p
  unfold Rd.bind
  cases x f p <;> rfl

theorem denote_bind (x : Act α) (k : α → Act β) : (x >>= k).denote = x.denote >>= fun a => (k a).denote := by
  show (Act.bind x k).denote = Rd.bind x.denote (fun a => (k a).denote)
  induction x with
  | ret a => rfl
  | stop e => rfl
  | exact n next ih =>
    show Rd.bind (Rd.exact n) (fun bs => ((next bs).bind k).denote) = Rd.bind (Rd.bind _ _) _
    rw [rd_bind_assoc]
    congr 1
    funext bs
    exact ih bs
  | move o next ih =>
    show Rd.bind (Rd.move o) (fun _ => (next.bind k).denote) = Rd.bind (Rd.bind _ _) _
    rw [rd_bind_assoc]
    congr 1
    funext _
    exact ih

theorem denote_pure (a : α) : (pure a : Act α).denote = (pure a : Rd α) := rfl
theorem denote_ret (a : α) : (Act.ret a : Act α).denote = (Rd.pure a : Rd α) := rfl

theorem denote_fail (e : TdmsError) : (fail e : Act α).denote = Rd.fail e := rfl

theorem denote_take (n : Nat) : (take n).denote = Rd.exact n := by
  funext f p
  show Rd.bind (Rd.exact n) Rd.pure f p = _
  unfold Rd.bind
  cases Rd.exact n f p <;> rfl

theorem denote_skip (o : Int) : (skip o).denote = Rd.move o := by
  funext f p
  show Rd.bind (Rd.move o) (fun _ => Rd.pure ()) f p = _
  unfold Rd.bind
  cases Rd.move o f p <;> rfl

theorem denote_lift (x : R α) : (lift x).denote = Rd.lift x := by cases x <;> rfl

theorem denote_ite (c : Prop) [Decidable c] (x y : Act α) :
    (if c then x else y).denote = if c then x.denote else y.denote := by split <;> rfl

theorem denote_uint (e : Endian) (w : Nat) : (uint e w).denote = Rd.uint e w := by
  unfold uint Rd.uint
  simp only [denote_bind, denote_pure, denote_take]

theorem denote_many {x : Act α} {y : Rd α} (h : x.denote = y) (n : Nat) : (many x n).denote = Rd.many y n := by
  induction n with
  | zero => rfl
  | succ n ih =>
    unfold many Rd.many
    simp only [denote_bind, denote_pure, h, ih]

theorem denote_numeric (w : Nat) (e : Endian) (a : DataType) (b : List DataType) :
    (numeric w e).denote = (Tedium.numeric w a b).read e := by
  unfold numeric Tedium.numeric
  simp only [denote_bind, denote_pure, denote_take]

theorem denote_stringWithLength (al : Alloc) (n : Nat) : (stringWithLength al n).denote = readStringWithLength al n := by
  unfold stringWithLength readStringWithLength
  simp only [denote_bind, denote_ite, denote_take, denote_fail]
  congr 1
  congr 1
  funext b
  cases utf8Dec b <;> rfl

theorem denote_string (al : Alloc) (e : Endian) : (string al e).denote = (stringStorage al).read e := by
  unfold string stringStorage
  simp only [denote_bind, denote_uint, denote_stringWithLength]

theorem denote_bool (e : Endian) : bool.denote = boolStorage.read e := by
  unfold bool boolStorage
  rw [denote_bind, denote_take]
  rfl

theorem denote_extended (e : Endian) : (extended e).denote = extendedStorage.read e := by
  unfold extended extendedStorage
  rw [denote_bind, denote_take]
  cases e <;> rfl

theorem denote_timestamp (e : Endian) : (timestamp e).denote = timestampStorage.read e := by
  unfold timestamp timestampStorage
  rw [denote_bind, denote_take]
  rfl

theorem denote_complex (w : Nat) (e : Endian) (a b : DataType) :
    (complex w e).denote = (complexStorage w a b).read e := by
  unfold complex complexStorage
  simp only [denote_bind, denote_pure, denote_numeric w e b [b]]

theorem denote_value (al : Alloc) (t : STy) (e : Endian) : (value al t e).denote = (t.storage al).read e := by
  cases t
  all_goals
    first
    | exact denote_numeric _ _ _ _
    | exact denote_string _ _
    | exact denote_bool _
    | exact denote_extended _
    | exact denote_timestamp _
    | exact denote_complex _ _ _ _

theorem denote_dataType (e : Endian) : (dataType e).denote = readDataType e := by
  unfold dataType readDataType
  simp only [denote_bind, denote_uint]
  congr 1
  funext n
  cases DataType.ofCode? n <;> rfl

theorem denote_property (al : Alloc) (e : Endian) : (property al e).denote = PropertyValue.read al e := by
  unfold property PropertyValue.read
  simp only [denote_bind, denote_dataType]
  congr 1
  funext t
  cases t <;> simp only [denote_bind, denote_value, denote_pure] <;> rfl

theorem denote_rawDataIndex (e : Endian) : (rawDataIndex e).denote = RawDataIndex.read e := by
  unfold rawDataIndex RawDataIndex.read
  simp only [denote_bind, denote_uint, denote_ite, denote_dataType, denote_pure, denote_fail]

theorem denote_namedProperty (al : Alloc) (e : Endian) : (namedProperty al e).denote = ObjectMetaData.readProp al e := by
  unfold namedProperty ObjectMetaData.readProp
  simp only [denote_bind, denote_string, denote_property, denote_pure, readText]

theorem denote_object (al : Alloc) (e : Endian) : (object al e).denote = ObjectMetaData.read al e := by
  unfold object ObjectMetaData.read
  simp only [denote_bind, denote_string, denote_rawDataIndex, denote_uint, denote_ite, denote_pure, denote_fail,
    denote_many (denote_namedProperty al e), readText]

theorem denote_metaData (al : Alloc) (e : Endian) : (metaData al e).denote = MetaData.read al e := by
  unfold metaData MetaData.read
  simp only [denote_bind, denote_uint, denote_ite, denote_pure, denote_fail, denote_many (denote_object al e)]

theorem denote_segment (al : Alloc) (e : Endian) (toc : ToC) : (segment al e toc).denote = Segment.readSegment al e toc := by
  unfold segment Segment.readSegment
  simp only [denote_bind, denote_uint, denote_pure, denote_metaData]

/-! ## Data blocks -/

section
variable {S : Storage α} {e : Endian} {rd : Act α}

theorem denote_values (h : rd.denote = S.read e) (n : Nat) (it : OutIter α) :
    (values rd n it).denote = readValues S e n it := by
  induction n generalizing it with
  | zero => rfl
  | succ n ih =>
    unfold values readValues
    cases it.rest with
    | nil => rfl
    | cons c rest => simp only [denote_bind, denote_pure, h, ih]

theorem denote_sequential (h : rd.denote = S.read e) (out : OutIter α) (n : Nat) :
    (sequential S rd out n).denote = readSequential S e out n := by
  unfold sequential readSequential
  simp only [denote_bind, denote_pure, denote_values h, denote_ite, denote_lift, denote_skip]

theorem denote_subBlock (h : rd.denote = S.read e) (plan : List (RecordEntry α)) (n : Nat) :
    (subBlock S rd n plan).denote = readSubBlock S e n plan := by
  induction plan generalizing n with
  | nil => rfl
  | cons entry rest ih =>
    unfold subBlock readSubBlock
    cases entry.plan with
    | skip b => simp only [denote_bind, denote_pure, denote_lift, denote_skip, ih]
    | read slot out bs =>
      simp only [denote_bind, denote_pure, denote_sequential h, denote_ite, denote_lift, denote_skip, ih]

theorem denote_contigLoop (h : rd.denote = S.read e) (bs toSkip remainder remaining idx : Nat)
    (plan : List (RecordEntry α)) (length : Nat) :
    (contigLoop S rd bs toSkip remainder remaining idx plan length).denote
      = Tedium.contigLoop S e bs toSkip remainder remaining idx plan length := by
  induction remaining generalizing idx plan length with
  | zero => rfl
  | succ r ih =>
    unfold contigLoop Tedium.contigLoop
    simp only [denote_ite, denote_bind, denote_skip, denote_subBlock h, ih]

theorem denote_contigReadFrom (h : rd.denote = S.read e) (start size : Nat) (plan : List (RecordEntry α))
    (startSample : Nat) : (Rd.seek start >>= fun _ => (contigReadFrom S rd size plan startSample).denote)
      = Tedium.contigReadFrom S e start size plan startSample := by
  unfold contigReadFrom Tedium.contigReadFrom
  simp only [denote_bind, denote_lift, denote_contigLoop h]

theorem denote_contigSkipLoop (h : rd.denote = S.read e) (bs : Nat) (toSkip remainders : List Nat) (remaining idx : Nat)
    (plan : List (RecordEntry α)) (length : Nat) :
    (contigSkipLoop S rd bs toSkip remainders remaining idx plan length).denote
      = Tedium.contigSkipLoop S e bs toSkip remainders remaining idx plan length := by
  induction remaining generalizing idx plan length with
  | zero => rfl
  | succ r ih =>
    unfold contigSkipLoop Tedium.contigSkipLoop
    simp only [denote_ite, denote_bind, denote_skip, denote_subBlock h, ih]

theorem denote_contigReadSkip (h : rd.denote = S.read e) (start size : Nat) (plan : List (RecordEntry α))
    (skips : List Nat) : (Rd.seek start >>= fun _ => (contigReadSkip S rd size plan skips).denote)
      = Tedium.contigReadSkip S e start size plan skips := by
  unfold contigReadSkip Tedium.contigReadSkip
  simp only [denote_bind, denote_lift, denote_contigSkipLoop h]

theorem denote_row (h : rd.denote = S.read e) (r : Nat) (plan : List (RecordEntry α)) (any : Bool) :
    (row rd r any plan).denote = readRow S e r any plan := by
  induction plan generalizing any with
  | nil => rfl
  | cons entry rest ih =>
    unfold row readRow
    cases entry.plan with
    | skip b => simp only [denote_bind, denote_pure, denote_skip, ih]
    | read slot out bs =>
      simp only [denote_bind, h]
      congr 1
      funext v
      generalize (if r ≥ bs then _ else (out, any) : OutIter α × Bool) = z
      simp only [ih]
      rfl

theorem denote_interLoop (h : rd.denote = S.read e) (remaining r : Nat) (plan : List (RecordEntry α)) (samples : Nat) :
    (interLoop rd remaining r plan samples).denote = Tedium.interLoop S e remaining r plan samples := by
  induction remaining generalizing r plan samples with
  | zero => rfl
  | succ k ih =>
    unfold interLoop Tedium.interLoop
    simp only [denote_ite, denote_bind, denote_row h, denote_pure, ih]

theorem denote_interRead (h : rd.denote = S.read e) (start size : Nat) (plan : List (RecordEntry α)) :
    (Rd.seek start >>= fun _ => (interRead S rd size plan).denote) = Tedium.interRead S e start size plan := by
  unfold interRead Tedium.interRead
  simp only [denote_bind, denote_lift, denote_ite, denote_skip, denote_interLoop h]

end
end Act
end Tedium
