import Verif.Proofs.Relate
import Verif.Proofs.Open
import Verif.Spec.Reads

/-!
# Two allocators side by side

What is read with an allocator that may refuse and with one that never does.
-/

namespace Tedium
open ReadSpec SegSpec

variable {al al' : Alloc}

/-- a request that may be refused -/
theorem RdRel.alloc {α β : Type} {rel : α → β → Prop} {r : AllocReq} {er : TdmsError} {x : Rd α} {y z : Rd β}
    (h' : Generous al') (he : OutOfMemory (.err er)) (h : RdRel OutOfMemory rel x y) :
    RdRel OutOfMemory rel (if al r then x else Rd.fail er) (if al' r then y else z) := by
  rw [if_pos (h' r)]
  split
  · exact h
  · intro f p; exact Or.inl he

theorem readStringWithLength_rel (h' : Generous al') (n : Nat) :
    RdRel OutOfMemory Eq (readStringWithLength al n) (readStringWithLength al' n) :=
  RdRel.alloc h' (Or.inr (Or.inl rfl)) (RdRel.refl _)

theorem STy.storage_rel (h' : Generous al') (ty : STy) :
    StorageRel OutOfMemory Eq (ty.storage al) (ty.storage al') := by
  cases ty
  case string =>
    exact ⟨rfl, rfl, rfl, fun e => RdRel.step _ (fun n => readStringWithLength_rel h' n)⟩
  all_goals exact ⟨rfl, rfl, rfl, fun e => RdRel.refl _⟩

theorem many_rel {α : Type} {x y : Rd α} (h : RdRel OutOfMemory Eq x y) : ∀ n,
    RdRel OutOfMemory Eq (Rd.many x n) (Rd.many y n)
  | 0 => RdRel.refl _
  | n + 1 => h.bind (fun a b hab => by
      subst hab
      exact (many_rel h n).bind (fun a' b' h2 => by subst h2; exact RdRel.refl _))

theorem propertyValue_rel (h' : Generous al') (e : Endian) :
    RdRel OutOfMemory Eq (PropertyValue.read al e) (PropertyValue.read al' e) := by
  refine RdRel.step _ (fun ty => ?_)
  cases ty
  case tdmsString =>
    exact ((STy.storage_rel h' .string).read e).bind (fun a b hab => by subst hab; exact RdRel.refl _)
  all_goals exact RdRel.refl _

theorem readProp_rel (h' : Generous al') (e : Endian) :
    RdRel OutOfMemory Eq (ObjectMetaData.readProp al e) (ObjectMetaData.readProp al' e) := by
  refine RdRel.bind ((STy.storage_rel h' .string).read e) (fun a b hab => ?_)
  subst hab
  refine (propertyValue_rel h' e).bind (fun a b hab => ?_)
  subst hab
  exact RdRel.refl _

theorem objectMetaData_rel (h' : Generous al') (e : Endian) :
    RdRel OutOfMemory Eq (ObjectMetaData.read al e) (ObjectMetaData.read al' e) := by
  refine RdRel.bind ((STy.storage_rel h' .string).read e) (fun a b hab => ?_)
  subst hab
  refine RdRel.step _ (fun _ => RdRel.step _ (fun n => ?_))
  refine RdRel.alloc h' (Or.inr (Or.inr rfl)) ?_
  refine (many_rel (readProp_rel h' e) n).bind (fun a b hab => ?_)
  subst hab
  exact RdRel.refl _

theorem metaData_rel (h' : Generous al') (e : Endian) :
    RdRel OutOfMemory Eq (MetaData.read al e) (MetaData.read al' e) := by
  refine RdRel.step _ (fun n => ?_)
  refine RdRel.alloc h' (Or.inl rfl) ?_
  refine (many_rel (objectMetaData_rel h' e) n).bind (fun a b hab => ?_)
  subst hab
  exact RdRel.refl _

theorem readSegment_rel (h' : Generous al') (e : Endian) (toc : ToC) :
    RdRel OutOfMemory Eq (Segment.readSegment al e toc) (Segment.readSegment al' e toc) := by
  refine RdRel.step _ (fun _ => RdRel.step _ (fun _ => RdRel.step _ (fun _ => ?_)))
  refine (metaData_rel h' e).bind (fun a b hab => ?_)
  subst hab
  exact RdRel.refl _

theorem segmentRead_rel (h' : Generous al') : RdRel OutOfMemory Eq (Segment.read al) (Segment.read al') := by
  intro f p
  unfold Segment.read
  have hrel : ∀ q, ResRel OutOfMemory (fun u v => u.1 = v.1 ∧ u.2 = v.2)
      ((do
        let buf ← Rd.exact 4
        let toc := ToC.fromU32 (decNat .little buf)
        Segment.readSegment al (if toc.bigEndian then .big else .little) toc) f q)
      ((do
        let buf ← Rd.exact 4
        let toc := ToC.fromU32 (decNat .little buf)
        Segment.readSegment al' (if toc.bigEndian then .big else .little) toc) f q) :=
    (RdRel.step (bad := OutOfMemory) (rel' := Eq) (Rd.exact 4) (fun _ => readSegment_rel h' _ _)) f
  cases Rd.exact 4 f p with
  | error er =>
    dsimp only
    split
    · exact Or.inr rfl
    · rename_i heq; cases heq; exact Or.inr rfl
    · rename_i heq; cases heq
  | ok u =>
    obtain ⟨tag, q⟩ := u
    dsimp only
    split
    · exact Or.inr rfl
    · exact hrel q

/-- An allocator that refuses may end the opening, and makes no other difference. -/
theorem openLoop_rel (h' : Generous al') (f : Bytes) : ∀ (fuel pos : Nat) (ix : Index),
    ResRel OutOfMemory Eq (openLoop al f fuel pos ix) (openLoop al' f fuel pos ix)
  | 0, _, _ => Or.inr rfl
  | fuel + 1, pos, ix => by
    unfold openLoop
    have h := segmentRead_rel (al := al) h' f pos
    revert h
    cases h1 : Segment.read al f pos with
    | error er =>
      intro h
      rcases h with h | h
      · rcases h with rfl | rfl | rfl
        · exact Or.inl (Or.inl rfl)
        · exact Or.inl (Or.inr (Or.inl rfl))
        · exact Or.inl (Or.inr (Or.inr rfl))
      · rw [h]
        split
        · rfl
        · exact Or.inr rfl
        · rename_i heq; cases heq
    | ok u =>
      cases h2 : Segment.read al' f pos with
      | error er => intro h; exact h.elim
      | ok v =>
        obtain ⟨s, q⟩ := u
        obtain ⟨s', q'⟩ := v
        rintro ⟨h3, h4⟩
        dsimp only at h3 ⊢
        subst h3
        split
        · exact Or.inr rfl
        · exact openLoop_rel h' f fuel _ _

end Tedium
