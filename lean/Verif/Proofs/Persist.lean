import Verif.Proofs.Reader

/-!
# Errors of metadata readers are final

A metadata reader that fails for another reason than the end of the file fails in the same way when bytes are
appended. No metadata reader reports `EndOfFile`; that is kept for a missing tag. -/

namespace Tedium

/-- What every metadata reader satisfies when it fails. -/
structure Final {α : Type} (x : Rd α) : Prop where
  good : Good x
  noEof : ∀ f p, x f p ≠ R.err .endOfFile
  keep : ∀ f g p e, x f p = .error e → e ≠ .err (.ioError .unexpectedEof) → x (f ++ g) p = .error e

namespace Final
variable {α β : Type}

theorem grow {x : Rd α} (h : Final x) {f : Bytes} (g : Bytes) {p q : Nat} {a : α} (hx : x f p = .ok (a, q)) :
    x (f ++ g) p = .ok (a, q) := by
  have hm := h.good.mono hx
  refine h.good.stable f p a q hx (f ++ g) ?_
  by_cases hp : p = q
  · exact Or.inr hp
  · exact Or.inl (by rw [List.take_append_of_le_length (hm.2 (by omega))])

theorem pure (a : α) : Final (Pure.pure a : Rd α) where
  good := Good.pure a
  noEof := by intro f p h; cases h
  keep := by intro f g p e h; cases h

theorem fail (e : TdmsError) (he : e ≠ .endOfFile) : Final (Rd.fail e : Rd α) where
  good := Good.fail e
  noEof := by intro f p h; cases h; exact he rfl
  keep := by intro f g p e' h _; exact h

theorem exact (n : Nat) : Final (Rd.exact n) where
  good := Good.exact n
  noEof := by
    intro f p h
    unfold Rd.exact at h
    split at h <;> cases h
  keep := by
    intro f g p e h hne
    unfold Rd.exact at h
    split at h
    · cases h
    · cases h; exact absurd rfl hne

theorem bind {x : Rd α} {k : α → Rd β} (hx : Final x) (hk : ∀ a, Final (k a)) : Final (x >>= k) where
  good := Good.bind hx.good (fun a => (hk a).good)
  noEof := by
    intro f p h
    rw [Rd.bind_eq] at h
    cases h1 : x f p with
    | error e => rw [h1] at h; cases h; exact hx.noEof f p h1
    | ok r => rw [h1] at h; exact (hk r.1).noEof f r.2 h
  keep := by
    intro f g p e h hne
    rw [Rd.bind_eq] at h ⊢
    cases h1 : x f p with
    | error e' => rw [h1] at h; cases h; rw [hx.keep f g p _ h1 hne]
    | ok r =>
      obtain ⟨a, q⟩ := r
      rw [h1] at h
      rw [hx.grow g h1]
      exact (hk a).keep f g q e h hne

theorem ite {c : Prop} [Decidable c] {x y : Rd α} (hx : Final x) (hy : Final y) : Final (if c then x else y) := by
  split
  · exact hx
  · exact hy

theorem uint (e : Endian) (w : Nat) : Final (Rd.uint e w) := bind (exact w) (fun _ => pure _)

theorem many {x : Rd α} (hx : Final x) (n : Nat) : Final (Rd.many x n) := by
  induction n with
  | zero => exact pure []
  | succ n ih => exact bind hx (fun _ => bind ih (fun _ => pure _))

theorem dataType (e : Endian) : Final (readDataType e) :=
  bind (uint e 4) (fun n => by
    cases DataType.ofCode? n with
    | none => exact fail _ (by simp)
    | some t => exact pure t)

theorem numeric (w : Nat) (n : DataType) (s : List DataType) (e : Endian) :
    Final ((Tedium.numeric w n s).read e) := bind (exact w) (fun _ => pure _)

theorem storage (al : Alloc) (t : STy) (e : Endian) : Final ((t.storage al).read e) := by
  cases t
  all_goals try exact numeric _ _ _ e
  · exact bind (exact 1) (fun _ => pure _)
  · exact bind (exact 10) (fun _ => by cases e <;> exact pure _)
  · exact bind (numeric _ _ _ e) (fun _ => bind (numeric _ _ _ e) (fun _ => pure _))
  · exact bind (numeric _ _ _ e) (fun _ => bind (numeric _ _ _ e) (fun _ => pure _))
  · refine bind (uint e 4) (fun n => ?_)
    unfold readStringWithLength
    refine ite (bind (exact n) (fun b => ?_)) (fail _ (by simp))
    cases utf8Dec b with
    | none => exact fail _ (by simp)
    | some t => exact pure t

theorem property (al : Alloc) (e : Endian) : Final (PropertyValue.read al e) := by
  unfold PropertyValue.read
  refine bind (dataType e) (fun t => ?_)
  cases t
  case void => exact pure _
  all_goals first | exact fail _ (by simp) | exact bind (storage al _ e) (fun _ => pure _)

theorem text (al : Alloc) (e : Endian) : Final (readText al e) := storage al .string e

theorem rawIndex (e : Endian) : Final (RawDataIndex.read e) := by
  unfold RawDataIndex.read
  refine bind (uint e 4) (fun n => ?_)
  refine ite (pure _) (ite (pure _) (ite (fail _ (by simp)) (ite (fail _ (by simp)) ?_)))
  exact bind (dataType e) (fun _ => bind (uint e 4) (fun _ => bind (uint e 8) (fun _ => pure _)))

theorem object (al : Alloc) (e : Endian) : Final (ObjectMetaData.read al e) := by
  unfold ObjectMetaData.read
  refine bind (text al e) (fun _ => bind (rawIndex e) (fun _ => bind (uint e 4) (fun n => ?_)))
  refine ite ?_ (fail _ (by simp))
  exact bind (many (bind (text al e) (fun _ => bind (property al e) (fun _ => pure _))) n) (fun _ => pure _)

theorem metaData (al : Alloc) (e : Endian) : Final (MetaData.read al e) := by
  unfold MetaData.read
  refine bind (uint e 4) (fun n => ?_)
  exact ite (bind (many (object al e) n) (fun _ => pure _)) (fail _ (by simp))

theorem body (al : Alloc) : Final (Segment.body al) := by
  refine bind (exact 4) (fun _ => ?_)
  unfold Segment.readSegment
  exact bind (uint _ 4) (fun _ => bind (uint _ 8) (fun _ => bind (uint _ 8) (fun _ =>
    bind (metaData al _) (fun _ => pure _))))

end Final

/-- `EndOfFile` is reported exactly when fewer than four bytes are left. -/
theorem Segment.read_eof_iff (al : Alloc) (f : Bytes) (p : Nat) :
    Segment.read al f p = R.err .endOfFile ↔ f.length < p + 4 := by
  rcases Segment.read_cases al f p with ⟨h1, h2⟩ | ⟨h1, _, h2⟩ | ⟨h1, _, h2⟩
  · exact ⟨fun _ => h1, fun _ => h2⟩
  · exact ⟨fun h => (by rw [h2] at h; cases h), fun h => by omega⟩
  · exact ⟨fun h => (by rw [h2] at h; exact absurd h ((Final.body al).noEof _ _)), fun h => by omega⟩

/-- A segment that cannot be read for another reason than the end of the file cannot be read, for the same reason, when the
    file has grown. -/
theorem Segment.read_keep {al : Alloc} {f : Bytes} (g : Bytes) {p : Nat} {e : Fail} (h : Segment.read al f p = .error e)
    (h1 : e ≠ .err .endOfFile) (h2 : e ≠ .err (.ioError .unexpectedEof)) : Segment.read al (f ++ g) p = .error e := by
  rcases Segment.read_cases al f p with ⟨_, hr⟩ | ⟨hl, ht, hr⟩ | ⟨hl, ht, hr⟩
  · rw [h] at hr; cases hr; exact absurd rfl h1
  all_goals
    have htag : ((f ++ g).drop p).take 4 = (f.drop p).take 4 := by
      rw [List.drop_append_of_le_length (by omega), List.take_append_of_le_length (by rw [List.length_drop]; omega)]
    rcases Segment.read_cases al (f ++ g) p with ⟨hc, _⟩ | ⟨_, ht', hr'⟩ | ⟨_, ht', hr'⟩
  · rw [List.length_append] at hc; omega
  · rw [hr', htag, ← hr, h]
  · exact absurd (htag.symm.trans ht') ht
  · rw [List.length_append] at hc; omega
  · exact absurd (htag.trans ht) ht'
  · rw [hr']
    rw [hr] at h
    exact (Final.body al).keep f g _ e h h2

end Tedium
