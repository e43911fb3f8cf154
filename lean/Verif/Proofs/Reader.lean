import Verif.Proofs.Codec

/-! # Readers of metadata: no panics, forward only, dependent only on the bytes they consume -/

namespace Tedium

/-- What every metadata reader satisfies. -/
structure Good {α : Type} (x : Rd α) : Prop where
  /-- success (forward, within the file) or an error value -/
  safe : ∀ f p, (∃ a q, x f p = .ok (a, q) ∧ p ≤ q ∧ (p < q → q ≤ f.length)) ∨ ∃ t, x f p = R.err t
  /-- a success depends on the consumed bytes only -/
  stable : ∀ f p a q, x f p = .ok (a, q) → ∀ g : Bytes, (g.take q = f.take q ∨ p = q) →
    x g p = .ok (a, q)
  /-- when the file is cut before the end of what was consumed the end of file is reported -/
  cut : ∀ f p a q, x f p = .ok (a, q) → p < q → ∀ o, o < q →
    x (f.take o) p = R.err (.ioError .unexpectedEof)

theorem take_of_take_eq {f g : Bytes} {q r : Nat} (h : g.take r = f.take r) (hqr : q ≤ r) :
    g.take q = f.take q := by
  have := congrArg (List.take q) h
  rwa [List.take_take, List.take_take, Nat.min_eq_left hqr] at this

namespace Good

variable {α β : Type}

theorem mono {x : Rd α} (h : Good x) {f : Bytes} {p q : Nat} {a : α} (hx : x f p = .ok (a, q)) :
    p ≤ q ∧ (p < q → q ≤ f.length) := by
  rcases h.safe f p with ⟨a', q', h1, h2⟩ | ⟨t, h1⟩
  · rw [hx] at h1; cases h1; exact h2
  · rw [hx] at h1; cases h1

theorem pure (a : α) : Good (Pure.pure a : Rd α) where
  safe := fun f p => Or.inl ⟨a, p, rfl, Nat.le_refl _, fun h => absurd h (Nat.lt_irrefl _)⟩
  stable := by
    intro f p a' q h g _
    exact h
  cut := by
    intro f p a' q h hpq
    cases h
    exact absurd hpq (Nat.lt_irrefl _)

theorem fail (e : TdmsError) : Good (Rd.fail e : Rd α) where
  safe := fun _ _ => Or.inr ⟨e, rfl⟩
  stable := by intro f p a q h; cases h
  cut := by intro f p a q h; cases h

theorem exact (n : Nat) : Good (Rd.exact n) where
  safe := by
    intro f p
    unfold Rd.exact
    split
    · rename_i h
      exact Or.inl ⟨_, _, rfl, Nat.le_add_right _ _, fun hp => by omega⟩
    · exact Or.inr ⟨_, rfl⟩
  stable := by
    intro f p a q h g hg
    unfold Rd.exact at h ⊢
    split at h
    · rename_i hc
      injection h with h
      injection h with h1 h2
      by_cases hn : n = 0
      · subst hn
        rw [if_pos (Or.inl rfl)]
        simp only [Nat.add_zero, List.take_zero] at h1 h2 ⊢
        rw [← h1, ← h2]
      · have hlen : p + n ≤ f.length := by omega
        have hg' : g.take (p + n) = f.take (p + n) := by
          rcases hg with hg | hg
          · rw [h2]; exact hg
          · omega
        have hgl : p + n ≤ g.length := by
          have := congrArg List.length hg'
          rw [List.length_take, List.length_take] at this
          omega
        rw [if_pos (Or.inr hgl), ← h2, ← h1]
        have : ∀ l : Bytes, (l.drop p).take n = (l.take (p + n)).drop p := by
          intro l
          rw [List.drop_take, Nat.add_sub_cancel_left]
        rw [this g, this f, hg']
    · cases h
  cut := by
    intro f p a q h hpq o ho
    unfold Rd.exact at h
    split at h
    · injection h with h
      injection h with h1 h2
      apply Rd.exact_eof
      · omega
      · rw [List.length_take]; omega
    · cases h

theorem bind {x : Rd α} {k : α → Rd β} (hx : Good x) (hk : ∀ a, Good (k a)) : Good (x >>= k) where
  safe := by
    intro f p
    rw [Rd.bind_eq]
    rcases hx.safe f p with ⟨a, q, h1, h2, h3⟩ | ⟨t, h1⟩
    · rw [h1]
      rcases (hk a).safe f q with ⟨b, r, h4, h5, h6⟩ | ⟨t, h4⟩
      · exact Or.inl ⟨b, r, h4, by omega, fun hp => by
          by_cases hqr : q < r
          · exact h6 hqr
          · have := h3 (by omega); omega⟩
      · exact Or.inr ⟨t, h4⟩
    · rw [h1]; exact Or.inr ⟨t, rfl⟩
  stable := by
    intro f p b r h g hg
    rw [Rd.bind_eq] at h ⊢
    cases hxx : x f p with
    | error e => rw [hxx] at h; cases h
    | ok aq =>
      obtain ⟨a, q⟩ := aq
      rw [hxx] at h
      have h' : k a f q = .ok (b, r) := h
      have m1 := hx.mono hxx
      have m2 := (hk a).mono h'
      rw [hx.stable f p a q hxx g (by
        rcases hg with hg | hg
        · exact Or.inl (take_of_take_eq hg m2.1)
        · exact Or.inr (by omega))]
      exact (hk a).stable f q b r h' g (by
        rcases hg with hg | hg
        · exact Or.inl hg
        · exact Or.inr (by omega))
  cut := by
    intro f p b r h hpr o ho
    rw [Rd.bind_eq] at h ⊢
    cases hxx : x f p with
    | error e => rw [hxx] at h; cases h
    | ok aq =>
      obtain ⟨a, q⟩ := aq
      rw [hxx] at h
      have h' : k a f q = .ok (b, r) := h
      have m1 := hx.mono hxx
      have m2 := (hk a).mono h'
      by_cases hc : p < q ∧ o < q
      · rw [hx.cut f p a q hxx hc.1 o hc.2]
      · rw [hx.stable f p a q hxx (f.take o) (by
          by_cases hpq : p = q
          · exact Or.inr hpq
          · left; rw [List.take_take, Nat.min_eq_left (by omega)])]
        exact (hk a).cut f q b r h' (by omega) o ho

theorem ite {c : Prop} [Decidable c] {x y : Rd α} (hx : Good x) (hy : Good y) :
    Good (if c then x else y) := by
  split
  · exact hx
  · exact hy

theorem uint (e : Endian) (w : Nat) : Good (Rd.uint e w) :=
  bind (exact w) (fun _ => pure _)

theorem many {x : Rd α} (hx : Good x) (n : Nat) : Good (Rd.many x n) := by
  induction n with
  | zero => exact pure []
  | succ n ih => exact bind hx (fun _ => bind ih (fun _ => pure _))

theorem dataType (e : Endian) : Good (readDataType e) :=
  bind (uint e 4) (fun n => by
    cases DataType.ofCode? n with
    | none => exact fail _
    | some t => exact pure t)

theorem numeric (w : Nat) (n : DataType) (s : List DataType) (e : Endian) :
    Good ((Tedium.numeric w n s).read e) := bind (exact w) (fun _ => pure _)

theorem storage (al : Alloc) (t : STy) (e : Endian) : Good ((t.storage al).read e) := by
  cases t
  all_goals try exact numeric _ _ _ e
  · exact bind (exact 1) (fun _ => pure _)
  · exact bind (exact 10) (fun _ => by cases e <;> exact pure _)
  · exact bind (numeric _ _ _ e) (fun _ => bind (numeric _ _ _ e) (fun _ => pure _))
  · exact bind (numeric _ _ _ e) (fun _ => bind (numeric _ _ _ e) (fun _ => pure _))
  · refine bind (uint e 4) (fun n => ?_)
    unfold readStringWithLength
    refine ite (bind (exact n) (fun b => ?_)) (fail _)
    cases utf8Dec b with
    | none => exact fail _
    | some t => exact pure t

theorem property (al : Alloc) (e : Endian) : Good (PropertyValue.read al e) := by
  unfold PropertyValue.read
  refine bind (dataType e) (fun t => ?_)
  cases t
  case void => exact pure _
  all_goals first | exact fail _ | exact bind (storage al _ e) (fun _ => pure _)

theorem text (al : Alloc) (e : Endian) : Good (readText al e) := storage al .string e

theorem rawIndex (e : Endian) : Good (RawDataIndex.read e) := by
  unfold RawDataIndex.read
  refine bind (uint e 4) (fun n => ?_)
  refine ite (pure _) (ite (pure _) (ite (fail _) (ite (fail _) ?_)))
  exact bind (dataType e) (fun _ => bind (uint e 4) (fun _ => bind (uint e 8) (fun _ => pure _)))

theorem object (al : Alloc) (e : Endian) : Good (ObjectMetaData.read al e) := by
  unfold ObjectMetaData.read
  refine bind (text al e) (fun _ => bind (rawIndex e) (fun _ => bind (uint e 4) (fun n => ?_)))
  refine ite ?_ (fail _)
  exact bind (many (bind (text al e) (fun _ => bind (property al e) (fun _ => pure _))) n) (fun _ => pure _)

theorem metaData (al : Alloc) (e : Endian) : Good (MetaData.read al e) := by
  unfold MetaData.read
  refine bind (uint e 4) (fun n => ?_)
  exact ite (bind (many (object al e) n) (fun _ => pure _)) (fail _)

theorem readSegment (al : Alloc) (e : Endian) (toc : ToC) : Good (Segment.readSegment al e toc) := by
  unfold Segment.readSegment
  exact bind (uint e 4) (fun _ => bind (uint e 8) (fun _ => bind (uint e 8) (fun _ =>
    bind (metaData al e) (fun _ => pure _))))

end Good

/-- the part of `Segment::read` after the tag -/
def Segment.body (al : Alloc) : Rd Segment := do
  let buf ← Rd.exact 4
  let toc := ToC.fromU32 (decNat .little buf)
  Segment.readSegment al (if toc.bigEndian then .big else .little) toc

theorem Segment.read_eq (al : Alloc) (f : Bytes) (p : Nat) :
    Segment.read al f p =
      match Rd.exact 4 f p with
      | .error (.err (.ioError .unexpectedEof)) => R.err .endOfFile
      | .error e => .error e
      | .ok (tag, p) => if tag ≠ tdsmTag then R.err (.headerPatternNotMatched tag)
        else Segment.body al f p := rfl

theorem Good.body (al : Alloc) : Good (Segment.body al) :=
  Good.bind (Good.exact 4) (fun _ => Good.readSegment al _ _)

theorem Rd.exact_ge {n : Nat} {f : Bytes} {p : Nat} (h : p + n ≤ f.length) :
    Rd.exact n f p = .ok ((f.drop p).take n, p + n) := by
  unfold Rd.exact; rw [if_pos (Or.inr h)]

/-- The three ways `Segment::read` starts. -/
theorem Segment.read_cases (al : Alloc) (f : Bytes) (p : Nat) :
    (f.length < p + 4 ∧ Segment.read al f p = R.err .endOfFile) ∨
    (p + 4 ≤ f.length ∧ (f.drop p).take 4 ≠ tdsmTag ∧
      Segment.read al f p = R.err (.headerPatternNotMatched ((f.drop p).take 4))) ∨
    (p + 4 ≤ f.length ∧ (f.drop p).take 4 = tdsmTag ∧
      Segment.read al f p = Segment.body al f (p + 4)) := by
  rw [Segment.read_eq]
  by_cases h : p + 4 ≤ f.length
  · rw [Rd.exact_ge h]
    dsimp only
    by_cases ht : (f.drop p).take 4 = tdsmTag
    · exact Or.inr (Or.inr ⟨h, ht, by rw [if_neg (by simp [ht])]⟩)
    · exact Or.inr (Or.inl ⟨h, ht, by rw [if_pos ht]⟩)
  · rw [Rd.exact_eof (by omega) (by omega)]
    exact Or.inl ⟨by omega, rfl⟩

theorem Rd.exact_next {n : Nat} {f : Bytes} {p q : Nat} {b : Bytes} (h : Rd.exact n f p = .ok (b, q)) :
    q = p + n := by
  unfold Rd.exact at h
  split at h
  · injection h with h; injection h with _ h; exact h.symm
  · cases h

theorem Rd.uint_next {e : Endian} {w : Nat} {f : Bytes} {p q n : Nat} (h : Rd.uint e w f p = .ok (n, q)) :
    q = p + w := by
  unfold Rd.uint at h
  rw [Rd.bind_eq] at h
  cases hx : Rd.exact w f p with
  | error _ => rw [hx] at h; cases h
  | ok a =>
    obtain ⟨b, r⟩ := a
    rw [hx] at h
    have := Rd.exact_next hx
    cases h; exact this

/-- A segment header takes 28 bytes and its metadata at least 4. -/
theorem Segment.read_length {al : Alloc} {f : Bytes} {p q : Nat} {s : Segment}
    (h : Segment.read al f p = .ok (s, q)) : p + 32 ≤ q ∧ q ≤ f.length := by
  rcases Segment.read_cases al f p with ⟨_, h1⟩ | ⟨_, _, h1⟩ | ⟨_, _, h1⟩
  · rw [h] at h1; cases h1
  · rw [h] at h1; cases h1
  · rw [h] at h1
    have hb := h1.symm
    have hq : p + 32 ≤ q := by
      have hb' := hb
      unfold Segment.body at hb
      rw [Rd.bind_eq] at hb
      cases h2 : Rd.exact 4 f (p + 4) with
      | error _ => rw [h2] at hb; cases hb
      | ok a2 =>
        obtain ⟨b2, p2⟩ := a2
        rw [h2] at hb
        have e2 := Rd.exact_next h2
        dsimp only at hb
        unfold Segment.readSegment at hb
        rw [Rd.bind_eq] at hb
        cases h3 : Rd.uint (if (ToC.fromU32 (decNat .little b2)).bigEndian = true then Endian.big else .little) 4 f p2 with
        | error _ => rw [h3] at hb; cases hb
        | ok a3 =>
          obtain ⟨b3, p3⟩ := a3
          rw [h3] at hb
          have e3 := Rd.uint_next h3
          dsimp only at hb
          rw [Rd.bind_eq] at hb
          cases h4 : Rd.uint (if (ToC.fromU32 (decNat .little b2)).bigEndian = true then Endian.big else .little) 8 f p3 with
          | error _ => rw [h4] at hb; cases hb
          | ok a4 =>
            obtain ⟨b4, p4⟩ := a4
            rw [h4] at hb
            have e4 := Rd.uint_next h4
            dsimp only at hb
            rw [Rd.bind_eq] at hb
            cases h5 : Rd.uint (if (ToC.fromU32 (decNat .little b2)).bigEndian = true then Endian.big else .little) 8 f p4 with
            | error _ => rw [h5] at hb; cases hb
            | ok a5 =>
              obtain ⟨b5, p5⟩ := a5
              rw [h5] at hb
              have e5 := Rd.uint_next h5
              dsimp only at hb
              rw [Rd.bind_eq] at hb
              cases h6 : MetaData.read al (if (ToC.fromU32 (decNat .little b2)).bigEndian = true then Endian.big else .little) f p5 with
              | error _ => rw [h6] at hb; cases hb
              | ok a6 =>
                obtain ⟨b6, p6⟩ := a6
                rw [h6] at hb
                have hq6 : p6 = q := by cases hb; rfl
                have : p5 + 4 ≤ p6 := by
                  unfold MetaData.read at h6
                  rw [Rd.bind_eq] at h6
                  cases h7 : Rd.uint (if (ToC.fromU32 (decNat .little b2)).bigEndian = true then Endian.big else .little) 4 f p5 with
                  | error _ => rw [h7] at h6; cases h6
                  | ok a7 =>
                    obtain ⟨b7, p7⟩ := a7
                    rw [h7] at h6
                    have e7 := Rd.uint_next h7
                    have : Good (if al (.vec b7) = true then do
                        let objects ← Rd.many (ObjectMetaData.read al (if (ToC.fromU32 (decNat .little b2)).bigEndian = true then Endian.big else .little)) b7
                        return ({ objects } : MetaData)
                      else Rd.fail .vecAllocationFailed) :=
                      Good.ite (Good.bind (Good.many (Good.object al _) b7) (fun _ => Good.pure _)) (Good.fail _)
                    have := (this.mono h6).1
                    omega
                omega
    have := ((Good.body al).mono hb).2 (by omega)
    exact ⟨hq, this⟩

/-- `Segment::read` never panics. -/
theorem Segment.read_safe (al : Alloc) (f : Bytes) (p : Nat) :
    (∃ s q, Segment.read al f p = .ok (s, q)) ∨ ∃ t, Segment.read al f p = R.err t := by
  rcases Segment.read_cases al f p with ⟨_, h1⟩ | ⟨_, _, h1⟩ | ⟨_, _, h1⟩
  · exact Or.inr ⟨_, h1⟩
  · exact Or.inr ⟨_, h1⟩
  · rw [h1]
    rcases (Good.body al).safe f (p + 4) with ⟨a, q, h, _⟩ | ⟨t, h⟩
    · exact Or.inl ⟨a, q, h⟩
    · exact Or.inr ⟨t, h⟩

/-- A segment that was read is read again from any file with the same bytes up to its end. -/
theorem Segment.read_stable {al : Alloc} {f g : Bytes} {p q : Nat} {s : Segment}
    (h : Segment.read al f p = .ok (s, q)) (hg : g.take q = f.take q) :
    Segment.read al g p = .ok (s, q) := by
  have hl := Segment.read_length h
  have hgl : q ≤ g.length := by
    have := congrArg List.length hg
    rw [List.length_take, List.length_take] at this
    omega
  have htag : (g.drop p).take 4 = (f.drop p).take 4 := by
    have : ∀ l : Bytes, (l.drop p).take 4 = (l.take (p + 4)).drop p := by
      intro l; rw [List.drop_take, Nat.add_sub_cancel_left]
    rw [this, this, take_of_take_eq hg (by omega)]
  rcases Segment.read_cases al f p with ⟨_, h1⟩ | ⟨_, _, h1⟩ | ⟨_, ht, h1⟩
  · rw [h] at h1; cases h1
  · rw [h] at h1; cases h1
  · rcases Segment.read_cases al g p with ⟨hc, _⟩ | ⟨_, hn, _⟩ | ⟨_, _, h2⟩
    · omega
    · exact absurd (htag.trans ht) hn
    · rw [h2]
      rw [h] at h1
      exact (Good.body al).stable f (p + 4) s q h1.symm g (Or.inl hg)

/-- Cutting the file inside a segment's header or metadata. -/
theorem Segment.read_cut {al : Alloc} {f : Bytes} {p q : Nat} {s : Segment}
    (h : Segment.read al f p = .ok (s, q)) (o : Nat) (ho : o < q) :
    Segment.read al (f.take o) p =
      if o < p + 4 then R.err .endOfFile else R.err (.ioError .unexpectedEof) := by
  have hl := Segment.read_length h
  have hlen : (f.take o).length = o := by rw [List.length_take]; omega
  split
  · rename_i hc
    rcases Segment.read_cases al (f.take o) p with ⟨_, h1⟩ | ⟨h1, _⟩ | ⟨h1, _⟩
    · exact h1
    · omega
    · omega
  · rename_i hc
    rcases Segment.read_cases al f p with ⟨_, h1⟩ | ⟨_, _, h1⟩ | ⟨_, ht, h1⟩
    · rw [h] at h1; cases h1
    · rw [h] at h1; cases h1
    · have htag : ((f.take o).drop p).take 4 = (f.drop p).take 4 := by
        rw [List.drop_take, List.take_take, Nat.min_eq_left (by omega)]
      rcases Segment.read_cases al (f.take o) p with ⟨h2, _⟩ | ⟨_, hn, _⟩ | ⟨_, _, h2⟩
      · omega
      · exact absurd (htag.trans ht) hn
      · rw [h2]
        rw [h] at h1
        exact (Good.body al).cut f (p + 4) s q h1.symm (by omega) o ho

end Tedium
