import Verif.Proofs.Index

/-! # The index refines the declarative reading of the segments -/

namespace Tedium
open SegSpec

namespace SegSpec

theorem firstOccurrences_snoc (l : List Text) (x : Text) :
    firstOccurrences (l ++ [x]) = if x ∈ firstOccurrences l then firstOccurrences l
      else firstOccurrences l ++ [x] := by
  unfold firstOccurrences
  rw [List.foldl_append]
  rfl

theorem mem_firstOccurrences (l : List Text) (x : Text) : x ∈ firstOccurrences l ↔ x ∈ l := by
  suffices h : ∀ l : List Text, ∀ acc : List Text,
      x ∈ l.foldl (fun acc x => if x ∈ acc then acc else acc ++ [x]) acc ↔ x ∈ acc ∨ x ∈ l by
    have := h l []
    simpa [firstOccurrences] using this
  intro l
  induction l with
  | nil => intro acc; simp
  | cons y ys ih =>
    intro acc
    rw [List.foldl_cons, ih]
    split
    · rename_i hy
      constructor
      · rintro (h | h)
        · exact Or.inl h
        · exact Or.inr (by simp [h])
      · rintro (h | h)
        · exact Or.inl h
        · rcases List.mem_cons.mp h with h | h
          · subst h; exact Or.inl hy
          · exact Or.inr h
    · simp only [List.mem_append, List.mem_cons, List.not_mem_nil, or_false, or_assoc]

theorem nodup_firstOccurrences (l : List Text) : (firstOccurrences l).Nodup := by
  suffices h : ∀ l : List Text, ∀ acc : List Text, acc.Nodup →
      (l.foldl (fun acc x => if x ∈ acc then acc else acc ++ [x]) acc).Nodup from
    h l [] List.nodup_nil
  intro l
  induction l with
  | nil => intro acc h; exact h
  | cons y ys ih =>
    intro acc h
    rw [List.foldl_cons]
    apply ih
    split
    · exact h
    · rename_i hy
      rw [List.nodup_append]
      refine ⟨h, by simp, ?_⟩
      intro a ha b hb hab
      simp only [List.mem_singleton] at hb
      subst hb; subst hab
      exact hy ha

theorem activeOf_snoc (es : List ObjectMetaData) (o : ObjectMetaData) :
    activeOf (es ++ [o]) = if o.rawDataIndex = .none then activeOf es
      else if o.path ∈ activeOf es then activeOf es else activeOf es ++ [o.path] := by
  unfold activeOf
  rw [List.filter_append]
  by_cases h : o.rawDataIndex = .none
  · simp [h]
  · rw [if_neg h, List.filter_cons_of_pos (by simpa using h)]
    simp only [List.filter_nil, List.map_append, List.map_cons, List.map_nil, firstOccurrences_snoc]

theorem layoutOf_snoc (es : List ObjectMetaData) (o : ObjectMetaData) (p : Text) :
    layoutOf (es ++ [o]) p = if o.path = p then (declares o).or (layoutOf es p) else layoutOf es p := by
  unfold layoutOf
  rw [List.filter_append, List.filterMap_append, List.getLast?_append]
  by_cases h : o.path = p
  · rw [if_pos h, List.filter_cons_of_pos (by simpa using h)]
    simp only [List.filter_nil, List.filterMap_cons, List.filterMap_nil]
    cases declares o <;> rfl
  · rw [if_neg h, List.filter_cons_of_neg (by simpa using h)]
    simp

theorem propertiesOf_snoc (es : List ObjectMetaData) (o : ObjectMetaData) (p : Text) :
    propertiesOf (es ++ [o]) p = propertiesOf es p ++ if o.path = p then o.properties else [] := by
  unfold propertiesOf
  rw [List.filter_append, List.flatMap_append]
  by_cases h : o.path = p
  · rw [if_pos h, List.filter_cons_of_pos (by simpa using h)]; simp
  · rw [if_neg h, List.filter_cons_of_neg (by simpa using h)]; simp

theorem unlisted_filter {es : List ObjectMetaData} {p : Text} (h : ¬ Listed es p) :
    es.filter (fun o => o.path = p) = [] := by
  rw [List.filter_eq_nil_iff]
  intro o ho hp
  exact h ⟨o, ho, by simpa using hp⟩

theorem layoutOf_unlisted {es : List ObjectMetaData} {p : Text} (h : ¬ Listed es p) :
    layoutOf es p = none := by
  unfold layoutOf; rw [unlisted_filter h]; rfl

theorem propertiesOf_unlisted {es : List ObjectMetaData} {p : Text} (h : ¬ Listed es p) :
    propertiesOf es p = [] := by
  unfold propertiesOf; rw [unlisted_filter h]; rfl

theorem listed_snoc (es : List ObjectMetaData) (o : ObjectMetaData) (p : Text) :
    Listed (es ++ [o]) p ↔ Listed es p ∨ o.path = p := by
  unfold Listed
  constructor
  · rintro ⟨x, hx, hp⟩
    rcases List.mem_append.mp hx with hx | hx
    · exact Or.inl ⟨x, hx, hp⟩
    · simp only [List.mem_singleton] at hx
      subst hx; exact Or.inr hp
  · rintro (⟨x, hx, hp⟩ | hp)
    · exact ⟨x, by simp [hx], hp⟩
    · exact ⟨o, by simp, hp⟩

theorem listed_append (es fs : List ObjectMetaData) (p : Text) :
    Listed (es ++ fs) p ↔ Listed es p ∨ Listed fs p := by
  unfold Listed
  simp only [List.mem_append, or_and_right, exists_or]

theorem entries_snoc (segs : List Segment) (s : Segment) :
    entries (segs ++ [s]) = entries segs ++ entriesOf s := by
  unfold entries; simp

theorem listedSince_snoc (segs : List Segment) (s : Segment) :
    listedSince (segs ++ [s]) = (if s.toc.containsNewObjectList then [] else listedSince segs) ++ entriesOf s := by
  unfold listedSince; rw [List.foldl_append]; rfl

theorem endOf_snoc (segs : List Segment) (s : Segment) :
    endOf (segs ++ [s]) = endOf segs + (28 + s.nextSegmentOffset) := by
  unfold endOf; simp

theorem dataPrefixes_snoc (segs : List Segment) (s : Segment) :
    dataPrefixes (segs ++ [s]) = dataPrefixes segs ++
      if s.toc.containsRawData then [segs ++ [s]] else [] := by
  unfold dataPrefixes
  rw [List.length_append, List.length_singleton, List.range_succ, List.map_append, List.filter_append]
  congr 1
  · congr 1
    apply List.map_congr_left
    intro k hk
    rw [List.mem_range] at hk
    rw [List.take_append_of_le_length (by omega)]
  · simp only [List.map_cons, List.map_nil]
    rw [show (segs ++ [s]).take (segs.length + 1) = segs ++ [s] from List.take_of_length_le (by simp)]
    cases h : s.toc.containsRawData with
    | true => simp [h]
    | false => simp [h]

theorem locations_snoc (segs : List Segment) (s : Segment) (p : Text) :
    locations (segs ++ [s]) p = locations segs p ++
      if s.toc.containsRawData then
        match (active (segs ++ [s])).idxOf? p with
        | some j => [⟨(dataPrefixes segs).length, j,
            valuesPerChunk (segs ++ [s]) p * chunks (segs ++ [s])⟩]
        | none => []
      else [] := by
  unfold locations
  rw [dataPrefixes_snoc, List.zipIdx_append, List.filterMap_append]
  congr 1
  split
  · simp only [List.zipIdx_cons, List.zipIdx_nil, List.filterMap_cons, List.filterMap_nil, Nat.zero_add]
    cases (active (segs ++ [s])).idxOf? p <;> rfl
  · rfl

theorem idxOf?_of_nodup {l : List Text} (hn : l.Nodup) {j : Nat} {p : Text} (h : l[j]? = some p) :
    l.idxOf? p = some j := by
  induction l generalizing j with
  | nil => simp at h
  | cons x xs ih =>
    rw [List.idxOf?_cons]
    cases j with
    | zero => simp at h; subst h; simp
    | succ j =>
      simp at h
      have hne : x ≠ p := by
        intro hh; subst hh
        exact (List.nodup_cons.mp hn).1 (List.mem_of_getElem? h)
      simp [hne, ih (List.nodup_cons.mp hn).2 h]

theorem getElem?_of_idxOf? {l : List Text} {j : Nat} {p : Text} (h : l.idxOf? p = some j) :
    l[j]? = some p := by
  induction l generalizing j with
  | nil => simp at h
  | cons x xs ih =>
    rw [List.idxOf?_cons] at h
    split at h
    · rename_i hx
      simp only [beq_iff_eq] at hx
      cases h; subst hx; simp
    · obtain ⟨i, hi, rfl⟩ := Option.map_eq_some_iff.mp h
      simpa using ih hi

theorem idxOf?_eq_none {l : List Text} {p : Text} : l.idxOf? p = none ↔ p ∉ l := by
  simp

end SegSpec

theorem insertProps_append (m : SMap PropertyValue) (a b : List (Text × PropertyValue)) :
    ObjectData.insertProps m (a ++ b) = ObjectData.insertProps (ObjectData.insertProps m a) b := by
  induction a generalizing m with
  | nil => rfl
  | cons x xs ih =>
    obtain ⟨n, v⟩ := x
    exact ih _

theorem sorted_insertProps (m : SMap PropertyValue) (a : List (Text × PropertyValue))
    (h : SMap.Sorted m) : SMap.Sorted (ObjectData.insertProps m a) := by
  induction a generalizing m with
  | nil => exact h
  | cons x xs ih =>
    obtain ⟨n, v⟩ := x
    exact ih _ (SMap.sorted_insert h _ _)

theorem get?_insertProps (m : SMap PropertyValue) (a : List (Text × PropertyValue)) (n : Text) :
    (ObjectData.insertProps m a).get? n = (lastValue a n).or (m.get? n) := by
  induction a generalizing m with
  | nil => rfl
  | cons x xs ih =>
    obtain ⟨k, v⟩ := x
    show (ObjectData.insertProps (m.insert k v) xs).get? n = _
    rw [ih, SMap.get?_insert]
    unfold lastValue
    by_cases h : k = n
    · rw [if_pos h, List.filter_cons_of_pos (by simpa using h), List.getLast?_cons]
      cases ((xs.filter fun p => p.1 = n)).getLast? <;> simp
    · rw [if_neg h, List.filter_cons_of_neg (by simpa using h)]

/-! ## The relation -/

/-- number of values per chunk of the most recent layout -/
def valsOf (all : List ObjectMetaData) (p : Text) : Nat :=
  match layoutOf all p with
  | some m => m.numberOfValues
  | none => 0

/-- The object described by the entries. -/
def objectOf (all : List ObjectMetaData) (locs : Text → List DataLocation) (p : Text) : ObjectData :=
  { path := p, properties := ObjectData.insertProps [] (propertiesOf all p)
    dataLocations := locs p, latestDataFormat := layoutOf all p }

structure ObjInv (all since : List ObjectMetaData) (locs : Text → List DataLocation) (ix : Index) :
    Prop where
  listed : ∀ p, Listed all p → ix.objects.get? p = some (objectOf all locs p)
  unlisted : ∀ p, ¬ Listed all p → ix.objects.get? p = none ∧ locs p = []
  active : ix.activeObjects = (activeOf since).map (fun p => ⟨p, valsOf all p⟩)
  activeSome : ∀ p ∈ activeOf since, ∃ m, layoutOf all p = some m

theorem layoutOf_listed {all : List ObjectMetaData} {p : Text} {m : RawDataMeta}
    (h : layoutOf all p = some m) : Listed all p := by
  apply Classical.byContradiction
  intro hn
  rw [layoutOf_unlisted hn] at h
  cases h

theorem ObjInv.updated {all since : List ObjectMetaData} {locs : Text → List DataLocation} {ix : Index}
    (h : ObjInv all since locs ix) (e : ObjectMetaData) :
    updatedObject (ix.objects.get? e.path) e = objectOf (all ++ [e]) locs e.path := by
  unfold objectOf
  rw [propertiesOf_snoc, layoutOf_snoc, if_pos rfl, if_pos rfl, insertProps_append]
  by_cases hl : Listed all e.path
  · rw [h.listed _ hl]; rfl
  · have := h.unlisted _ hl
    rw [this.1, propertiesOf_unlisted hl, layoutOf_unlisted hl, this.2]
    simp [updatedObject, ObjectData.insertProps]

theorem ObjInv.paths {all since : List ObjectMetaData} {locs : Text → List DataLocation} {ix : Index}
    (h : ObjInv all since locs ix) : ix.activeObjects.map (·.path) = activeOf since := by
  rw [h.active, List.map_map]
  conv => rhs; rw [← List.map_id (activeOf since)]
  rfl

theorem ObjInv.format {all since : List ObjectMetaData} {locs : Text → List DataLocation} {ix : Index}
    (h : ObjInv all since locs ix) (p : Text) :
    (ix.objects.get? p).bind (·.latestDataFormat) = layoutOf all p := by
  by_cases hl : Listed all p
  · rw [h.listed _ hl]; rfl
  · rw [(h.unlisted _ hl).1, layoutOf_unlisted hl]; rfl

/-- the map part of the step -/
theorem ObjInv.objects {all since : List ObjectMetaData} {locs : Text → List DataLocation} {ix : Index}
    (h : ObjInv all since locs ix) (e : ObjectMetaData) :
    (∀ p, Listed (all ++ [e]) p →
      (ix.objects.insert e.path (updatedObject (ix.objects.get? e.path) e)).get? p
        = some (objectOf (all ++ [e]) locs p)) ∧
    (∀ p, ¬ Listed (all ++ [e]) p →
      (ix.objects.insert e.path (updatedObject (ix.objects.get? e.path) e)).get? p = none ∧ locs p = []) := by
  constructor
  · intro p hp
    rw [SMap.get?_insert]
    by_cases he : e.path = p
    · rw [if_pos he, h.updated, he]
    · rw [if_neg he]
      have hl : Listed all p := by
        rcases (listed_snoc all e p).mp hp with hh | hh
        · exact hh
        · exact absurd hh he
      rw [h.listed p hl]
      unfold objectOf
      rw [propertiesOf_snoc, layoutOf_snoc, if_neg he, if_neg he, List.append_nil]
  · intro p hp
    rw [listed_snoc, not_or] at hp
    rw [SMap.get?_insert, if_neg hp.2]
    exact h.unlisted p hp.1

/-- the step of `addObjects` -/
def entryStep (ix : Index) (e : ObjectMetaData) : R Unit × Index :=
  match e.rawDataIndex with
  | .none => ix.updateMetaObject e
  | _ => ix.updateOrActivateDataObject e

theorem addObjects_cons (ix : Index) (e : ObjectMetaData) (es : List ObjectMetaData) :
    ix.addObjects (e :: es) = match entryStep ix e with
      | (.error e, ix) => (.error e, ix)
      | (.ok (), ix) => ix.addObjects es := rfl

/-- One entry. -/
theorem ObjInv.step {all since : List ObjectMetaData} {locs : Text → List DataLocation} {ix : Index}
    (h : ObjInv all since locs ix) (hi : Inv ix) (e : ObjectMetaData) :
    (¬ (e.rawDataIndex = .matchPrevious ∧ layoutOf all e.path = none) ∧
      ∃ ix', entryStep ix e = (.ok (), ix') ∧
        Inv ix' ∧ ObjInv (all ++ [e]) (since ++ [e]) locs ix') ∨
    (e.rawDataIndex = .matchPrevious ∧ layoutOf all e.path = none ∧
      ∃ ix', entryStep ix e = (R.err .noPreviousType, ix')) := by
  by_cases hr : e.rawDataIndex = .none
  · left
    refine ⟨(fun hc => by rw [hr] at hc; cases hc.1), ?_⟩
    have hinv := hi.updateMetaObject e (Or.inl hr)
    rcases updateMetaObject_cases ix e with ⟨heq, _⟩ | ⟨o, ho, _, hmp, heq⟩ | ⟨_, hmp, heq⟩
    · rw [heq] at hinv
      have hv : ∀ p, layoutOf (all ++ [e]) p = layoutOf all p := by
        intro p
        rw [layoutOf_snoc]
        have : declares e = none := by unfold declares; rw [hr]
        rw [this]; simp
      refine ⟨_, by unfold entryStep; rw [hr]; exact heq, hinv, ⟨(h.objects e).1, (h.objects e).2, ?_, ?_⟩⟩
      · rw [activeOf_snoc, if_pos hr]
        show ix.activeObjects = _
        rw [h.active]
        apply List.map_congr_left
        intro p _
        unfold valsOf; rw [hv]
      · rw [activeOf_snoc, if_pos hr]
        intro p hp
        rw [hv]; exact h.activeSome p hp
    · rw [hr] at hmp; cases hmp
    · rw [hr] at hmp; cases hmp
  · have hstep : entryStep ix e = ix.updateOrActivateDataObject e := by
      unfold entryStep
      cases hr' : e.rawDataIndex with
      | none => exact absurd hr' hr
      | _ => rfl
    rw [hstep]
    have hinv := hi.updateOrActivate e hr
    have hfmt := h.format e.path
    have hvne : ∀ p, e.path ≠ p → valsOf (all ++ [e]) p = valsOf all p := by
      intro p hp
      unfold valsOf; rw [layoutOf_snoc, if_neg hp]
    rcases updateOrActivate_cases hi e hr with ⟨hm, heq⟩ | ⟨hnm, m, hfm, heq⟩ | ⟨hnm, hmp, hnone, heq⟩
    · left
      rw [h.paths] at hm
      obtain ⟨m, hlm⟩ := h.activeSome _ hm
      refine ⟨(fun hc => by rw [hlm] at hc; cases hc.2), ?_⟩
      rw [heq] at hinv
      refine ⟨_, heq, hinv, ⟨(h.objects e).1, (h.objects e).2, ?_, ?_⟩⟩
      · rw [activeOf_snoc, if_neg hr, if_pos hm]
        show ix.activeObjects.map _ = _
        rw [h.active, List.map_map]
        apply List.map_congr_left
        intro p hp
        simp only [Function.comp]
        by_cases hpe : p = e.path
        · rw [if_pos hpe, ActiveObject.update_eq]
          subst hpe
          unfold valsOf
          rw [layoutOf_snoc, if_pos rfl, hlm]
          cases declares e <;> rfl
        · rw [if_neg hpe, hvne p (fun hh => hpe hh.symm)]
      · rw [activeOf_snoc, if_neg hr, if_pos hm]
        intro p hp
        rw [layoutOf_snoc]
        obtain ⟨m', hm'⟩ := h.activeSome p hp
        split
        · rw [hm']; cases declares e <;> exact ⟨_, rfl⟩
        · exact ⟨m', hm'⟩
    · left
      rw [h.paths] at hnm
      rw [heq] at hinv
      have hlay : layoutOf (all ++ [e]) e.path = some m := by
        rw [h.updated] at hfm; exact hfm
      refine ⟨?_, _, heq, hinv, ⟨(h.objects e).1, (h.objects e).2, ?_, ?_⟩⟩
      · rintro ⟨hc1, hc2⟩
        rw [layoutOf_snoc, if_pos rfl, hc2] at hlay
        unfold declares at hlay
        rw [hc1] at hlay
        cases hlay
      · rw [activeOf_snoc, if_neg hr, if_neg hnm]
        show ix.activeObjects ++ _ = _
        rw [h.active, List.map_append]
        congr 1
        · apply List.map_congr_left
          intro p hp
          rw [hvne p]
          intro hh; subst hh; exact hnm hp
        · simp only [List.map_cons, List.map_nil]
          unfold valsOf
          rw [hlay]
      · rw [activeOf_snoc, if_neg hr, if_neg hnm]
        intro p hp
        rcases List.mem_append.mp hp with hp | hp
        · obtain ⟨m', hm'⟩ := h.activeSome p hp
          have : e.path ≠ p := by intro hh; subst hh; exact hnm hp
          rw [layoutOf_snoc, if_neg this]; exact ⟨m', hm'⟩
        · simp only [List.mem_singleton] at hp
          rw [hp]; exact ⟨m, hlay⟩
    · right
      refine ⟨hmp, ?_, _, heq⟩
      rw [← hfmt]; exact hnone

/-- All entries of a segment: accepted exactly when every "same as previous" entry has a layout
    to refer to. -/
theorem ObjInv.addObjects {locs : Text → List DataLocation} :
    ∀ (es all : List ObjectMetaData) {since : List ObjectMetaData} {ix : Index},
    ObjInv all since locs ix → Inv ix →
    ((∀ pre o post, es = pre ++ o :: post →
        ¬ (o.rawDataIndex = .matchPrevious ∧ layoutOf (all ++ pre) o.path = none)) ∧
      ∃ ix', ix.addObjects es = (.ok (), ix') ∧ Inv ix' ∧ ObjInv (all ++ es) (since ++ es) locs ix') ∨
    ((∃ pre o post, es = pre ++ o :: post ∧ o.rawDataIndex = .matchPrevious ∧
        layoutOf (all ++ pre) o.path = none) ∧
      ∃ ix', ix.addObjects es = (R.err .noPreviousType, ix')) := by
  intro es
  induction es with
  | nil =>
    intro all since ix h hi
    left
    refine ⟨?_, ix, rfl, hi, by simpa using h⟩
    intro pre o post hh; simp at hh
  | cons e es ih =>
    intro all since ix h hi
    rcases h.step hi e with ⟨hok, ix', heq, hi', h'⟩ | ⟨hmp, hnone, ix', heq⟩
    · have hadd : ix.addObjects (e :: es) = ix'.addObjects es := by
        rw [addObjects_cons, heq]
      rcases ih (all ++ [e]) h' hi' with ⟨hall, ix'', heq', hi'', h''⟩ | ⟨⟨pre, o, post, hp, hmp, hn⟩, ix'', heq'⟩
      · left
        refine ⟨?_, ix'', by rw [hadd, heq'], hi'', by simpa using h''⟩
        intro pre o post hh
        cases pre with
        | nil =>
          simp only [List.nil_append, List.cons.injEq] at hh
          rw [← hh.1]; simpa using hok
        | cons x xs =>
          simp only [List.cons_append, List.cons.injEq] at hh
          have := hall xs o post hh.2
          rw [← hh.1]
          simpa using this
      · right
        exact ⟨⟨e :: pre, o, post, by simp [hp], hmp, by simpa using hn⟩, ix'', by rw [hadd, heq']⟩
    · right
      refine ⟨⟨[], e, es, rfl, hmp, by simpa using hnone⟩, ix', ?_⟩
      rw [addObjects_cons, heq]

/-! ## Chunks -/

theorem combine_fixed_ok {a b : Nat} {r : ChunkSize} (h : (ChunkSize.fixed a).combine (.fixed b) = .ok r) :
    r = .fixed (a + b) := by
  unfold ChunkSize.combine chunkAdd at h
  dsimp only at h
  split at h
  · cases h; rfl
  · cases h

theorem combine_variable_left {a : Nat} {c r : ChunkSize} (h : (ChunkSize.variable a).combine c = .ok r) :
    ∃ w, r = .variable w := by
  cases c <;> (unfold ChunkSize.combine chunkAdd at h; dsimp only at h; split at h) <;>
    first | (cases h; exact ⟨_, rfl⟩) | cases h

theorem combine_variable_right {a : ChunkSize} {c : Nat} {r : ChunkSize}
    (h : a.combine (.variable c) = .ok r) : ∃ w, r = .variable w := by
  cases a <;> (unfold ChunkSize.combine chunkAdd at h; dsimp only at h; split at h) <;>
    first | (cases h; exact ⟨_, rfl⟩) | cases h

theorem chunkSizeFrom_variable (cs : List RawDataMeta) : ∀ {w : Nat} {r : ChunkSize},
    DataBlock.chunkSizeFrom (.variable w) cs = .ok r → ∃ w', r = .variable w' := by
  induction cs with
  | nil => intro w r h; cases h; exact ⟨_, rfl⟩
  | cons c cs ih =>
    intro w r h
    unfold DataBlock.chunkSizeFrom at h
    cases ht : c.totalSizeBytes with
    | some t =>
      rw [ht] at h; dsimp only at h
      cases hc : (ChunkSize.variable w).combine (.variable t) with
      | error e => rw [hc] at h; cases h
      | ok x =>
        rw [hc] at h
        obtain ⟨w', rfl⟩ := combine_variable_left hc
        exact ih h
    | none =>
      rw [ht] at h; dsimp only at h
      split at h
      · cases hc : (ChunkSize.variable w).combine (.fixed (c.numberOfValues * c.dataType.size)) with
        | error e => rw [hc] at h; cases h
        | ok x =>
          rw [hc] at h
          obtain ⟨w', rfl⟩ := combine_variable_left hc
          exact ih h
      · cases h

theorem chunkSizeFrom_fixed (cs : List RawDataMeta) : ∀ {w : Nat} {r : ChunkSize},
    DataBlock.chunkSizeFrom (.fixed w) cs = .ok r →
    if cs.any (fun m => m.totalSizeBytes.isSome) then ∃ w', r = .variable w'
    else r = .fixed (w + (cs.map (fun m => m.numberOfValues * m.dataType.size)).sum) := by
  induction cs with
  | nil => intro w r h; cases h; simp
  | cons c cs ih =>
    intro w r h
    unfold DataBlock.chunkSizeFrom at h
    cases ht : c.totalSizeBytes with
    | some t =>
      rw [ht] at h; dsimp only at h
      simp only [List.any_cons, ht, Option.isSome_some, Bool.true_or, if_true]
      cases hc : (ChunkSize.fixed w).combine (.variable t) with
      | error e => rw [hc] at h; cases h
      | ok x =>
        rw [hc] at h
        obtain ⟨w', rfl⟩ := combine_variable_right hc
        exact chunkSizeFrom_variable cs h
    | none =>
      rw [ht] at h; dsimp only at h
      split at h
      · cases hc : (ChunkSize.fixed w).combine (.fixed (c.numberOfValues * c.dataType.size)) with
        | error e => rw [hc] at h; cases h
        | ok x =>
          rw [hc] at h
          have := combine_fixed_ok hc
          subst this
          have := ih h
          simp only [List.any_cons, ht, Option.isSome_none, Bool.false_or, List.map_cons, List.sum_cons]
          split
          · rename_i hany; rw [if_pos hany] at this; exact this
          · rename_i hany; rw [if_neg hany] at this; rw [this, Nat.add_assoc]
      · cases h

theorem numberOfChunks_spec {b : DataBlock} {n : Nat} (h : b.numberOfChunks = .ok n) :
    n = if b.channels.any (fun m => m.totalSizeBytes.isSome) then 1
        else if (b.channels.map (fun m => m.numberOfValues * m.dataType.size)).sum = 0 then 0
        else b.length / (b.channels.map (fun m => m.numberOfValues * m.dataType.size)).sum := by
  unfold DataBlock.numberOfChunks DataBlock.chunkSize at h
  cases hc : DataBlock.chunkSizeFrom (.fixed 0) b.channels with
  | error e => rw [hc] at h; cases h
  | ok r =>
    rw [hc] at h
    have hs := chunkSizeFrom_fixed b.channels hc
    split
    · rename_i hany
      rw [if_pos hany] at hs
      obtain ⟨w, rfl⟩ := hs
      cases h; rfl
    · rename_i hany
      rw [if_neg hany, Nat.zero_add] at hs
      rw [hs] at h
      split
      · rename_i h0; rw [h0] at h; cases h; rfl
      · rename_i h0
        generalize hsum : (b.channels.map (fun m => m.numberOfValues * m.dataType.size)).sum = t at *
        cases t with
        | zero => exact absurd rfl h0
        | succ t => cases h; rfl

/-! ## Segments -/

/-- The index is what the segments describe. -/
structure Refines (segs : List Segment) (ix : Index) : Prop where
  inv : Inv ix
  obj : ObjInv (entries segs) (listedSince segs) (locations segs) ix
  blocks : ix.dataBlocks.map some = (dataPrefixes segs).map blockOf
  next : ix.nextSegmentStart = endOf segs

theorem Refines.new : Refines [] Index.new where
  inv := Inv.new
  obj := ⟨by rintro p ⟨o, ho, _⟩; simp [entries] at ho, fun p _ => ⟨rfl, rfl⟩, rfl,
    by intro p hp; simp [listedSince, activeOf, firstOccurrences] at hp⟩
  blocks := rfl
  next := rfl

theorem Refines.deactivated {segs : List Segment} {ix : Index} (h : Refines segs ix) (s : Segment) :
    Inv (if s.toc.containsNewObjectList then ix.deactivateAllObjects else ix) ∧
    ObjInv (entries segs) (if s.toc.containsNewObjectList then [] else listedSince segs) (locations segs)
      (if s.toc.containsNewObjectList then ix.deactivateAllObjects else ix) := by
  split
  · refine ⟨h.inv.deactivate, ⟨h.obj.listed, h.obj.unlisted, rfl, ?_⟩⟩
    intro p hp; simp [activeOf, firstOccurrences] at hp
  · exact ⟨h.inv, h.obj⟩

/-- The metadata part of a segment: accepted exactly when every "same as previous" entry has a
    layout to refer to. -/
theorem Refines.afterObjects {segs : List Segment} {ix : Index} (h : Refines segs ix) (s : Segment) :
    ((∀ pre o post, entriesOf s = pre ++ o :: post →
        ¬ (o.rawDataIndex = .matchPrevious ∧ layoutOf (entries segs ++ pre) o.path = none)) ∧
      ∃ ix', Tedium.afterObjects ix s = (.ok (), ix') ∧ Inv ix' ∧
        ObjInv (entries (segs ++ [s])) (listedSince (segs ++ [s])) (locations segs) ix' ∧
        ix'.dataBlocks = ix.dataBlocks ∧ ix'.nextSegmentStart = ix.nextSegmentStart) ∨
    ((∃ pre o post, entriesOf s = pre ++ o :: post ∧ o.rawDataIndex = .matchPrevious ∧
        layoutOf (entries segs ++ pre) o.path = none) ∧
      ∃ ix', Tedium.afterObjects ix s = (R.err .noPreviousType, ix')) := by
  obtain ⟨hi, ho⟩ := h.deactivated s
  have hf := afterObjects_frame ix s
  unfold Tedium.afterObjects at hf ⊢
  rcases ObjInv.addObjects (entriesOf s) (entries segs) ho hi with
    ⟨hall, ix', heq, hi', ho'⟩ | ⟨hex, ix', heq⟩
  · left
    refine ⟨hall, ix', heq, hi', ?_, ?_, ?_⟩
    · rw [entries_snoc, listedSince_snoc]; exact ho'
    · rw [heq] at hf; exact hf.2
    · rw [heq] at hf; exact hf.1
  · right
    exact ⟨hex, ix', heq⟩

theorem valsOf_eq (segs : List Segment) (p : Text) : valsOf (entries segs) p = valuesPerChunk segs p := rfl

theorem blockOf_snoc (segs : List Segment) (s : Segment) :
    blockOf (segs ++ [s]) = some
      { start := endOf segs + 28 + s.rawDataOffset
        length := s.nextSegmentOffset - s.rawDataOffset
        layout := if s.toc.dataIsInterleaved then .interleaved else .contigious
        channels := activeLayouts (segs ++ [s])
        byteOrder := if s.toc.bigEndian then .big else .little } := by
  unfold blockOf
  simp

theorem ObjInv.layouts {all since : List ObjectMetaData} {locs : Text → List DataLocation} {ix : Index}
    (h : ObjInv all since locs ix) :
    ix.activeObjects.filterMap (fun a => (ix.objects.get? a.path).bind (·.latestDataFormat))
      = (activeOf since).filterMap (layoutOf all) := by
  rw [h.active, List.filterMap_map]
  congr 1
  funext p
  exact h.format p

/-- Accepted raw data. -/
theorem addRawData_refines {segs : List Segment} {s : Segment} {ix ix' : Index} (hi : Inv ix)
    (ho : ObjInv (entries (segs ++ [s])) (listedSince (segs ++ [s])) (locations segs) ix)
    (hb : ix.dataBlocks.map some = (dataPrefixes segs).map blockOf)
    (hn : ix.nextSegmentStart = endOf segs)
    (hr : ix.addRawData s = (.ok (), ix')) :
    Inv ix' ∧ ObjInv (entries (segs ++ [s])) (listedSince (segs ++ [s])) (locations (segs ++ [s])) ix' ∧
    ix'.dataBlocks.map some = (dataPrefixes (segs ++ [s])).map blockOf ∧
    ix'.nextSegmentStart = endOf segs := by
  have hinv : Inv ix' := by have := (addRawData_spec hi s).1; rw [hr] at this; exact this
  have hnext : ix'.nextSegmentStart = endOf segs := by
    have := addRawData_next ix s; rw [hr] at this; rw [← hn]; exact this
  refine ⟨hinv, ?_⟩
  have hlocs : ∀ p, locations (segs ++ [s]) p = _ := fun p => locations_snoc segs s p
  unfold Index.addRawData at hr
  by_cases hraw : s.toc.containsRawData = true
  · rw [if_pos hraw] at hr
    obtain ⟨ms, hms, hlen, hfm, hj⟩ := activeRawDataMeta_ok hi.active
    rw [hms] at hr
    dsimp only at hr
    have hms' : ms = activeLayouts (segs ++ [s]) := by rw [hfm, ho.layouts]; rfl
    by_cases hem : ms.isEmpty = true
    · rw [if_pos hem] at hr; cases hr
    · rw [if_neg hem] at hr
      have hne : ms ≠ [] := by intro hh; subst hh; simp at hem
      rcases fromSegment_cases s ix.nextSegmentStart ms hne with ⟨_, he⟩ | ⟨_, he⟩ | ⟨_, _, he⟩ | ⟨hc, _, he⟩
      · rw [he] at hr; cases hr
      · rw [he] at hr; cases hr
      · rw [he] at hr; cases hr
      · rw [he] at hr
        dsimp only at hr
        generalize hbd : (DataBlock.mk _ _ _ _ _) = b at hr
        have hblock : blockOf (segs ++ [s]) = some b := by
          rw [blockOf_snoc, ← hbd, hn, hms']
          congr 2
          unfold leadInBytes
          omega
        unfold Index.insertDataBlock at hr
        cases hnc : b.numberOfChunks with
        | error e => rw [hnc] at hr; cases hr
        | ok n =>
          rw [hnc] at hr
          dsimp only at hr
          have hnck : n = chunks (segs ++ [s]) := by
            rw [numberOfChunks_spec hnc, ← hbd]
            unfold chunks chunkBytes rawBytes
            simp only [hms', List.getLast?_append, List.getLast?_singleton, Option.some_or]
          obtain ⟨_, hsort, hout, hin⟩ := addLocations_spec ix.dataBlocks.length n ix.activeObjects 0
            ix.objects hi.nodup (fun a ha => by obtain ⟨o, _, h1, _⟩ := hi.active a ha; exact ⟨o, h1⟩)
          generalize hal : Index.addLocations ix.dataBlocks.length n 0 ix.objects ix.activeObjects = al at hr hout hin
          obtain ⟨res, objs⟩ := al
          dsimp only at hr hout hin
          have hres : res = .ok () := by cases hr; rfl
          have hix : ix' = { ix with dataBlocks := ix.dataBlocks ++ [b], objects := objs } := by cases hr; rfl
          subst hres
          have hblen : ix.dataBlocks.length = (dataPrefixes segs).length := by
            have := congrArg List.length hb; simpa using this
          refine ⟨⟨?_, ?_, ?_, ?_⟩, ?_, hnext⟩
          · intro p hp
            rw [hix]
            show objs.get? p = _
            have hold := ho.listed p hp
            by_cases hact : p ∈ activeOf (listedSince (segs ++ [s]))
            · obtain ⟨j, hjl, hjp⟩ := List.getElem_of_mem hact
              have hjp' : (activeOf (listedSince (segs ++ [s])))[j]? = some p := by
                rw [List.getElem?_eq_getElem hjl, hjp]
              have hact' : ix.activeObjects[j]? = some ⟨p, valsOf (entries (segs ++ [s])) p⟩ := by
                rw [ho.active, List.getElem?_map, hjp']; rfl
              obtain ⟨o, hoo, _, h6⟩ := hin j _ hact'
              dsimp only at hoo h6
              rw [hold] at hoo
              cases hoo
              rw [(h6 rfl).1]
              unfold objectOf ObjectData.addDataLocation
              congr 2
              dsimp only
              rw [hlocs p, if_pos hraw]
              have : (active (segs ++ [s])).idxOf? p = some j :=
                idxOf?_of_nodup (nodup_firstOccurrences _) hjp'
              rw [this, hblen, hnck, valsOf_eq]
              simp
            · have hnm : p ∉ ix.activeObjects.map (·.path) := by rw [ho.paths]; exact hact
              rw [hout p hnm, hold]
              unfold objectOf
              rw [hlocs p, if_pos hraw]
              have : (active (segs ++ [s])).idxOf? p = none := idxOf?_eq_none.mpr hact
              rw [this, List.append_nil]
          · intro p hp
            rw [hix]
            show objs.get? p = _ ∧ _
            have hnact : p ∉ activeOf (listedSince (segs ++ [s])) := by
              intro hh
              obtain ⟨m, hm⟩ := ho.activeSome p hh
              exact hp (layoutOf_listed hm)
            have hnm : p ∉ ix.activeObjects.map (·.path) := by rw [ho.paths]; exact hnact
            rw [hout p hnm]
            refine ⟨(ho.unlisted p hp).1, ?_⟩
            rw [hlocs p, if_pos hraw]
            have : (active (segs ++ [s])).idxOf? p = none := idxOf?_eq_none.mpr hnact
            rw [this, List.append_nil]
            exact (ho.unlisted p hp).2
          · rw [hix]; exact ho.active
          · exact ho.activeSome
          · rw [hix]
            show (ix.dataBlocks ++ [b]).map some = _
            rw [dataPrefixes_snoc, if_pos hraw, List.map_append, List.map_append, hb]
            simp [hblock]
  · rw [if_neg hraw] at hr
    have hix : ix' = ix := by cases hr; rfl
    subst hix
    have hl : locations (segs ++ [s]) = locations segs := by
      funext p
      rw [hlocs p, if_neg hraw, List.append_nil]
    refine ⟨by rw [hl]; exact ho, ?_, hnext⟩
    rw [dataPrefixes_snoc, if_neg hraw, List.append_nil]
    exact hb

theorem Refines.addSegment {segs : List Segment} {ix ix' : Index} {s : Segment} {n : Nat}
    (h : Refines segs ix) (hs : ix.addSegment s = (.ok n, ix')) :
    Refines (segs ++ [s]) ix' ∧ n = endOf (segs ++ [s]) := by
  rw [addSegment_eq] at hs
  rcases h.afterObjects s with ⟨_, ix1, heq, hi1, ho1, hb1, hn1⟩ | ⟨_, ix1, heq⟩
  · rw [heq] at hs
    dsimp only at hs
    cases har : ix1.addRawData s with
    | mk r ix2 =>
      rw [har] at hs
      cases r with
      | error e => cases hs
      | ok u =>
        dsimp only at hs
        obtain ⟨hi2, ho2, hb2, hn2⟩ := addRawData_refines hi1 ho1 (by rw [hb1]; exact h.blocks)
          (by rw [hn1]; exact h.next) har
        rw [advance_eq] at hs
        split at hs
        · have hix : ix' = { ix2 with nextSegmentStart := ix2.nextSegmentStart + (s.nextSegmentOffset + leadInBytes) } := by
            cases hs; rfl
          have hnn : n = ix2.nextSegmentStart + (s.nextSegmentOffset + leadInBytes) := by cases hs; rfl
          have hend : ix2.nextSegmentStart + (s.nextSegmentOffset + leadInBytes) = endOf (segs ++ [s]) := by
            rw [endOf_snoc, hn2]; unfold leadInBytes; omega
          refine ⟨⟨?_, ?_, ?_, ?_⟩, hnn.trans hend⟩
          · rw [hix]
            exact ⟨hi2.sorted, hi2.paths, hi2.active, hi2.nodup, hi2.valid, hi2.incr, hi2.sep⟩
          · rw [hix]; exact ⟨ho2.listed, ho2.unlisted, ho2.active, ho2.activeSome⟩
          · rw [hix]; exact hb2
          · rw [hix]; exact hend
        · cases hs
  · rw [heq] at hs; cases hs

theorem replay_append (ix : Index) (a b : List Segment) :
    replay ix (a ++ b) = (replay ix a).bind (fun ix => replay ix b) := by
  induction a generalizing ix with
  | nil => rfl
  | cons s ss ih =>
    rw [List.cons_append]
    show (match ix.addSegment s with
      | (.error e, _) => Except.error e
      | (.ok _, ix) => replay ix (ss ++ b)) = Except.bind (match ix.addSegment s with
      | (.error e, _) => Except.error e
      | (.ok _, ix) => replay ix ss) _
    split
    · rfl
    · exact ih _

theorem Refines.replay {segs more : List Segment} {ix ix' : Index} (h : Refines segs ix)
    (hr : replay ix more = .ok ix') : Refines (segs ++ more) ix' := by
  induction more generalizing segs ix with
  | nil => cases hr; simpa using h
  | cons s ss ih =>
    unfold SegSpec.replay at hr
    split at hr
    · cases hr
    · rename_i heq
      have := ih (h.addSegment heq).1 hr
      simpa using this

/-- Replaying accepted segments gives the index they describe. -/
theorem replay_refines {segs : List Segment} {ix : Index} (h : replay Index.new segs = .ok ix) :
    Refines segs ix := by
  have := Refines.new.replay h
  simpa using this

end Tedium
