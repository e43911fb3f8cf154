import Verif.Proofs.SMap
import Verif.Spec.Segments

/-! # Helper lemmas: building the index -/

namespace Tedium
open SegSpec

/-! ## Single functions -/

theorem ObjectData.update_eq (o : ObjectData) (e : ObjectMetaData) :
    o.update e =
      (if o.latestDataFormat = none ∧ e.rawDataIndex = .matchPrevious then R.err .noPreviousType
        else .ok (),
       { o with properties := ObjectData.insertProps o.properties e.properties
                latestDataFormat := (declares e).or o.latestDataFormat }) := by
  unfold ObjectData.update declares
  obtain ⟨p, ps, ls, lf⟩ := o
  obtain ⟨ep, eps, er⟩ := e
  cases lf <;> cases er <;> simp [dataFormatFromIndex]

theorem ObjectData.update_snd (o : ObjectData) (e : ObjectMetaData) :
    (o.update e).2 = { o with properties := ObjectData.insertProps o.properties e.properties
                              latestDataFormat := (declares e).or o.latestDataFormat } := by
  rw [ObjectData.update_eq]

theorem ObjectData.update_fst (o : ObjectData) (e : ObjectMetaData) :
    (o.update e).1 = if o.latestDataFormat = none ∧ e.rawDataIndex = .matchPrevious
      then R.err .noPreviousType else .ok () := by
  rw [ObjectData.update_eq]

theorem ObjectData.fromMetadata_eq (e : ObjectMetaData) :
    ObjectData.fromMetadata e =
      if e.rawDataIndex = .matchPrevious then R.err .noPreviousType
      else .ok { path := e.path, properties := ObjectData.insertProps [] e.properties
                 dataLocations := [], latestDataFormat := declares e } := by
  unfold ObjectData.fromMetadata
  rw [ObjectData.update_eq]
  by_cases h : e.rawDataIndex = .matchPrevious <;> simp [h, R.err]

/-- The object that `updateMetaObject` leaves in the map. -/
def updatedObject (old : Option ObjectData) (e : ObjectMetaData) : ObjectData :=
  match old with
  | some o => { o with properties := ObjectData.insertProps o.properties e.properties
                       latestDataFormat := (declares e).or o.latestDataFormat }
  | none => { path := e.path, properties := ObjectData.insertProps [] e.properties
              dataLocations := [], latestDataFormat := declares e }

theorem updateMetaObject_cases (ix : Index) (e : ObjectMetaData) :
    (ix.updateMetaObject e = (.ok (), { ix with objects := ix.objects.insert e.path (updatedObject (ix.objects.get? e.path) e) })
      ∧ ¬ (((ix.objects.get? e.path).bind (·.latestDataFormat)) = none ∧ e.rawDataIndex = .matchPrevious)) ∨
    (∃ o, ix.objects.get? e.path = some o ∧ o.latestDataFormat = none ∧ e.rawDataIndex = .matchPrevious ∧
      ix.updateMetaObject e = (R.err .noPreviousType, { ix with objects := ix.objects.insert e.path (updatedObject (some o) e) })) ∨
    (ix.objects.get? e.path = none ∧ e.rawDataIndex = .matchPrevious ∧
      ix.updateMetaObject e = (R.err .noPreviousType, ix)) := by
  unfold Index.updateMetaObject
  cases hg : ix.objects.get? e.path with
  | some o =>
    simp only [ObjectData.update_eq, updatedObject]
    by_cases hc : o.latestDataFormat = none ∧ e.rawDataIndex = .matchPrevious
    · right; left
      exact ⟨o, rfl, hc.1, hc.2, by rw [if_pos hc]⟩
    · left
      exact ⟨by rw [if_neg hc], by simpa using hc⟩
  | none =>
    simp only [ObjectData.fromMetadata_eq, updatedObject]
    by_cases hc : e.rawDataIndex = .matchPrevious
    · right; right
      refine ⟨trivial, hc, ?_⟩
      simp [hc, R.err]
    · left
      refine ⟨?_, by simp [hc]⟩
      rw [if_neg hc]

theorem updateActive_paths (o : ObjectMetaData) (as : List ActiveObject) :
    (Index.updateActive o as).map (·.path) = as.map (·.path) := by
  induction as with
  | nil => rfl
  | cons a as ih =>
    unfold Index.updateActive
    split
    · simp only [List.map_cons]
      congr 1
      unfold ActiveObject.update
      split <;> rfl
    · simp [ih]

/-- With distinct paths, `updateActive` is a map over the list. -/
theorem updateActive_eq_map (o : ObjectMetaData) (as : List ActiveObject)
    (hn : (as.map (·.path)).Nodup) :
    Index.updateActive o as = as.map (fun a => if a.path = o.path then a.update o else a) := by
  induction as with
  | nil => rfl
  | cons a as ih =>
    simp only [List.map_cons, List.nodup_cons] at hn
    unfold Index.updateActive
    split
    · rename_i h
      simp only [List.map_cons, h, if_true]
      congr 1
      symm
      conv => rhs; rw [← List.map_id as]
      apply List.map_congr_left
      intro b hb
      have : b.path ≠ o.path := by
        intro hh
        exact hn.1 (List.mem_map.mpr ⟨b, hb, by rw [hh, h]⟩)
      rw [if_neg this]; rfl
    · rename_i h
      simp only [List.map_cons, h, if_false, ih hn.2]

theorem ActiveObject.update_eq (a : ActiveObject) (o : ObjectMetaData) :
    a.update o = { a with numberOfSamples := ((declares o).map (·.numberOfValues)).getD a.numberOfSamples } := by
  unfold ActiveObject.update declares
  cases o.rawDataIndex <;> rfl

/-! ## The invariant -/

/-- A recorded location points at an existing block and channel slot and counts the samples of
    the whole chunks in it. -/
def ValidLocation (blocks : List DataBlock) (l : DataLocation) : Prop :=
  ∃ b m n, blocks[l.dataBlock]? = some b ∧ b.channels[l.channelIndex]? = some m ∧
    b.numberOfChunks = .ok n ∧ l.numberOfSamples = m.numberOfValues * n

/-- The invariant of every index that can be built, including after failed segments. -/
structure Inv (ix : Index) : Prop where
  sorted : SMap.Sorted ix.objects
  paths : ∀ k o, ix.objects.get? k = some o → o.path = k
  active : ∀ a ∈ ix.activeObjects, ∃ o m, ix.objects.get? a.path = some o ∧
    o.latestDataFormat = some m ∧ a.numberOfSamples = m.numberOfValues
  nodup : (ix.activeObjects.map (·.path)).Nodup
  valid : ∀ k o, ix.objects.get? k = some o → ∀ l ∈ o.dataLocations, ValidLocation ix.dataBlocks l
  incr : ∀ k o, ix.objects.get? k = some o →
    o.dataLocations.Pairwise (fun a b => a.dataBlock < b.dataBlock)
  sep : ∀ k k' o o', ix.objects.get? k = some o → ix.objects.get? k' = some o' →
    ∀ l ∈ o.dataLocations, ∀ l' ∈ o'.dataLocations,
      l.dataBlock = l'.dataBlock → l.channelIndex = l'.channelIndex → k = k'

theorem Inv.new : Inv Index.new where
  sorted := SMap.sorted_nil
  paths := by intro k o h; cases h
  active := by intro a h; cases h
  nodup := List.nodup_nil
  valid := by intro k o h; cases h
  incr := by intro k o h; cases h
  sep := by intro k k' o o' h; cases h

theorem Inv.deactivate {ix : Index} (h : Inv ix) : Inv ix.deactivateAllObjects :=
  { h with
    active := by intro a ha; cases ha
    nodup := List.nodup_nil }

theorem ValidLocation.append {blocks : List DataBlock} {l : DataLocation} (b : DataBlock)
    (h : ValidLocation blocks l) : ValidLocation (blocks ++ [b]) l := by
  obtain ⟨b', m, n, h1, h2, h3, h4⟩ := h
  refine ⟨b', m, n, ?_, h2, h3, h4⟩
  rw [List.getElem?_append_left (List.getElem?_eq_some_iff.mp h1).1, h1]

/-- Replacing one object by another one with the same locations, path, and at least as much
    format information that agrees with the active list. -/
theorem Inv.setObject {ix : Index} (h : Inv ix) (act : List ActiveObject) (e : ObjectMetaData)
    (hact : act.map (·.path) = ix.activeObjects.map (·.path) ∨
      (∃ n, act = ix.activeObjects ++ [⟨e.path, n⟩] ∧ e.path ∉ ix.activeObjects.map (·.path)))
    (hsync : ∀ a ∈ act, (a.path = e.path → ∃ m, (updatedObject (ix.objects.get? e.path) e).latestDataFormat = some m ∧
        a.numberOfSamples = m.numberOfValues) ∧ (a.path ≠ e.path → a ∈ ix.activeObjects)) :
    Inv { ix with objects := ix.objects.insert e.path (updatedObject (ix.objects.get? e.path) e)
                  activeObjects := act } := by
  have hloc : ∀ k o, SMap.get? k (ix.objects.insert e.path (updatedObject (ix.objects.get? e.path) e)) = some o →
      o.path = k ∧ (o.dataLocations = [] ∨ ∃ o', ix.objects.get? k = some o' ∧ o'.dataLocations = o.dataLocations) := by
    intro k o ho
    rw [SMap.get?_insert] at ho
    split at ho
    · rename_i hk; subst hk
      cases ho
      cases hg : ix.objects.get? e.path with
      | none => exact ⟨rfl, Or.inl rfl⟩
      | some o' =>
        exact ⟨h.paths _ o' hg, Or.inr ⟨o', rfl, rfl⟩⟩
    · exact ⟨h.paths _ _ ho, Or.inr ⟨o, ho, rfl⟩⟩
  constructor
  · exact SMap.sorted_insert h.sorted _ _
  · intro k o ho; exact (hloc k o ho).1
  · intro a ha
    dsimp only at ha ⊢
    rw [SMap.get?_insert]
    by_cases hp : e.path = a.path
    · obtain ⟨m, hm, hn⟩ := (hsync a ha).1 hp.symm
      exact ⟨_, m, by rw [if_pos hp], hm, hn⟩
    · rw [if_neg hp]
      exact h.active a ((hsync a ha).2 (fun hh => hp hh.symm))
  · dsimp only
    rcases hact with hact | ⟨n, hact, hnm⟩
    · rw [hact]; exact h.nodup
    · rw [hact, List.map_append, List.nodup_append]
      refine ⟨h.nodup, by simp, ?_⟩
      intro x hx y hy hxy
      simp only [List.map_cons, List.map_nil, List.mem_singleton] at hy
      rw [hxy, hy] at hx
      exact hnm hx
  · intro k o ho l hl
    rcases (hloc k o ho).2 with h0 | ⟨o', ho', hd⟩
    · rw [h0] at hl; cases hl
    · exact h.valid k o' ho' l (by rw [hd]; exact hl)
  · intro k o ho
    rcases (hloc k o ho).2 with h0 | ⟨o', ho', hd⟩
    · rw [h0]; exact List.Pairwise.nil
    · rw [← hd]; exact h.incr k o' ho'
  · intro k k' o o' ho ho' l hl l' hl' hb hc
    rcases (hloc k o ho).2 with h0 | ⟨p, hp, hd⟩
    · rw [h0] at hl; cases hl
    · rcases (hloc k' o' ho').2 with h0 | ⟨p', hp', hd'⟩
      · rw [h0] at hl'; cases hl'
      · exact h.sep k k' p p' hp hp' l (by rw [hd]; exact hl) l' (by rw [hd']; exact hl') hb hc

theorem Inv.updateMetaObject {ix : Index} (h : Inv ix) (e : ObjectMetaData)
    (he : e.rawDataIndex = .none ∨ e.path ∉ ix.activeObjects.map (·.path)) :
    Inv (ix.updateMetaObject e).2 := by
  have sync : ∀ a ∈ ix.activeObjects,
      (a.path = e.path → ∃ m, (updatedObject (ix.objects.get? e.path) e).latestDataFormat = some m ∧
        a.numberOfSamples = m.numberOfValues) ∧ (a.path ≠ e.path → a ∈ ix.activeObjects) := by
    intro a ha
    refine ⟨fun hp => ?_, fun _ => ha⟩
    obtain ⟨o, m, ho, hm, hn⟩ := h.active a ha
    rcases he with he | he
    · rw [← hp, ho]
      refine ⟨m, ?_, hn⟩
      simp [updatedObject, declares, he, hm]
    · exact absurd (List.mem_map.mpr ⟨a, ha, hp⟩) he
  have key := h.setObject ix.activeObjects e (Or.inl rfl) sync
  rcases updateMetaObject_cases ix e with ⟨heq, _⟩ | ⟨o, ho, _, _, heq⟩ | ⟨_, _, heq⟩
  · rw [heq]; exact key
  · rw [heq]; rw [ho] at key; exact key
  · rw [heq]; exact h

theorem find?_path {as : List ActiveObject} {p : Text} :
    (as.find? (fun a => a.path = p) = none ↔ p ∉ as.map (·.path)) := by
  rw [List.find?_eq_none, List.mem_map]
  constructor
  · rintro h ⟨a, ha, hp⟩
    exact h a ha (by simpa using hp)
  · intro h a ha hp
    exact h ⟨a, ha, by simpa using hp⟩

theorem find?_path_some {as : List ActiveObject} {p : Text} {a : ActiveObject}
    (h : as.find? (fun a => a.path = p) = some a) : a ∈ as ∧ a.path = p :=
  ⟨List.mem_of_find?_eq_some h, by simpa using List.find?_some h⟩

/-- What `update_or_activate_data_object` does in a state satisfying the invariant. -/
theorem updateOrActivate_cases {ix : Index} (h : Inv ix) (e : ObjectMetaData)
    (he : e.rawDataIndex ≠ .none) :
    (e.path ∈ ix.activeObjects.map (·.path) ∧
      ix.updateOrActivateDataObject e = (.ok (),
        { ix with objects := ix.objects.insert e.path (updatedObject (ix.objects.get? e.path) e)
                  activeObjects := ix.activeObjects.map (fun a => if a.path = e.path then a.update e else a) })) ∨
    (e.path ∉ ix.activeObjects.map (·.path) ∧
      ∃ m, (updatedObject (ix.objects.get? e.path) e).latestDataFormat = some m ∧
      ix.updateOrActivateDataObject e = (.ok (),
        { ix with objects := ix.objects.insert e.path (updatedObject (ix.objects.get? e.path) e)
                  activeObjects := ix.activeObjects ++ [⟨e.path, m.numberOfValues⟩] })) ∨
    (e.path ∉ ix.activeObjects.map (·.path) ∧ e.rawDataIndex = .matchPrevious ∧
      ((ix.objects.get? e.path).bind (·.latestDataFormat)) = none ∧
      ix.updateOrActivateDataObject e = (R.err .noPreviousType, (ix.updateMetaObject e).2)) := by
  unfold Index.updateOrActivateDataObject
  cases hf : ix.activeObjects.find? (fun a => a.path = e.path) with
  | some a =>
    left
    obtain ⟨ha, hp⟩ := find?_path_some hf
    refine ⟨List.mem_map.mpr ⟨a, ha, hp⟩, ?_⟩
    obtain ⟨o, m, ho, hm, _⟩ := h.active a ha
    simp only [ho, ObjectData.update_eq, hm, reduceCtorEq, false_and, if_false]
    rw [updateActive_eq_map e _ h.nodup, ← hp, ho]
    simp only [updatedObject, hm]
  | none =>
    right
    have hnm := find?_path.mp hf
    rcases updateMetaObject_cases ix e with ⟨heq, hnc⟩ | ⟨o, ho, h1, h2, heq⟩ | ⟨h1, h2, heq⟩
    · left
      refine ⟨hnm, ?_⟩
      have : ∃ m, (updatedObject (ix.objects.get? e.path) e).latestDataFormat = some m := by
        have hd : ∀ (x : Option RawDataMeta), ¬ (x = none ∧ e.rawDataIndex = .matchPrevious) →
            ∃ m, (declares e).or x = some m := by
          intro x hx
          unfold declares
          cases hr : e.rawDataIndex with
          | none => exact absurd hr he
          | rawData m => exact ⟨m, rfl⟩
          | matchPrevious =>
            cases x with
            | none => exact absurd ⟨rfl, hr⟩ hx
            | some m => exact ⟨m, rfl⟩
        cases hg : ix.objects.get? e.path with
        | some o =>
          rw [hg] at hnc
          exact hd _ (by simpa using hnc)
        | none =>
          rw [hg] at hnc
          obtain ⟨m, hm⟩ := hd none (by simpa using hnc)
          exact ⟨m, by simpa [updatedObject] using hm⟩
      obtain ⟨m, hm⟩ := this
      refine ⟨m, hm, ?_⟩
      simp only [heq, Index.channelFormat, SMap.get?_insert, if_true, Option.bind_some, hm,
        ActiveObject.new]
    · right
      refine ⟨hnm, h2, ?_, ?_⟩
      · rw [ho]; exact h1
      · simp only [heq, R.err]
    · right
      refine ⟨hnm, h2, by rw [h1]; rfl, ?_⟩
      simp only [heq, R.err]

theorem Inv.updateOrActivate {ix : Index} (h : Inv ix) (e : ObjectMetaData)
    (he : e.rawDataIndex ≠ .none) : Inv (ix.updateOrActivateDataObject e).2 := by
  rcases updateOrActivate_cases h e he with ⟨hm, heq⟩ | ⟨hnm, m, hfm, heq⟩ | ⟨hnm, _, _, heq⟩
  · rw [heq]
    refine h.setObject _ e (Or.inl ?_) ?_
    · rw [List.map_map]
      apply List.map_congr_left
      intro a _
      simp only [Function.comp]
      split
      · rw [ActiveObject.update_eq]
      · rfl
    · intro a ha
      obtain ⟨b, hb, hba⟩ := List.mem_map.mp ha
      obtain ⟨o, m, ho, hm2, hn⟩ := h.active b hb
      by_cases hp : b.path = e.path
      · rw [if_pos hp] at hba
        subst hba
        rw [ActiveObject.update_eq]
        refine ⟨fun _ => ?_, fun hne => absurd hp hne⟩
        rw [← hp, ho]
        simp only [updatedObject, hm2]
        cases declares e with
        | none => exact ⟨m, rfl, hn⟩
        | some m' => exact ⟨m', rfl, rfl⟩
      · rw [if_neg hp] at hba
        subst hba
        exact ⟨fun hh => absurd hh hp, fun _ => hb⟩
  · rw [heq]
    refine h.setObject _ e (Or.inr ⟨m.numberOfValues, rfl, hnm⟩) ?_
    intro a ha
    rcases List.mem_append.mp ha with ha | ha
    · have : a.path ≠ e.path := fun hh => hnm (List.mem_map.mpr ⟨a, ha, hh⟩)
      exact ⟨fun hh => absurd hh this, fun _ => ha⟩
    · simp only [List.mem_singleton] at ha
      subst ha
      exact ⟨fun _ => ⟨m, hfm, rfl⟩, fun hh => absurd rfl hh⟩
  · rw [heq]; exact h.updateMetaObject e (Or.inr hnm)

/-- results of the metadata loop: success or `NoPreviousType` -/
theorem addObjects_inv {ix : Index} (h : Inv ix) (es : List ObjectMetaData) :
    Inv (ix.addObjects es).2 ∧
      ((ix.addObjects es).1 = .ok () ∨ (ix.addObjects es).1 = R.err .noPreviousType) := by
  induction es generalizing ix with
  | nil => exact ⟨h, Or.inl rfl⟩
  | cons e es ih =>
    unfold Index.addObjects
    by_cases he : e.rawDataIndex = .none
    · simp only [he]
      have hi := h.updateMetaObject e (Or.inl he)
      rcases updateMetaObject_cases ix e with ⟨heq, _⟩ | ⟨o, ho, _, hmp, heq⟩ | ⟨_, hmp, heq⟩
      · rw [heq] at hi ⊢
        exact ih hi
      · rw [he] at hmp; cases hmp
      · rw [he] at hmp; cases hmp
    · have hi := h.updateOrActivate e he
      simp only
      rcases updateOrActivate_cases h e he with ⟨hm, heq⟩ | ⟨hnm, m, hfm, heq⟩ | ⟨hnm, _, _, heq⟩
      · rw [heq] at hi ⊢; exact ih hi
      · rw [heq] at hi ⊢; exact ih hi
      · rw [heq] at hi ⊢; exact ⟨hi, Or.inr rfl⟩

theorem activeRawDataMeta_ok {objects : SMap ObjectData} {as : List ActiveObject}
    (h : ∀ a ∈ as, ∃ o m, objects.get? a.path = some o ∧ o.latestDataFormat = some m ∧
      a.numberOfSamples = m.numberOfValues) :
    ∃ ms, Index.activeRawDataMeta objects as = .ok ms ∧ ms.length = as.length ∧
      ms = as.filterMap (fun a => (objects.get? a.path).bind (·.latestDataFormat)) ∧
      ∀ (j : Nat) a, as[j]? = some a → ∃ m, ms[j]? = some m ∧ a.numberOfSamples = m.numberOfValues := by
  induction as with
  | nil => exact ⟨[], rfl, rfl, rfl, by intro j a h; simp at h⟩
  | cons a as ih =>
    obtain ⟨ms, h1, h2, h3, h4⟩ := ih (fun b hb => h b (by simp [hb]))
    obtain ⟨o, m, ho, hm, hn⟩ := h a (by simp)
    refine ⟨m :: ms, ?_, by simp [h2], ?_, ?_⟩
    · unfold Index.activeRawDataMeta
      simp only [ho, hm, h1]; rfl
    · rw [List.filterMap_cons]
      simp only [ho, Option.bind_some, hm, ← h3]
    · intro j b hb
      cases j with
      | zero => simp at hb; subst hb; exact ⟨m, by simp, hn⟩
      | succ j => simp at hb; simpa using h4 j b hb

/-- What the loop of `insert_data_block` does to the objects. -/
theorem addLocations_spec (di n : Nat) (as : List ActiveObject) :
    ∀ (ci : Nat) (objs : SMap ObjectData), (as.map (·.path)).Nodup →
    (∀ a ∈ as, ∃ o, objs.get? a.path = some o) →
    ((Index.addLocations di n ci objs as).1 = .ok () ∨
      (Index.addLocations di n ci objs as).1 = R.err .chunkSizeOverflow) ∧
    (SMap.Sorted objs → SMap.Sorted (Index.addLocations di n ci objs as).2) ∧
    (∀ p, p ∉ as.map (·.path) → (Index.addLocations di n ci objs as).2.get? p = objs.get? p) ∧
    (∀ (j : Nat) a, as[j]? = some a → ∃ o, objs.get? a.path = some o ∧
      ((Index.addLocations di n ci objs as).2.get? a.path = some o ∨
       (Index.addLocations di n ci objs as).2.get? a.path
        = some (o.addDataLocation ⟨di, ci + j, a.numberOfSamples * n⟩)) ∧
      ((Index.addLocations di n ci objs as).1 = .ok () →
        (Index.addLocations di n ci objs as).2.get? a.path
          = some (o.addDataLocation ⟨di, ci + j, a.numberOfSamples * n⟩) ∧
        a.numberOfSamples * n < u64Lim)) := by
  induction as with
  | nil =>
    intro ci objs _ _
    exact ⟨Or.inl rfl, fun h => h, fun _ _ => rfl, by intro j a h; simp at h⟩
  | cons a as ih =>
    intro ci objs hnd hob
    simp only [List.map_cons, List.nodup_cons] at hnd
    obtain ⟨o, ho⟩ := hob a (by simp)
    unfold Index.addLocations
    by_cases hc : a.numberOfSamples * n < u64Lim
    · simp only [if_pos hc, ho]
      have hob' : ∀ b ∈ as, ∃ o', SMap.get? b.path
          (objs.insert a.path (o.addDataLocation ⟨di, ci, a.numberOfSamples * n⟩)) = some o' := by
        intro b hb
        obtain ⟨o', ho'⟩ := hob b (by simp [hb])
        rw [SMap.get?_insert]
        split
        · exact ⟨_, rfl⟩
        · exact ⟨o', ho'⟩
      obtain ⟨h1, h2, h3, h4⟩ := ih (ci + 1) _ hnd.2 hob'
      refine ⟨h1, fun hs => h2 (SMap.sorted_insert hs _ _), ?_, ?_⟩
      · intro p hp
        simp only [List.map_cons, List.mem_cons, not_or] at hp
        rw [h3 p hp.2, SMap.get?_insert, if_neg (fun hh => hp.1 hh.symm)]
      · intro j b hb
        cases j with
        | zero =>
          simp at hb; subst hb
          have := h3 a.path hnd.1
          rw [SMap.get?_insert, if_pos rfl] at this
          exact ⟨o, ho, Or.inr (by simpa using this), fun _ => ⟨by simpa using this, hc⟩⟩
        | succ j =>
          simp at hb
          obtain ⟨o', ho', h5, h6⟩ := h4 j b hb
          have hne : a.path ≠ b.path := by
            intro hh
            exact hnd.1 (List.mem_map.mpr ⟨b, List.mem_of_getElem? hb, hh.symm⟩)
          rw [SMap.get?_insert, if_neg hne] at ho'
          rw [show ci + (j + 1) = ci + 1 + j by omega]
          exact ⟨o', ho', h5, h6⟩
    · simp only [if_neg hc]
      refine ⟨Or.inr (by trivial), fun h => h, fun _ _ => by trivial, ?_⟩
      intro j b hb
      obtain ⟨o', ho'⟩ := hob b (List.mem_of_getElem? hb)
      exact ⟨o', ho', Or.inl ho', fun hh => by simp [R.err] at hh⟩

theorem Inv.insertDataBlock {ix : Index} (h : Inv ix) (b : DataBlock)
    (hb : ∀ (j : Nat) a, ix.activeObjects[j]? = some a → ∃ m, b.channels[j]? = some m ∧
      a.numberOfSamples = m.numberOfValues) :
    Inv (ix.insertDataBlock b).2 := by
  unfold Index.insertDataBlock
  cases hn : b.numberOfChunks with
  | error e => exact h
  | ok n =>
    dsimp only
    obtain ⟨_, h2, h3, h4⟩ := addLocations_spec ix.dataBlocks.length n ix.activeObjects 0 ix.objects
      h.nodup (fun a ha => by obtain ⟨o, _, ho, _⟩ := h.active a ha; exact ⟨o, ho⟩)
    generalize hr : Index.addLocations ix.dataBlocks.length n 0 ix.objects ix.activeObjects = r at *
    obtain ⟨res, objs⟩ := r
    dsimp only at h2 h3 h4 ⊢
    -- what an object of the new map is
    have key : ∀ k o, objs.get? k = some o → ∃ o', ix.objects.get? k = some o' ∧
        (o = o' ∨ ∃ (j : Nat) (a : ActiveObject), ix.activeObjects[j]? = some a ∧ a.path = k ∧
          o = o'.addDataLocation ⟨ix.dataBlocks.length, j, a.numberOfSamples * n⟩) := by
      intro k o ho
      by_cases hk : k ∈ ix.activeObjects.map (·.path)
      · obtain ⟨a, ha, hp⟩ := List.mem_map.mp hk
        obtain ⟨j, hj, hja⟩ := List.getElem_of_mem ha
        have hja' : ix.activeObjects[j]? = some a := by rw [List.getElem?_eq_getElem hj, hja]
        obtain ⟨o', ho', h5, _⟩ := h4 j a hja'
        rw [hp] at ho' h5
        refine ⟨o', ho', ?_⟩
        rcases h5 with h5 | h5
        · rw [ho] at h5; exact Or.inl (Option.some.inj h5)
        · rw [ho] at h5
          refine Or.inr ⟨j, a, hja', hp, ?_⟩
          simpa using Option.some.inj h5
      · rw [h3 k hk] at ho
        exact ⟨o, ho, Or.inl rfl⟩
    have hlt : ∀ k o, ix.objects.get? k = some o → ∀ l ∈ o.dataLocations, l.dataBlock < ix.dataBlocks.length := by
      intro k o ho l hl
      obtain ⟨_, _, _, hb1, _⟩ := h.valid k o ho l hl
      exact (List.getElem?_eq_some_iff.mp hb1).1
    constructor
    · exact h2 h.sorted
    · intro k o ho
      obtain ⟨o', ho', hc | ⟨j, a, _, _, hc⟩⟩ := key k o ho
      · rw [hc]; exact h.paths k o' ho'
      · rw [hc]; exact h.paths k o' ho'
    · intro a ha
      dsimp only at ha ⊢
      obtain ⟨o, m, ho, hm, hns⟩ := h.active a ha
      obtain ⟨j, hj, hja⟩ := List.getElem_of_mem ha
      have hja' : ix.activeObjects[j]? = some a := by rw [List.getElem?_eq_getElem hj, hja]
      obtain ⟨o', ho', h5, _⟩ := h4 j a hja'
      rw [ho] at ho'; cases ho'
      rcases h5 with h5 | h5
      · exact ⟨o, m, h5, hm, hns⟩
      · exact ⟨_, m, h5, hm, hns⟩
    · exact h.nodup
    · intro k o ho l hl
      obtain ⟨o', ho', hc | ⟨j, a, hja, _, hc⟩⟩ := key k o ho
      · subst hc; exact (h.valid k o ho' l hl).append b
      · subst hc
        rcases List.mem_append.mp hl with hl | hl
        · exact (h.valid k o' ho' l hl).append b
        · simp only [List.mem_singleton] at hl
          subst hl
          obtain ⟨m, hm, hnv⟩ := hb j a hja
          refine ⟨b, m, n, ?_, hm, hn, ?_⟩
          · simp
          · dsimp only; rw [hnv]
    · intro k o ho
      obtain ⟨o', ho', hc | ⟨j, a, hja, _, hc⟩⟩ := key k o ho
      · subst hc; exact h.incr k o ho'
      · subst hc
        unfold ObjectData.addDataLocation
        dsimp only
        rw [List.pairwise_append]
        refine ⟨h.incr k o' ho', by simp, ?_⟩
        intro x hx y hy
        simp only [List.mem_singleton] at hy
        subst hy
        exact hlt k o' ho' x hx
    · intro k k' o o' ho ho' l hl l' hl' hbk hch
      obtain ⟨p, hp, hc⟩ := key k o ho
      obtain ⟨p', hp', hc'⟩ := key k' o' ho'
      have mem : ∀ (q q0 : ObjectData) (kk : Text) (x : DataLocation), ix.objects.get? kk = some q0 →
          (q = q0 ∨ ∃ (j : Nat) (a : ActiveObject), ix.activeObjects[j]? = some a ∧ a.path = kk ∧
            q = q0.addDataLocation ⟨ix.dataBlocks.length, j, a.numberOfSamples * n⟩) →
          x ∈ q.dataLocations → (x ∈ q0.dataLocations ∧ x.dataBlock < ix.dataBlocks.length) ∨
            (x.dataBlock = ix.dataBlocks.length ∧ ∃ (a : ActiveObject), ix.activeObjects[x.channelIndex]? = some a ∧ a.path = kk) := by
        intro q q0 kk x hq0 hqc hx
        rcases hqc with rfl | ⟨j, a, hja, hak, rfl⟩
        · exact Or.inl ⟨hx, hlt kk q hq0 x hx⟩
        · rcases List.mem_append.mp hx with hx | hx
          · exact Or.inl ⟨hx, hlt kk q0 hq0 x hx⟩
          · simp only [List.mem_singleton] at hx
            subst hx
            exact Or.inr ⟨rfl, a, hja, hak⟩
      rcases mem o p k l hp hc hl with ⟨m1, l1⟩ | ⟨e1, a1, ha1, hk1⟩
      · rcases mem o' p' k' l' hp' hc' hl' with ⟨m2, l2⟩ | ⟨e2, a2, ha2, hk2⟩
        · exact h.sep k k' p p' hp hp' l m1 l' m2 hbk hch
        · omega
      · rcases mem o' p' k' l' hp' hc' hl' with ⟨m2, l2⟩ | ⟨e2, a2, ha2, hk2⟩
        · omega
        · rw [hch] at ha1
          rw [ha1] at ha2
          cases ha2
          rw [← hk1, hk2]

/-- `from_segment` in closed form, when there are channels -/
theorem fromSegment_cases (s : Segment) (start : Nat) (chs : List RawDataMeta) (hne : chs ≠ []) :
    (s.rawDataOffset > s.nextSegmentOffset ∧ DataBlock.fromSegment s start chs = R.err .invalidRawOffset) ∨
    (s.rawDataOffset = s.nextSegmentOffset ∧ DataBlock.fromSegment s start chs = R.err .zeroLengthDataBlock) ∨
    (s.rawDataOffset < s.nextSegmentOffset ∧ u64Lim ≤ s.rawDataOffset + leadInBytes + start ∧
      DataBlock.fromSegment s start chs = R.panic .overflow) ∨
    (s.rawDataOffset < s.nextSegmentOffset ∧ s.rawDataOffset + leadInBytes + start < u64Lim ∧
      DataBlock.fromSegment s start chs = .ok
        { start := s.rawDataOffset + leadInBytes + start
          length := s.nextSegmentOffset - s.rawDataOffset
          layout := if s.toc.dataIsInterleaved then .interleaved else .contigious
          channels := chs
          byteOrder := if s.toc.bigEndian then .big else .little }) := by
  have hemp : chs.isEmpty = false := by cases chs <;> simp_all
  unfold DataBlock.fromSegment
  by_cases h1 : s.rawDataOffset > s.nextSegmentOffset
  · left; exact ⟨h1, by simp [h1]⟩
  · by_cases h2 : s.rawDataOffset = s.nextSegmentOffset
    · right; left; exact ⟨h2, by simp [h2]⟩
    · have h3 : ¬ s.nextSegmentOffset - s.rawDataOffset = 0 := by omega
      by_cases h4 : s.rawDataOffset + leadInBytes + start < u64Lim
      · right; right; right
        exact ⟨by omega, h4, by simp [h1, h3, hemp, h4]⟩
      · right; right; left
        exact ⟨by omega, by omega, by simp [h1, h3, hemp, h4]⟩

theorem numberOfChunks_errors (b : DataBlock) :
    (∃ n, b.numberOfChunks = .ok n) ∨ b.numberOfChunks = R.err .chunkSizeOverflow := by
  have comb : ∀ a c : ChunkSize, (∃ r, a.combine c = .ok r) ∨ a.combine c = R.err .chunkSizeOverflow := by
    intro a c
    cases a <;> cases c <;> unfold ChunkSize.combine chunkAdd <;> dsimp only <;> split <;>
      first | exact Or.inl ⟨_, rfl⟩ | exact Or.inr rfl
  have from_ : ∀ (cs : List RawDataMeta) (a : ChunkSize), (∃ r, DataBlock.chunkSizeFrom a cs = .ok r) ∨
      DataBlock.chunkSizeFrom a cs = R.err .chunkSizeOverflow := by
    intro cs
    induction cs with
    | nil => intro a; exact Or.inl ⟨a, rfl⟩
    | cons c cs ih =>
      intro a
      unfold DataBlock.chunkSizeFrom
      cases c.totalSizeBytes with
      | some t =>
        dsimp only
        rcases comb a (.variable t) with ⟨r, hr⟩ | hr
        · rw [hr]; exact ih r
        · rw [hr]; exact Or.inr rfl
      | none =>
        dsimp only
        split
        · rcases comb a (.fixed (c.numberOfValues * c.dataType.size)) with ⟨r, hr⟩ | hr
          · rw [hr]; exact ih r
          · rw [hr]; exact Or.inr rfl
        · exact Or.inr rfl
  unfold DataBlock.numberOfChunks DataBlock.chunkSize
  rcases from_ b.channels (.fixed 0) with ⟨r, hr⟩ | hr
  · rw [hr]
    left
    match r with
    | .fixed 0 => exact ⟨_, rfl⟩
    | .fixed (n + 1) => exact ⟨_, rfl⟩
    | .variable n => exact ⟨_, rfl⟩
  · rw [hr]; exact Or.inr rfl

theorem insertDataBlock_result {ix : Index} (h : Inv ix) (b : DataBlock) :
    (ix.insertDataBlock b).1 = .ok () ∨ (ix.insertDataBlock b).1 = R.err .chunkSizeOverflow := by
  unfold Index.insertDataBlock
  rcases numberOfChunks_errors b with ⟨n, hn⟩ | hn
  · rw [hn]
    exact (addLocations_spec ix.dataBlocks.length n ix.activeObjects 0 ix.objects
      h.nodup (fun a ha => by obtain ⟨o, _, ho, _⟩ := h.active a ha; exact ⟨o, ho⟩)).1
  · rw [hn]; exact Or.inr rfl

/-- The errors the raw-data part of `add_segment` can return. -/
inductive RawError (ix : Index) (s : Segment) : Fail → Prop
  | noChannels : ix.activeObjects = [] →
      RawError ix s (.err .segmentTocDataBlockWithoutDataChannels)
  | rawOffset : s.rawDataOffset > s.nextSegmentOffset → RawError ix s (.err .invalidRawOffset)
  | zeroLength : s.rawDataOffset = s.nextSegmentOffset → RawError ix s (.err .zeroLengthDataBlock)
  | chunk : RawError ix s (.err .chunkSizeOverflow)
  | overflow : s.rawDataOffset < s.nextSegmentOffset →
      u64Lim ≤ s.rawDataOffset + leadInBytes + ix.nextSegmentStart → RawError ix s (.panic .overflow)

theorem addRawData_spec {ix : Index} (h : Inv ix) (s : Segment) :
    Inv (ix.addRawData s).2 ∧
      ((ix.addRawData s).1 = .ok () ∨ ∃ e, (ix.addRawData s).1 = .error e ∧
        s.toc.containsRawData = true ∧ RawError ix s e) := by
  unfold Index.addRawData
  by_cases hr : s.toc.containsRawData = true
  · rw [if_pos hr]
    obtain ⟨ms, hms, hlen, _, hj⟩ := activeRawDataMeta_ok h.active
    rw [hms]
    dsimp only
    by_cases hem : ms.isEmpty = true
    · rw [if_pos hem]
      have : ix.activeObjects = [] := by
        cases ms with
        | nil => exact List.length_eq_zero_iff.mp hlen.symm
        | cons _ _ => simp at hem
      exact ⟨h, Or.inr ⟨_, rfl, hr, .noChannels this⟩⟩
    · rw [if_neg hem]
      have hne : ms ≠ [] := by intro hh; subst hh; simp at hem
      rcases fromSegment_cases s ix.nextSegmentStart ms hne with ⟨hc, he⟩ | ⟨hc, he⟩ | ⟨hc, ho, he⟩ | ⟨hc, _, he⟩
      · rw [he]; exact ⟨h, Or.inr ⟨_, rfl, hr, .rawOffset hc⟩⟩
      · rw [he]; exact ⟨h, Or.inr ⟨_, rfl, hr, .zeroLength hc⟩⟩
      · rw [he]; exact ⟨h, Or.inr ⟨_, rfl, hr, .overflow hc ho⟩⟩
      · rw [he]
        refine ⟨h.insertDataBlock _ hj, ?_⟩
        rcases insertDataBlock_result h
          { start := s.rawDataOffset + leadInBytes + ix.nextSegmentStart
            length := s.nextSegmentOffset - s.rawDataOffset
            layout := if s.toc.dataIsInterleaved then .interleaved else .contigious
            channels := ms
            byteOrder := if s.toc.bigEndian then .big else .little } with h1 | h1
        · exact Or.inl h1
        · exact Or.inr ⟨_, h1, hr, .chunk⟩
  · rw [if_neg hr]; exact ⟨h, Or.inl rfl⟩

theorem addRawData_next (ix : Index) (s : Segment) :
    (ix.addRawData s).2.nextSegmentStart = ix.nextSegmentStart := by
  unfold Index.addRawData
  split
  · split
    · rfl
    · split
      · rfl
      · split
        · rfl
        · unfold Index.insertDataBlock
          split <;> rfl
  · rfl

theorem updateMetaObject_frame (ix : Index) (e : ObjectMetaData) :
    (ix.updateMetaObject e).2.nextSegmentStart = ix.nextSegmentStart ∧
    (ix.updateMetaObject e).2.dataBlocks = ix.dataBlocks ∧
    (ix.updateMetaObject e).2.activeObjects = ix.activeObjects := by
  rcases updateMetaObject_cases ix e with ⟨heq, _⟩ | ⟨o, ho, _, hmp, heq⟩ | ⟨_, hmp, heq⟩ <;>
    rw [heq] <;> exact ⟨rfl, rfl, rfl⟩

theorem updateOrActivate_frame (ix : Index) (e : ObjectMetaData) :
    (ix.updateOrActivateDataObject e).2.nextSegmentStart = ix.nextSegmentStart ∧
    (ix.updateOrActivateDataObject e).2.dataBlocks = ix.dataBlocks := by
  unfold Index.updateOrActivateDataObject
  split
  · dsimp only
    split <;> exact ⟨rfl, rfl⟩
  · have hf := updateMetaObject_frame ix e
    split
    · rename_i heq
      rw [heq] at hf; exact ⟨hf.1, hf.2.1⟩
    · rename_i heq
      rw [heq] at hf
      split
      · exact ⟨hf.1, hf.2.1⟩
      · exact ⟨hf.1, hf.2.1⟩

theorem addObjects_frame (ix : Index) (es : List ObjectMetaData) :
    (ix.addObjects es).2.nextSegmentStart = ix.nextSegmentStart ∧
    (ix.addObjects es).2.dataBlocks = ix.dataBlocks := by
  induction es generalizing ix with
  | nil => exact ⟨rfl, rfl⟩
  | cons e es ih =>
    unfold Index.addObjects
    have key : ∀ r : R Unit × Index, r.2.nextSegmentStart = ix.nextSegmentStart ∧
        r.2.dataBlocks = ix.dataBlocks →
        (match r with
          | (.error e, ix) => (.error e, ix)
          | (.ok (), ix) => Index.addObjects ix es : R Unit × Index).2.nextSegmentStart = ix.nextSegmentStart ∧
        (match r with
          | (.error e, ix) => (.error e, ix)
          | (.ok (), ix) => Index.addObjects ix es : R Unit × Index).2.dataBlocks = ix.dataBlocks := by
      intro r hr
      obtain ⟨r1, r2⟩ := r
      cases r1 with
      | error e => exact hr
      | ok u =>
        have := ih r2
        exact ⟨this.1.trans hr.1, this.2.trans hr.2⟩
    apply key
    split
    · have := updateMetaObject_frame ix e; exact ⟨this.1, this.2.1⟩
    · exact updateOrActivate_frame ix e

/-- The state in which the raw-data part of `add_segment` runs. -/
def afterObjects (ix : Index) (s : Segment) : R Unit × Index :=
  (if s.toc.containsNewObjectList then ix.deactivateAllObjects else ix).addObjects (entriesOf s)

theorem addSegment_eq (ix : Index) (s : Segment) :
    ix.addSegment s =
      match afterObjects ix s with
      | (.error e, ix) => (.error e, ix)
      | (.ok (), ix) =>
        match ix.addRawData s with
        | (.error e, ix) => (.error e, ix)
        | (.ok (), ix) => ix.advance s := by
  unfold Index.addSegment afterObjects entriesOf
  cases s.metaData <;> rfl

theorem totalSizeBytes_eq (s : Segment) :
    s.totalSizeBytes = if s.nextSegmentOffset + leadInBytes < u64Lim
      then .ok (s.nextSegmentOffset + leadInBytes) else R.err .segmentAddressOverflow := by
  unfold Segment.totalSizeBytes
  rfl

theorem advance_eq (ix : Index) (s : Segment) :
    ix.advance s =
      if ix.nextSegmentStart + (s.nextSegmentOffset + leadInBytes) < u64Lim then
        (.ok (ix.nextSegmentStart + (s.nextSegmentOffset + leadInBytes)),
          { ix with nextSegmentStart := ix.nextSegmentStart + (s.nextSegmentOffset + leadInBytes) })
      else (R.err .segmentAddressOverflow, ix) := by
  unfold Index.advance
  rw [totalSizeBytes_eq]
  by_cases h : s.nextSegmentOffset + leadInBytes < u64Lim
  · rw [if_pos h]
  · rw [if_neg h, if_neg (by omega)]

theorem Inv.afterObjects {ix : Index} (h : Inv ix) (s : Segment) :
    Inv (afterObjects ix s).2 ∧ ((Tedium.afterObjects ix s).1 = .ok () ∨
      (Tedium.afterObjects ix s).1 = R.err .noPreviousType) := by
  unfold Tedium.afterObjects
  apply addObjects_inv
  split
  · exact h.deactivate
  · exact h

theorem afterObjects_frame (ix : Index) (s : Segment) :
    (afterObjects ix s).2.nextSegmentStart = ix.nextSegmentStart ∧
    (afterObjects ix s).2.dataBlocks = ix.dataBlocks := by
  unfold afterObjects
  have := addObjects_frame (if s.toc.containsNewObjectList then ix.deactivateAllObjects else ix) (entriesOf s)
  refine ⟨this.1.trans ?_, this.2.trans ?_⟩ <;> split <;> rfl

theorem Inv.advance {ix : Index} (h : Inv ix) (s : Segment) : Inv (ix.advance s).2 := by
  rw [advance_eq]
  split
  · exact ⟨h.sorted, h.paths, h.active, h.nodup, h.valid, h.incr, h.sep⟩
  · exact h

/-- The possible failures of `add_segment`. -/
inductive SegError (ix : Index) (s : Segment) : Fail → Prop
  | noPrevious : SegError ix s (.err .noPreviousType)
  | raw {e} : s.toc.containsRawData = true → RawError (Tedium.afterObjects ix s).2 s e → SegError ix s e
  | address : u64Lim ≤ ix.nextSegmentStart + (s.nextSegmentOffset + leadInBytes) →
      SegError ix s (.err .segmentAddressOverflow)

theorem Inv.addSegment {ix : Index} (h : Inv ix) (s : Segment) :
    Inv (ix.addSegment s).2 ∧
    ((∃ n, (ix.addSegment s).1 = .ok n ∧ n = ix.nextSegmentStart + (s.nextSegmentOffset + leadInBytes) ∧
        (ix.addSegment s).2.nextSegmentStart = n) ∨
      ∃ e, (ix.addSegment s).1 = .error e ∧ SegError ix s e ∧
        (ix.addSegment s).2.nextSegmentStart = ix.nextSegmentStart) := by
  rw [addSegment_eq]
  obtain ⟨h1, h2⟩ := h.afterObjects s
  have hf := afterObjects_frame ix s
  generalize hao : Tedium.afterObjects ix s = ao at h1 h2 hf
  obtain ⟨r1, ix1⟩ := ao
  rcases h2 with h2 | h2
  · dsimp only at h2 h1; subst h2
    dsimp only
    obtain ⟨h3, h4⟩ := addRawData_spec h1 s
    have hn := addRawData_next ix1 s
    generalize hard : ix1.addRawData s = ard at h3 h4 hn
    obtain ⟨r2, ix2⟩ := ard
    rcases h4 with h4 | ⟨e, h4, hr, hre⟩
    · dsimp only at h4 h3; subst h4
      dsimp only
      refine ⟨h3.advance s, ?_⟩
      rw [advance_eq]
      have hnn : ix2.nextSegmentStart = ix.nextSegmentStart := hn.trans hf.1
      rw [hnn]
      split
      · exact Or.inl ⟨_, rfl, rfl, rfl⟩
      · rename_i hc
        exact Or.inr ⟨_, rfl, .address (by omega), hnn⟩
    · dsimp only at h4 h3; subst h4
      refine ⟨h3, Or.inr ⟨e, rfl, .raw hr ?_, hn.trans hf.1⟩⟩
      rw [hao]
      exact hre
  · dsimp only at h2 h1; subst h2
    exact ⟨h1, Or.inr ⟨_, rfl, .noPrevious, hf.1⟩⟩

/-- An index that can come about: segments added in any order, failed ones included. -/
inductive Reach : Index → Prop
  | new : Reach Index.new
  | add {ix : Index} (s : Segment) : Reach ix → Reach (ix.addSegment s).2

theorem Reach.inv {ix : Index} (h : Reach ix) : Inv ix := by
  induction h with
  | new => exact Inv.new
  | add s _ ih => exact (ih.addSegment s).1

end Tedium
