import Verif.Proofs.Replay
import Verif.Spec.History

/-! # What adding a segment can do to the objects, in any state and whether or not it succeeds -/

namespace Tedium
open SegSpec

theorem entryStep_objects (ix : Index) (e : ObjectMetaData) :
    (entryStep ix e).2.objects = ix.objects ∨
    (entryStep ix e).2.objects = ix.objects.insert e.path (updatedObject (ix.objects.get? e.path) e) := by
  have hmeta : (ix.updateMetaObject e).2.objects = ix.objects ∨
      (ix.updateMetaObject e).2.objects = ix.objects.insert e.path (updatedObject (ix.objects.get? e.path) e) := by
    rcases updateMetaObject_cases ix e with ⟨h, _⟩ | ⟨o, ho, _, _, h⟩ | ⟨_, _, h⟩
    · rw [h]; exact Or.inr rfl
    · rw [h, ho]; exact Or.inr rfl
    · rw [h]; exact Or.inl rfl
  have hdata : (ix.updateOrActivateDataObject e).2.objects = ix.objects ∨
      (ix.updateOrActivateDataObject e).2.objects = ix.objects.insert e.path (updatedObject (ix.objects.get? e.path) e) := by
    unfold Index.updateOrActivateDataObject
    cases hf : ix.activeObjects.find? (fun a => a.path = e.path) with
    | some a =>
      obtain ⟨_, hp⟩ := find?_path_some hf
      dsimp only
      rw [hp]
      cases hg : ix.objects.get? e.path with
      | none => exact Or.inl rfl
      | some o =>
        right
        dsimp only
        rw [ObjectData.update_eq]
        rfl
    | none =>
      dsimp only
      revert hmeta
      cases hm : ix.updateMetaObject e with
      | mk r ix' =>
        intro hmeta
        cases r with
        | error _ => exact hmeta
        | ok _ =>
          dsimp only at hmeta ⊢
          cases Index.channelFormat ix' e.path <;> exact hmeta
  unfold entryStep
  cases e.rawDataIndex
  · exact hmeta
  · exact hdata
  · exact hdata

/-- The object part of an entry list acts on each object separately. -/
theorem addObjects_objects (es : List ObjectMetaData) : ∀ (ix : Index),
    ∃ pre, pre <+: es ∧ (∃ kept : List ObjectMetaData, kept.Sublist pre ∧
      (ix.addObjects es).2.objects =
        kept.foldl (fun objs e => objs.insert e.path (updatedObject (objs.get? e.path) e)) ix.objects) := by
  induction es with
  | nil => intro ix; exact ⟨[], List.prefix_refl _, [], List.Sublist.refl _, rfl⟩
  | cons e es ih =>
    intro ix
    rw [addObjects_cons]
    have hs := entryStep_objects ix e
    revert hs
    cases hst : entryStep ix e with
    | mk r ix' =>
      intro hs
      cases r with
      | error err =>
        refine ⟨[e], ⟨es, rfl⟩, ?_⟩
        rcases hs with hs | hs
        · exact ⟨[], List.nil_sublist _, hs⟩
        · exact ⟨[e], List.Sublist.refl _, hs⟩
      | ok u =>
        obtain ⟨pre, hpre, kept, hk, heq⟩ := ih ix'
        refine ⟨e :: pre, ?_, ?_⟩
        · obtain ⟨x, rfl⟩ := hpre; exact ⟨x, rfl⟩
        · dsimp only at hs ⊢
          rcases hs with hs | hs
          · exact ⟨kept, hk.cons _, by rw [heq, hs]⟩
          · exact ⟨e :: kept, hk.cons_cons _, by rw [heq, hs]; rfl⟩

/-- The loop of `insert_data_block` only appends locations. -/
theorem addLocations_objects (di n : Nat) (as : List ActiveObject) :
    ∀ (ci : Nat) (objs : SMap ObjectData) (p : Text), ∃ ls,
      (Index.addLocations di n ci objs as).2.get? p =
        (objs.get? p).map (fun o => { o with dataLocations := o.dataLocations ++ ls }) := by
  induction as with
  | nil => intro ci objs p; exact ⟨[], by simp [Index.addLocations]⟩
  | cons a as ih =>
    intro ci objs p
    unfold Index.addLocations
    split
    · cases hg : objs.get? a.path with
      | none => exact ⟨[], by simp⟩
      | some o =>
        dsimp only
        obtain ⟨ls, hls⟩ := ih (ci + 1)
          (objs.insert a.path (o.addDataLocation ⟨di, ci, a.numberOfSamples * n⟩)) p
        rw [hls, SMap.get?_insert]
        by_cases hp : a.path = p
        · rw [if_pos hp, ← hp, hg]
          exact ⟨⟨di, ci, a.numberOfSamples * n⟩ :: ls, by simp [ObjectData.addDataLocation]⟩
        · rw [if_neg hp]; exact ⟨ls, rfl⟩
    · exact ⟨[], by simp⟩

theorem addRawData_objects (ix : Index) (s : Segment) (p : Text) : ∃ ls,
    (ix.addRawData s).2.objects.get? p =
      (ix.objects.get? p).map (fun o => { o with dataLocations := o.dataLocations ++ ls }) := by
  have triv : ∃ ls, ix.objects.get? p =
      (ix.objects.get? p).map (fun o => { o with dataLocations := o.dataLocations ++ ls }) :=
    ⟨[], by simp⟩
  unfold Index.addRawData
  split
  · cases Index.activeRawDataMeta ix.objects ix.activeObjects with
    | error e => exact triv
    | ok ms =>
      dsimp only
      split
      · exact triv
      · cases DataBlock.fromSegment s ix.nextSegmentStart ms with
        | error e => exact triv
        | ok b =>
          dsimp only
          unfold Index.insertDataBlock
          cases b.numberOfChunks with
          | error e => exact triv
          | ok n => exact addLocations_objects _ n _ 0 ix.objects p
  · exact triv

theorem advance_objects (ix : Index) (s : Segment) : (ix.advance s).2.objects = ix.objects := by
  rw [advance_eq]; split <;> rfl

/-- Adding a segment: first entries act on the objects, then locations are appended. -/
theorem addSegment_objects (ix : Index) (s : Segment) (p : Text) : ∃ ls,
    (ix.addSegment s).2.objects.get? p =
      ((afterObjects ix s).2.objects.get? p).map
        (fun o => { o with dataLocations := o.dataLocations ++ ls }) := by
  rw [addSegment_eq]
  cases afterObjects ix s with
  | mk r ix1 =>
    cases r with
    | error e => exact ⟨[], by simp⟩
    | ok u =>
      dsimp only
      have := addRawData_objects ix1 s p
      revert this
      cases ix1.addRawData s with
      | mk r2 ix2 =>
        intro this
        cases r2 with
        | error e => exact this
        | ok u2 => dsimp only; rw [advance_objects]; exact this

theorem afterObjects_objects (ix : Index) (s : Segment) :
    ∃ kept : List ObjectMetaData, (∃ pre, pre <+: entriesOf s ∧ kept.Sublist pre) ∧
      (afterObjects ix s).2.objects =
        kept.foldl (fun objs e => objs.insert e.path (updatedObject (objs.get? e.path) e)) ix.objects := by
  unfold afterObjects
  obtain ⟨pre, hpre, kept, hk, h⟩ := addObjects_objects (entriesOf s)
    (if s.toc.containsNewObjectList then ix.deactivateAllObjects else ix)
  refine ⟨kept, ⟨pre, hpre, hk⟩, ?_⟩
  rw [h]
  split <;> rfl

/-- Objects never disappear and locations are only appended. -/
theorem fold_locations (kept : List ObjectMetaData) : ∀ (objs : SMap ObjectData) (p : Text) (o : ObjectData),
    objs.get? p = some o → ∃ o', (kept.foldl (fun objs e =>
      objs.insert e.path (updatedObject (objs.get? e.path) e)) objs).get? p = some o' ∧
      o'.dataLocations = o.dataLocations := by
  induction kept with
  | nil => intro objs p o h; exact ⟨o, h, rfl⟩
  | cons e es ih =>
    intro objs p o h
    rw [List.foldl_cons]
    by_cases hp : e.path = p
    · subst hp
      obtain ⟨o', h1, h2⟩ := ih (objs.insert e.path (updatedObject (objs.get? e.path) e)) e.path
        (updatedObject (objs.get? e.path) e) (by rw [SMap.get?_insert, if_pos rfl])
      exact ⟨o', h1, by rw [h2, h]; rfl⟩
    · exact ih _ p o (by rw [SMap.get?_insert, if_neg hp, h])

theorem addSegment_grows (ix : Index) (s : Segment) (p : Text) (o : ObjectData)
    (h : ix.objects.get? p = some o) :
    ∃ o', (ix.addSegment s).2.objects.get? p = some o' ∧ o.dataLocations <+: o'.dataLocations := by
  obtain ⟨ls, hls⟩ := addSegment_objects ix s p
  obtain ⟨kept, _, hk⟩ := afterObjects_objects ix s
  obtain ⟨o', h1, h2⟩ := fold_locations kept ix.objects p o h
  rw [hls, hk, h1]
  exact ⟨_, rfl, ⟨ls, by rw [← h2]⟩⟩

/-- The value of a property, `none` also when the object does not exist. -/
def propOf (objs : SMap ObjectData) (p n : Text) : Option PropertyValue :=
  (objs.get? p).bind (fun o => o.properties.get? n)

theorem propOf_insert (objs : SMap ObjectData) (e : ObjectMetaData) (p n : Text) :
    propOf (objs.insert e.path (updatedObject (objs.get? e.path) e)) p n =
      (if e.path = p then lastValue e.properties n else none).or (propOf objs p n) := by
  unfold propOf
  rw [SMap.get?_insert]
  by_cases hp : e.path = p
  · rw [if_pos hp, if_pos hp, hp]
    cases hg : objs.get? p with
    | none =>
      simp only [Option.bind, updatedObject]
      rw [get?_insertProps]
      rfl
    | some o =>
      simp only [Option.bind, updatedObject]
      rw [get?_insertProps]
  · rw [if_neg hp, if_neg hp]; simp

theorem fold_props_nil (kept : List ObjectMetaData) (h : ∀ e ∈ kept, e.properties = []) :
    ∀ (objs : SMap ObjectData) (p n : Text), propOf (kept.foldl (fun objs e =>
      objs.insert e.path (updatedObject (objs.get? e.path) e)) objs) p n = propOf objs p n := by
  induction kept with
  | nil => intros; rfl
  | cons e es ih =>
    intro objs p n
    rw [List.foldl_cons, ih (fun x hx => h x (by simp [hx])), propOf_insert, h e (by simp)]
    simp [lastValue]

theorem addSegment_propOf (ix : Index) (s : Segment) (p n : Text) :
    propOf (ix.addSegment s).2.objects p n = propOf (afterObjects ix s).2.objects p n := by
  obtain ⟨ls, hls⟩ := addSegment_objects ix s p
  unfold propOf
  rw [hls]
  cases SMap.get? p (afterObjects ix s).2.objects <;> rfl

theorem writeProperties_propOf (e : Endian) (t : TdmsFile) (path : PropertyPath)
    (ps : List (Text × PropertyValue)) (p n : Text) :
    propOf (t.writeProperties e path ps).2.index.objects p n =
      (if path.path = p then lastValue ps n else none).or (propOf t.index.objects p n) := by
  unfold TdmsFile.writeProperties writeSegment
  dsimp only
  rw [addSegment_propOf]
  unfold afterObjects finalToC entriesOf
  dsimp only
  rw [if_neg (by simp), addObjects_cons]
  have hstep : entryStep t.index { path := path.path, properties := ps, rawDataIndex := .none } =
      (.ok (), { t.index with
        objects := t.index.objects.insert path.path
          (updatedObject (t.index.objects.get? path.path) { path := path.path, properties := ps, rawDataIndex := .none }) }) := by
    unfold entryStep
    dsimp only
    rcases updateMetaObject_cases t.index { path := path.path, properties := ps, rawDataIndex := .none } with
      ⟨h, _⟩ | ⟨_, _, _, h, _⟩ | ⟨_, h, _⟩
    · exact h
    · cases h
    · cases h
  rw [hstep]
  show propOf (SMap.insert _ _ _) p n = _
  exact propOf_insert t.index.objects { path := path.path, properties := ps, rawDataIndex := .none } p n

theorem writeChannels_propOf {α : Type} (S : Storage α) (e : Endian) (t : TdmsFile)
    (channels : List ChannelPath) (vals : List α) (layout : DataLayout) (p n : Text) :
    propOf (t.writeChannels S e channels vals layout).2.index.objects p n
      = propOf t.index.objects p n := by
  unfold TdmsFile.writeChannels
  split
  · rfl
  split
  · rfl
  dsimp only
  unfold writeSegment
  dsimp only
  rw [addSegment_propOf]
  obtain ⟨kept, ⟨pre, hpre, hk⟩, heq⟩ := afterObjects_objects t.index
    (writeSegment e
      { containsNewObjectList := !(t.index.checkWriteValues ((channels.map ChannelPath.path).zip (TdmsFile.dataStructure S vals channels.length))).1,
        dataIsInterleaved := decide (layout = .interleaved) }
      (if (t.index.checkWriteValues ((channels.map ChannelPath.path).zip (TdmsFile.dataStructure S vals channels.length))).1 = true then none
      else some { objects := (t.index.checkWriteValues ((channels.map ChannelPath.path).zip (TdmsFile.dataStructure S vals channels.length))).2.map (fun (p, i) =>
        { path := p, properties := [], rawDataIndex := i }) })
      (some (TdmsFile.sliceData S e vals))).1
  unfold writeSegment at heq hpre
  dsimp only at heq hpre
  rw [heq]
  apply fold_props_nil
  intro x hx
  have hx' := hpre.subset (hk.subset hx)
  unfold entriesOf at hx'
  dsimp only at hx'
  split at hx'
  · rename_i m hm
    split at hm
    · cases hm
    · cases hm
      dsimp only at hx'
      rw [List.mem_map] at hx'
      obtain ⟨y, _, rfl⟩ := hx'
      rfl
  · cases hx'

end Tedium
