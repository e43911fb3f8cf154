import Verif.Proofs.NoPanic
import Verif.Proofs.WrongType
import Verif.Proofs.Session
import Verif.Proofs.Evolve

/-! # No layout carries a total size

The reader skips the total size of string channels and the writer never sets it, so in every state a
user can get to, `totalSizeBytes` is `none` in all layouts. -/

namespace Tedium
open SegSpec PlanSpec

/-- no layout in the index carries a total size -/
structure Plain (ix : Index) : Prop where
  objects : ∀ k o, ix.objects.get? k = some o → ∀ m, o.latestDataFormat = some m → m.totalSizeBytes = none
  blocks : ∀ b ∈ ix.dataBlocks, ∀ m ∈ b.channels, m.totalSizeBytes = none

/-- no layout in the metadata carries a total size -/
def PlainObjects (os : List ObjectMetaData) : Prop :=
  ∀ o ∈ os, ∀ m, o.rawDataIndex = .rawData m → m.totalSizeBytes = none

theorem Plain.new : Plain Index.new := ⟨(by intro k o h; cases h), (by intro b hb; cases hb)⟩

theorem plain_update {d : ObjectData} {o : ObjectMetaData}
    (hd : ∀ m, d.latestDataFormat = some m → m.totalSizeBytes = none)
    (ho : ∀ m, o.rawDataIndex = .rawData m → m.totalSizeBytes = none) :
    ∀ m, (d.update o).2.latestDataFormat = some m → m.totalSizeBytes = none := by
  intro m hm
  unfold ObjectData.update at hm
  dsimp only at hm
  cases hr : o.rawDataIndex with
  | none => rw [hr] at hm; cases hl : d.latestDataFormat <;> rw [hl] at hm hd <;> exact hd m hm
  | matchPrevious => rw [hr] at hm; cases hl : d.latestDataFormat <;> rw [hl] at hm hd <;> exact hd m hm
  | rawData r =>
    rw [hr] at hm
    have hr' : r = m := by
      cases hl : d.latestDataFormat <;> rw [hl] at hm <;> exact Option.some.inj hm
    rw [← hr']
    exact ho r hr

theorem Plain.insert {ix : Index} (h : Plain ix) (k : Text) (d : ObjectData)
    (hd : ∀ m, d.latestDataFormat = some m → m.totalSizeBytes = none) (act : List ActiveObject) :
    Plain { ix with objects := ix.objects.insert k d, activeObjects := act } := by
  refine ⟨fun k' o ho => ?_, h.blocks⟩
  dsimp only at ho
  rw [SMap.get?_insert] at ho
  split at ho
  · cases ho; exact hd
  · exact h.objects k' o ho

theorem Plain.updateMetaObject {ix : Index} (h : Plain ix) {o : ObjectMetaData}
    (ho : ∀ m, o.rawDataIndex = .rawData m → m.totalSizeBytes = none) : Plain (ix.updateMetaObject o).2 := by
  unfold Index.updateMetaObject
  cases hg : ix.objects.get? o.path with
  | some d => exact h.insert _ _ (plain_update (h.objects _ _ hg) ho) ix.activeObjects
  | none =>
    dsimp only
    cases hf : ObjectData.fromMetadata o with
    | error e => exact h
    | ok d =>
      refine h.insert _ _ ?_ ix.activeObjects
      unfold ObjectData.fromMetadata at hf
      have hp := plain_update (d := { path := o.path, properties := [], dataLocations := [], latestDataFormat := none })
        (by intro m hm; cases hm) ho
      revert hf hp
      generalize ObjectData.update { path := o.path, properties := [], dataLocations := [], latestDataFormat := none } o = r
      intro hf hp
      obtain ⟨r1, r2⟩ := r
      cases r1 with
      | ok u => cases hf; exact hp
      | error e => cases hf

theorem Plain.updateOrActivate {ix : Index} (h : Plain ix) {o : ObjectMetaData}
    (ho : ∀ m, o.rawDataIndex = .rawData m → m.totalSizeBytes = none) :
    Plain (ix.updateOrActivateDataObject o).2 := by
  unfold Index.updateOrActivateDataObject
  cases hfa : ix.activeObjects.find? (fun a => a.path = o.path) with
  | some a =>
    dsimp only
    cases hg : ix.objects.get? a.path with
    | none => exact ⟨h.objects, h.blocks⟩
    | some d => exact h.insert _ _ (plain_update (h.objects _ _ hg) ho) _
  | none =>
    dsimp only
    have hu := h.updateMetaObject ho
    revert hu
    generalize ix.updateMetaObject o = r
    intro hu
    obtain ⟨r1, ix'⟩ := r
    cases r1 with
    | error e => exact hu
    | ok u =>
      dsimp only
      cases Index.channelFormat ix' o.path with
      | none => exact hu
      | some f => exact ⟨hu.objects, hu.blocks⟩

theorem Plain.addObjects {os : List ObjectMetaData} (hos : PlainObjects os) : ∀ {ix : Index}, Plain ix →
    Plain (ix.addObjects os).2 := by
  induction os with
  | nil => intro ix h; exact h
  | cons o os ih =>
    intro ix h
    have ho := hos o List.mem_cons_self
    have hrest := fun {ix} => ih (ix := ix) (fun x hx => hos x (List.mem_cons_of_mem _ hx))
    have hboth : ∀ r : R Unit × Index, Plain r.2 → Plain (match r with
        | (.error e, ix) => ((.error e, ix) : R Unit × Index)
        | (.ok (), ix) => ix.addObjects os).2 := by
      rintro ⟨r1, ix'⟩ hr
      cases r1 with
      | error e => exact hr
      | ok u => exact hrest hr
    unfold Index.addObjects
    dsimp only
    cases hr : o.rawDataIndex with
    | none => exact hboth _ (h.updateMetaObject ho)
    | matchPrevious => exact hboth _ (h.updateOrActivate ho)
    | rawData m => exact hboth _ (h.updateOrActivate ho)

theorem activeRawDataMeta_plain {objs : SMap ObjectData}
    (h : ∀ k o, objs.get? k = some o → ∀ m, o.latestDataFormat = some m → m.totalSizeBytes = none) :
    ∀ {as : List ActiveObject} {chs : List RawDataMeta}, Index.activeRawDataMeta objs as = .ok chs →
      ∀ m ∈ chs, m.totalSizeBytes = none := by
  intro as
  induction as with
  | nil => intro chs hc; cases hc; simp
  | cons a as ih =>
    intro chs hc
    unfold Index.activeRawDataMeta at hc
    cases hg : objs.get? a.path with
    | none => rw [hg] at hc; cases hc
    | some o =>
      rw [hg] at hc
      dsimp only at hc
      cases hl : o.latestDataFormat with
      | none => rw [hl] at hc; cases hc
      | some m0 =>
        rw [hl] at hc
        dsimp only at hc
        obtain ⟨rest, hrest, hc⟩ := bind_ok_iff.mp hc
        cases hc
        intro m hm
        rcases List.mem_cons.mp hm with rfl | hm
        · exact h _ _ hg _ hl
        · exact ih hrest m hm

theorem Plain.addRawData {ix : Index} (h : Plain ix) (s : Segment) : Plain (ix.addRawData s).2 := by
  unfold Index.addRawData
  split
  · cases hc : Index.activeRawDataMeta ix.objects ix.activeObjects with
    | error e => exact h
    | ok chs =>
      dsimp only
      have hchs := activeRawDataMeta_plain h.objects hc
      split
      · exact h
      · cases hb : DataBlock.fromSegment s ix.nextSegmentStart chs with
        | error e => exact h
        | ok b =>
          dsimp only
          have hbc : b.channels = chs := by
            unfold DataBlock.fromSegment at hb
            dsimp only at hb
            split at hb
            · cases hb
            · split at hb
              · cases hb
              · split at hb
                · first | (cases hb; done) | (cases hb; rfl)
                · first | (cases hb; done) | (split at hb; (cases hb; rfl); cases hb)
          unfold Index.insertDataBlock
          cases hn : b.numberOfChunks with
          | error e => exact h
          | ok n =>
            dsimp only
            refine ⟨fun k o ho => ?_, fun b' hb' => ?_⟩
            · obtain ⟨ls, hls⟩ := addLocations_objects ix.dataBlocks.length n ix.activeObjects 0 ix.objects k
              dsimp only at ho
              rw [hls] at ho
              obtain ⟨o', ho', rfl⟩ := Option.map_eq_some_iff.mp ho
              exact h.objects k o' ho'
            · rcases List.mem_append.mp hb' with hb' | hb'
              · exact h.blocks b' hb'
              · rw [List.mem_singleton.mp hb', hbc]
                exact hchs
  · exact h

theorem Plain.advance {ix : Index} (h : Plain ix) (s : Segment) : Plain (ix.advance s).2 := by
  unfold Index.advance
  split
  · exact h
  · split
    · exact ⟨h.objects, h.blocks⟩
    · exact h

/-- no layout in the segment carries a total size -/
def PlainSegment (s : Segment) : Prop := ∀ md, s.metaData = some md → PlainObjects md.objects

theorem Plain.addSegment {ix : Index} (h : Plain ix) {s : Segment} (hs : PlainSegment s) :
    Plain (ix.addSegment s).2 := by
  unfold Index.addSegment
  dsimp only
  have h0 : Plain (if s.toc.containsNewObjectList = true then ix.deactivateAllObjects else ix) := by
    split
    · exact ⟨h.objects, h.blocks⟩
    · exact h
  revert h0
  generalize (if s.toc.containsNewObjectList = true then ix.deactivateAllObjects else ix) = ix0
  intro h0
  have hboth : ∀ r : R Unit × Index, Plain r.2 → Plain (match r with
      | (.error e, ix) => ((.error e, ix) : R Nat × Index)
      | (.ok (), ix) =>
        match ix.addRawData s with
        | (.error e, ix) => (.error e, ix)
        | (.ok (), ix) => ix.advance s).2 := by
    rintro ⟨r1, ix1⟩ h1
    cases r1 with
    | error e => exact h1
    | ok u =>
      dsimp only
      have h2 := Plain.addRawData h1 s
      dsimp only at h2
      revert h2
      generalize ix1.addRawData s = r
      intro h2
      obtain ⟨r1, ix2⟩ := r
      cases r1 with
      | error e => exact h2
      | ok u => exact h2.advance s
  cases hm : s.metaData with
  | none => exact hboth (.ok (), ix0) h0
  | some md => exact hboth _ (h0.addObjects (hs md hm))

/-! ## Segments that are read and written -/

theorem RawDataIndex.read_plain (e : Endian) :
    Rd.Post (RawDataIndex.read e) (fun i => ∀ m, i = .rawData m → m.totalSizeBytes = Option.none) := by
  unfold RawDataIndex.read
  refine Rd.Post.bind' (fun n => ?_)
  refine Rd.Post.ite (fun _ => Rd.Post.pure (by intro m h; cases h)) (fun _ => ?_)
  refine Rd.Post.ite (fun _ => Rd.Post.pure (by intro m h; cases h)) (fun _ => ?_)
  refine Rd.Post.ite (fun _ => by intro f p a q h; cases h) (fun _ => ?_)
  refine Rd.Post.ite (fun _ => by intro f p a q h; cases h) (fun _ => ?_)
  refine Rd.Post.bind' (fun dt => Rd.Post.bind' (fun dims => Rd.Post.bind' (fun nv => Rd.Post.pure ?_)))
  intro m h
  cases h
  rfl

theorem ObjectMetaData.read_plain (al : Alloc) (e : Endian) :
    Rd.Post (ObjectMetaData.read al e) (fun o => ∀ m, o.rawDataIndex = .rawData m → m.totalSizeBytes = none) := by
  unfold ObjectMetaData.read
  refine Rd.Post.bind' (fun path => ?_)
  refine Rd.Post.bind (RawDataIndex.read_plain e) (fun i hi => ?_)
  refine Rd.Post.bind' (fun n => ?_)
  refine Rd.Post.ite (fun _ => ?_) (fun _ => by intro f p a q h; cases h)
  exact Rd.Post.bind' (fun ps => Rd.Post.pure hi)

theorem Rd.many_post {α : Type} {x : Rd α} {P : α → Prop} (hx : Rd.Post x P) :
    ∀ n, Rd.Post (Rd.many x n) (fun l => ∀ a ∈ l, P a)
  | 0 => Rd.Post.pure' (by simp)
  | n + 1 => by
    unfold Rd.many
    refine Rd.Post.bind hx (fun a ha => Rd.Post.bind (Rd.many_post hx n) (fun as has => Rd.Post.pure ?_))
    intro b hb
    rcases List.mem_cons.mp hb with rfl | hb
    · exact ha
    · exact has b hb

theorem MetaData.read_plain (al : Alloc) (e : Endian) :
    Rd.Post (MetaData.read al e) (fun md => PlainObjects md.objects) := by
  unfold MetaData.read
  refine Rd.Post.bind' (fun n => ?_)
  refine Rd.Post.ite (fun _ => ?_) (fun _ => by intro f p a q h; cases h)
  exact Rd.Post.bind (Rd.many_post (ObjectMetaData.read_plain al e) n) (fun os hos => Rd.Post.pure hos)

theorem Segment.readSegment_plain (al : Alloc) (e : Endian) (toc : ToC) :
    Rd.Post (Segment.readSegment al e toc) PlainSegment := by
  unfold Segment.readSegment
  refine Rd.Post.bind' (fun _ => Rd.Post.bind' (fun _ => Rd.Post.bind' (fun _ => ?_)))
  refine Rd.Post.bind (MetaData.read_plain al e) (fun md hmd => Rd.Post.pure ?_)
  intro md' h
  cases h
  exact hmd

theorem Segment.read_plain (al : Alloc) : Rd.Post (Segment.read al) PlainSegment := by
  intro f p s q h
  unfold Segment.read at h
  split at h
  · cases h
  · cases h
  · split at h
    · cases h
    · exact Rd.Post.bind' (fun buf => Segment.readSegment_plain al _ _) _ _ _ _ h

theorem Parses.plain {al : Alloc} {f : Bytes} {pos : Nat} {segs : List Segment} {last : Fail}
    (h : Parses al f pos segs last) : ∀ s ∈ segs, PlainSegment s := by
  induction h with
  | done _ => simp
  | segment hr _ ih =>
    intro s hs
    rcases List.mem_cons.mp hs with rfl | hs
    · exact Segment.read_plain al _ _ _ _ hr
    · exact ih s hs

theorem Plain.replay {segs : List Segment} (hs : ∀ s ∈ segs, PlainSegment s) : ∀ {ix ix' : Index}, Plain ix →
    replay ix segs = .ok ix' → Plain ix' := by
  induction segs with
  | nil => intro ix ix' h hr; cases hr; exact h
  | cons s ss ih =>
    intro ix ix' h hr
    unfold SegSpec.replay at hr
    have hadd := h.addSegment (hs s List.mem_cons_self)
    revert hadd hr
    generalize ix.addSegment s = r
    intro hr hadd
    obtain ⟨r1, ix1⟩ := r
    cases r1 with
    | error e => cases hr
    | ok n => exact ih (fun x hx => hs x (List.mem_cons_of_mem _ hx)) hadd hr

theorem writeChannels_plain {α : Type} (S : Storage α) (e : Endian) {t : TdmsFile} (h : Plain t.index)
    (channels : List ChannelPath) (vals : List α) (layout : DataLayout) :
    Plain (t.writeChannels S e channels vals layout).2.index := by
  unfold TdmsFile.writeChannels
  split
  · exact h
  · split
    · exact h
    · dsimp only
      apply h.addSegment
      intro md hmd
      have hmd' : (if (t.index.checkWriteValues ((channels.map ChannelPath.path).zip
          (TdmsFile.dataStructure S vals channels.length))).1 = true then none
        else some (MetaData.mk ((t.index.checkWriteValues ((channels.map ChannelPath.path).zip
          (TdmsFile.dataStructure S vals channels.length))).2.map (fun x =>
        { path := x.1, properties := [], rawDataIndex := x.2 })))) = some md := hmd
      split at hmd'
      · cases hmd'
      · cases hmd'
        intro o ho m hm
        dsimp only at ho
        obtain ⟨⟨p, i⟩, hpi, rfl⟩ := List.mem_map.mp ho
        dsimp only at hm
        subst hm
        unfold Index.checkWriteValues at hpi
        obtain ⟨⟨p', f⟩, hpf, hx⟩ := List.mem_map.mp hpi
        have hf : f.totalSizeBytes = none := by
          have := List.of_mem_zip hpf
          unfold TdmsFile.dataStructure at this
          rw [(List.mem_replicate.mp this.2).2]
        simp only [Prod.mk.injEq] at hx
        have hx2 := hx.2
        unfold Index.rawIndexFor at hx2
        split at hx2
        · split at hx2
          · cases hx2
          · cases hx2; exact hf
        · cases hx2; exact hf

theorem writeProperties_plain (e : Endian) {t : TdmsFile} (h : Plain t.index) (path : PropertyPath)
    (properties : List (Text × PropertyValue)) : Plain (t.writeProperties e path properties).2.index := by
  unfold TdmsFile.writeProperties
  dsimp only
  apply h.addSegment
  intro md hmd
  cases hmd
  intro o ho m hm
  rw [List.mem_singleton.mp ho] at hm
  cases hm

theorem Session.plain {al : Alloc} {t : TdmsFile} (h : Session al t) : Plain t.index := by
  induction h with
  | opened ho =>
    obtain ⟨_, segs, hp, hr⟩ := Tedium.opened ho
    exact Plain.new.replay (Parses.plain hp) hr
  | call op _ ih =>
    cases op with
    | write e ty channels vals layout => exact writeChannels_plain _ e ih channels vals layout
    | props e path properties => exact writeProperties_plain e ih path properties

/-- A block that holds samples has a channel whose type has a size. -/
theorem sized_of_plain {t : TdmsFile} (h : Plain t.index) (hi : Inv t.index) {c : ChannelPath} {ls : List DataLocation}
    (hls : t.index.getChannelDataPositions c = some ls) : SizedAt t ls := by
  intro l hl hn b hb
  obtain ⟨o, ho, rfl⟩ := Option.map_eq_some_iff.mp hls
  obtain ⟨b', m, n, hb', _, hn', hs⟩ := hi.valid _ _ ho l hl
  have : b' = b := by
    unfold Index.getDataBlock at hb
    rw [hb'] at hb
    exact Option.some.inj hb
  subst this
  have hspec := numberOfChunks_spec hn'
  rw [if_neg] at hspec
  · split at hspec
    · rw [hspec] at hs
      simp at hs
      omega
    · omega
  · rw [List.any_eq_true]
    rintro ⟨x, hx, hsome⟩
    rw [h.blocks b' (List.mem_of_getElem? hb') x hx] at hsome
    cases hsome

theorem Session.sized {al : Alloc} {t : TdmsFile} (h : Session al t) {c : ChannelPath} {ls : List DataLocation}
    (hls : t.index.getChannelDataPositions c = some ls) : SizedAt t ls :=
  sized_of_plain h.plain h.reach.inv hls

end Tedium
