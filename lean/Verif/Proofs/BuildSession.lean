import Verif.Proofs.BuildReads
import Verif.Proofs.Totals
import Verif.Spec.Builds

/-! # Sessions with the optimised build -/

namespace Tedium
open SegSpec

/-- Adding a segment in the optimised build: as in the other one, or, where that one panics, the block
    is stored with a wrapped address and the call fails. -/
theorem release_addSegment_cases {ix : Index} (h : Inv ix) (s : Segment) :
    Build.release.addSegment ix s = ix.addSegment s ∨
    ((ix.addSegment s).1 = R.panic .overflow ∧ ∃ b : DataBlock,
      (Build.release.addSegment ix s).2 = ((afterObjects ix s).2.insertDataBlock b).2 ∧
      Index.activeRawDataMeta (afterObjects ix s).2.objects (afterObjects ix s).2.activeObjects = .ok b.channels ∧
      Inv (Build.release.addSegment ix s).2 ∧
      ((Build.release.addSegment ix s).1 = R.err .segmentAddressOverflow ∨
        (Build.release.addSegment ix s).1 = R.err .chunkSizeOverflow)) := by
  rw [addSegment_eq, Build.addSegment_eq]
  obtain ⟨h1, h2⟩ := h.afterObjects s
  generalize afterObjects ix s = ao at h1 h2
  obtain ⟨r, ix1⟩ := ao
  cases r with
  | error e => exact Or.inl rfl
  | ok u =>
    dsimp only at h1 ⊢
    by_cases hr : s.toc.containsRawData = true
    · obtain ⟨ms, hms, hlen, _, hj⟩ := activeRawDataMeta_ok h1.active
      have e1 : ix1.addRawData s = if ms.isEmpty = true then (R.err .segmentTocDataBlockWithoutDataChannels, ix1)
          else match DataBlock.fromSegment s ix1.nextSegmentStart ms with
            | .error e => (.error e, ix1)
            | .ok b => ix1.insertDataBlock b := by
        unfold Index.addRawData
        rw [if_pos hr, hms]
        rfl
      have e2 : Build.release.addRawData ix1 s = if ms.isEmpty = true then (R.err .segmentTocDataBlockWithoutDataChannels, ix1)
          else match Build.release.fromSegment s ix1.nextSegmentStart ms with
            | .error e => (.error e, ix1)
            | .ok b => ix1.insertDataBlock b := by
        unfold Build.addRawData
        rw [if_pos hr, hms]
        rfl
      rcases addRawData_unless ix1 s with hu | hu
      · by_cases hem : ms.isEmpty = true
        · rw [e1, if_pos hem] at hu
          cases hu
        · rw [if_neg hem] at e1 e2
          have hne : ms ≠ [] := by intro hh; subst hh; simp at hem
          rcases fromSegment_cases s ix1.nextSegmentStart ms hne with ⟨hc, he⟩ | ⟨hc, he⟩ | ⟨hc, ho, he⟩ | ⟨hc, _, he⟩
          · rw [e1, he] at hu; cases hu
          · rw [e1, he] at hu; cases hu
          · right
            rw [he] at e1
            dsimp only at e1
            rw [e1]
            refine ⟨rfl, { start := (s.rawDataOffset + leadInBytes + ix1.nextSegmentStart) % u64Lim
                           length := s.nextSegmentOffset - s.rawDataOffset
                           layout := if s.toc.dataIsInterleaved then .interleaved else .contigious
                           channels := ms
                           byteOrder := if s.toc.bigEndian then .big else .little }, ?_⟩
            generalize hbd : DataBlock.mk _ _ _ ms _ = b
            have hf : Build.release.fromSegment s ix1.nextSegmentStart ms = .ok b := by
              unfold Build.fromSegment
              dsimp only
              rw [if_neg (by omega), if_neg (by omega), if_neg hem, ← hbd]
              rfl
            rw [hf] at e2
            dsimp only at e2
            rw [e2]
            have hch : b.channels = ms := by rw [← hbd]
            have hins := h1.insertDataBlock b (by rw [hch]; exact hj)
            have hres := insertDataBlock_result h1 b
            have hnext : (ix1.insertDataBlock b).2.nextSegmentStart = ix1.nextSegmentStart := by
              unfold Index.insertDataBlock
              split <;> rfl
            generalize ix1.insertDataBlock b = ins at hins hres hnext
            obtain ⟨r2, ix2⟩ := ins
            dsimp only at hins hres hnext
            rcases hres with hres | hres
            · subst hres
              dsimp only
              rw [advance_eq, if_neg (by omega)]
              exact ⟨rfl, by rw [hch]; exact hms, hins, Or.inl rfl⟩
            · subst hres
              exact ⟨rfl, by rw [hch]; exact hms, hins, Or.inr rfl⟩
          · rw [e1, he] at hu
            dsimp only at hu
            rcases insertDataBlock_result h1 _ with hi | hi
            · rw [hi] at hu; cases hu
            · rw [hi] at hu; cases hu
      · rw [hu]; exact Or.inl rfl
    · left
      unfold Build.addRawData Index.addRawData
      rw [if_neg hr, if_neg hr]

theorem Plain.insertDataBlock {ix : Index} (h : Plain ix) {b : DataBlock}
    (hb : Index.activeRawDataMeta ix.objects ix.activeObjects = .ok b.channels) : Plain (ix.insertDataBlock b).2 := by
  unfold Index.insertDataBlock
  cases hn : b.numberOfChunks with
  | error e => exact h
  | ok n =>
    dsimp only
    refine ⟨fun k o ho => ?_, fun b' hb' => ?_⟩
    · obtain ⟨ls, hls⟩ := addLocations_objects ix.dataBlocks.length n ix.activeObjects 0 ix.objects k
      dsimp only at ho
      rw [hls] at ho
      obtain ⟨o', ho', rfl⟩ := Option.map_eq_some_iff.mp ho
      exact h.objects k o' ho'
    · rcases List.mem_append.mp hb' with hb' | hb'
      · exact h.blocks b' hb'
      · rw [List.mem_singleton.mp hb']
        exact activeRawDataMeta_plain h.objects hb

theorem Plain.afterObjects {ix : Index} (h : Plain ix) {s : Segment} (hs : PlainSegment s) :
    Plain (Tedium.afterObjects ix s).2 := by
  unfold Tedium.afterObjects entriesOf
  apply Plain.addObjects
  · cases hm : s.metaData with
    | none => intro o ho; cases ho
    | some md => exact hs md hm
  · split
    · exact ⟨h.objects, h.blocks⟩
    · exact h

theorem Plain.release {ix : Index} (hi : Inv ix) (h : Plain ix) {s : Segment} (hs : PlainSegment s) :
    Plain (Build.release.addSegment ix s).2 := by
  rcases release_addSegment_cases hi s with hc | ⟨_, b, h1, h2, _⟩
  · rw [hc]; exact h.addSegment hs
  · rw [h1]; exact (h.afterObjects hs).insertDataBlock h2

theorem Inv.release {ix : Index} (hi : Inv ix) (s : Segment) : Inv (Build.release.addSegment ix s).2 := by
  rcases release_addSegment_cases hi s with hc | ⟨_, b, _, _, h, _⟩
  · rw [hc]; exact (hi.addSegment s).1
  · exact h

/-- the segment that a call adds to the index, if it gets that far -/
theorem run_segment (al : Alloc) (t : TdmsFile) (op : Op) :
    (∃ e, ∀ B : Build, B.run al t op = (R.err e, t)) ∨
    ∃ s bytes, PlainSegment s ∧ ∀ B : Build, B.run al t op =
      ((B.addSegment t.index s).1.map (fun _ => ()), ⟨(B.addSegment t.index s).2, t.bytes ++ bytes⟩) := by
  cases op with
  | write e ty channels vals layout =>
    by_cases h1 : channels.length = 0
    · left
      refine ⟨.noChannels, fun B => ?_⟩
      show B.writeChannels _ _ _ _ _ _ = _
      unfold Build.writeChannels
      rw [if_pos h1]
    · by_cases h2 : vals.length % channels.length ≠ 0
      · left
        refine ⟨.badDataBlockLength vals.length channels.length, fun B => ?_⟩
        show B.writeChannels _ _ _ _ _ _ = _
        unfold Build.writeChannels
        rw [if_neg h1, if_pos h2]
      · right
        let cv := t.index.checkWriteValues ((channels.map ChannelPath.path).zip
          (TdmsFile.dataStructure (ty.storage al) vals channels.length))
        let sb := writeSegment e { containsNewObjectList := !cv.1, dataIsInterleaved := layout = .interleaved }
          (if cv.1 = true then none
            else some { objects := cv.2.map (fun (p, i) => { path := p, properties := [], rawDataIndex := i }) })
          (some (TdmsFile.sliceData (ty.storage al) e vals))
        refine ⟨sb.1, sb.2, ?_, fun B => by
          show B.writeChannels _ _ _ _ _ _ = _
          unfold Build.writeChannels
          rw [if_neg h1, if_neg h2]⟩
        intro md hmd
        have hmd' : (if (t.index.checkWriteValues ((channels.map ChannelPath.path).zip
            (TdmsFile.dataStructure (ty.storage al) vals channels.length))).1 = true then none
          else some (MetaData.mk ((t.index.checkWriteValues ((channels.map ChannelPath.path).zip
            (TdmsFile.dataStructure (ty.storage al) vals channels.length))).2.map (fun x =>
          { path := x.1, properties := [], rawDataIndex := x.2 })))) = some md := hmd
        split at hmd'
        · cases hmd'
        · cases hmd'
          intro o ho m hm
          dsimp only at ho
          obtain ⟨⟨p, i⟩, hpi, rfl⟩ := List.mem_map.mp ho
          dsimp only at hm
          subst hm
          unfold Index.checkWriteValues at hpi
          obtain ⟨⟨p', f⟩, hpf, hx⟩ := List.mem_map.mp hpi
          have hf : f.totalSizeBytes = none := by
            have := List.of_mem_zip hpf
            unfold TdmsFile.dataStructure at this
            rw [(List.mem_replicate.mp this.2).2]
          simp only [Prod.mk.injEq] at hx
          have hx2 := hx.2
          unfold Index.rawIndexFor at hx2
          split at hx2
          · split at hx2
            · cases hx2
            · cases hx2; exact hf
          · cases hx2; exact hf
  | props e path properties =>
    right
    let sb := writeSegment e {} (some { objects := [{ path := path.path, properties, rawDataIndex := .none }] }) none
    refine ⟨sb.1, sb.2, ?_, fun B => rfl⟩
    intro md hmd
    cases hmd
    intro o ho m hm
    rw [List.mem_singleton.mp ho] at hm
    cases hm

/-! ## Opening -/

theorem release_openLoop (al : Alloc) (f : Bytes) : ∀ (n pos : Nat) {ix : Index}, Inv ix →
    Build.release.openLoop al f n pos ix = Tedium.openLoop al f n pos ix ∨
    (Tedium.openLoop al f n pos ix = R.panic .overflow ∧
      (Build.release.openLoop al f n pos ix = R.err .segmentAddressOverflow ∨
        Build.release.openLoop al f n pos ix = R.err .chunkSizeOverflow)) := by
  intro n
  induction n with
  | zero => intro pos ix _; exact Or.inl rfl
  | succ n ih =>
    intro pos ix hi
    rw [← Build.debug_openLoop]
    unfold Build.openLoop
    cases hs : Segment.read al f pos with
    | error e =>
      cases e with
      | err e => cases e <;> exact Or.inl rfl
      | panic p => exact Or.inl rfl
      | hang => exact Or.inl rfl
    | ok r =>
      obtain ⟨s, q⟩ := r
      dsimp only
      rw [Build.debug_addSegment]
      rcases release_addSegment_cases hi s with hc | ⟨h1, b, _, _, _, h2⟩
      · rw [hc]
        have hinv := (hi.addSegment s).1
        revert hinv
        generalize ix.addSegment s = r
        obtain ⟨r, ix'⟩ := r
        intro hinv
        cases r with
        | error e => exact Or.inl rfl
        | ok next =>
          dsimp only
          rw [Build.debug_openLoop]
          exact ih next hinv
      · right
        revert h1 h2
        generalize ix.addSegment s = r
        generalize Build.release.addSegment ix s = r'
        obtain ⟨r, ix1⟩ := r
        obtain ⟨r', ix2⟩ := r'
        intro h1 h2
        dsimp only at h1 h2
        subst h1
        refine ⟨rfl, ?_⟩
        rcases h2 with h2 | h2
        · subst h2; exact Or.inl rfl
        · subst h2; exact Or.inr rfl

theorem release_new (al : Alloc) (f : Bytes) :
    Build.release.new al f = TdmsFile.new al f ∨
    (TdmsFile.new al f = R.panic .overflow ∧
      (Build.release.new al f = R.err .segmentAddressOverflow ∨ Build.release.new al f = R.err .chunkSizeOverflow)) := by
  unfold Build.new TdmsFile.new buildIndex
  rcases release_openLoop al f (f.length / leadInBytes + 1) 0 Inv.new with h | ⟨h1, h2⟩
  · rw [h]; exact Or.inl rfl
  · rw [h1]
    right
    refine ⟨rfl, ?_⟩
    rcases h2 with h2 | h2
    · rw [h2]; exact Or.inl rfl
    · rw [h2]; exact Or.inr rfl

theorem release_new_ok {al : Alloc} {f : Bytes} {t : TdmsFile} :
    Build.release.new al f = .ok t ↔ TdmsFile.new al f = .ok t := by
  rcases release_new al f with h | ⟨h1, h2⟩
  · rw [h]
  · constructor
    · intro h
      rcases h2 with h2 | h2 <;> (rw [h2] at h; cases h)
    · intro h
      rw [h1] at h
      cases h

/-! ## Sessions -/

theorem release_session {al : Alloc} {t : TdmsFile} (h : Build.release.Session al t) : Inv t.index ∧ Plain t.index := by
  induction h with
  | opened ho =>
    have := Session.opened (release_new_ok.mp ho)
    exact ⟨this.reach.inv, this.plain⟩
  | @call t op _ ih =>
    rcases run_segment al t op with ⟨e, he⟩ | ⟨s, bytes, hs, he⟩
    · rw [he]; exact ih
    · rw [he]; exact ⟨ih.1.release s, ih.2.release ih.1 hs⟩

/-- A call of the optimised build, where the other build panics, fails. -/
theorem release_run {al : Alloc} {t : TdmsFile} (hi : Inv t.index) (op : Op) :
    Build.release.run al t op = op.run al t ∨
    ((op.run al t).1 = R.panic .overflow ∧
      ((Build.release.run al t op).1 = R.err .segmentAddressOverflow ∨
        (Build.release.run al t op).1 = R.err .chunkSizeOverflow) ∧
      (Build.release.run al t op).2.bytes = (op.run al t).2.bytes) := by
  rw [← Build.debug_run]
  rcases run_segment al t op with ⟨e, he⟩ | ⟨s, bytes, hs, he⟩
  · rw [he, he]; exact Or.inl rfl
  · rw [he, he, Build.debug_addSegment]
    rcases release_addSegment_cases hi s with hc | ⟨h1, b, _, _, _, h2⟩
    · rw [hc]; exact Or.inl rfl
    · right
      dsimp only
      rw [h1]
      refine ⟨rfl, ?_, rfl⟩
      rcases h2 with h2 | h2
      · rw [h2]; exact Or.inl rfl
      · rw [h2]; exact Or.inr rfl

/-! ## Panics -/

section
variable {B : Build} {P : PanicKind → Prop} (hB : B.Panics P)
include hB

theorem addSegment_only {ix : Index} (h : Inv ix) (s : Segment) : R.Only P (B.addSegment ix s).1 := by
  rw [Build.addSegment_eq]
  obtain ⟨h1, h2⟩ := h.afterObjects s
  generalize afterObjects ix s = ao at h1 h2
  obtain ⟨r, ix1⟩ := ao
  dsimp only at h1 h2
  rcases h2 with h2 | h2
  · subst h2
    dsimp only
    have hadv : ∀ ix2 : Index, R.Only P (ix2.advance s).1 := by
      intro ix2
      rw [advance_eq]
      split
      · exact .ok
      · exact .err
    have hraw : R.Only P (B.addRawData ix1 s).1 := by
      unfold Build.addRawData
      split
      · obtain ⟨ms, hms, _⟩ := activeRawDataMeta_ok h1.active
        rw [hms]
        dsimp only
        split
        · exact .err
        · have hf : R.Only P (B.fromSegment s ix1.nextSegmentStart ms) := by
            unfold Build.fromSegment
            dsimp only
            by_cases c1 : s.rawDataOffset > s.nextSegmentOffset
            · rw [if_pos c1]; exact .err
            · rw [if_neg c1]
              by_cases c2 : s.nextSegmentOffset - s.rawDataOffset = 0
              · rw [if_pos c2]; exact .err
              · rw [if_neg c2]
                by_cases c3 : ms.isEmpty = true
                · rw [if_pos c3]; exact .err
                · rw [if_neg c3]
                  exact (hB.sum _).bind (fun _ => .ok)
          revert hf
          cases B.fromSegment s ix1.nextSegmentStart ms with
          | error e => intro hf e' he'; cases he'; exact hf e rfl
          | ok b =>
            intro _
            dsimp only
            rcases insertDataBlock_result h1 b with hi | hi
            · rw [hi]; exact .ok
            · rw [hi]; exact .err
      · exact .ok
    revert hraw
    cases B.addRawData ix1 s with
    | mk r ix2 =>
      intro hraw
      cases r with
      | error e => intro e' he'; cases he'; exact hraw e rfl
      | ok u => exact hadv ix2
  · subst h2
    exact .err

theorem openLoop_only (hinv : ∀ ix s, Inv ix → Inv (B.addSegment ix s).2) (al : Alloc) (f : Bytes) :
    ∀ (n pos : Nat) {ix : Index}, Inv ix → B.openLoop al f n pos ix ≠ .error .hang →
      R.Only P (B.openLoop al f n pos ix) := by
  intro n
  induction n with
  | zero => intro pos ix _ h; exact absurd rfl h
  | succ n ih =>
    intro pos ix hi
    unfold Build.openLoop
    rcases Segment.read_safe al f pos with ⟨s, q, hs⟩ | ⟨e, hs⟩
    · rw [hs]
      dsimp only
      have ho := addSegment_only hB hi s
      have hv := hinv ix s hi
      revert ho hv
      cases B.addSegment ix s with
      | mk r ix2 =>
        intro ho hv
        cases r with
        | error e => intro _ e' he'; cases he'; exact ho e rfl
        | ok next => exact ih next hv
    · rw [hs]
      intro _
      cases e <;> first | exact .ok | exact .err

theorem new_only (hinv : ∀ ix s, Inv ix → Inv (B.addSegment ix s).2) (al : Alloc) (f : Bytes)
    (h : B.new al f ≠ .error .hang) : R.Only P (B.new al f) := by
  unfold Build.new at h ⊢
  have := openLoop_only hB hinv al f (f.length / leadInBytes + 1) 0 Inv.new
  revert h this
  cases B.openLoop al f (f.length / leadInBytes + 1) 0 Index.new with
  | error e =>
    intro h this e' he'
    cases he'
    exact this (fun hh => h (by cases hh; rfl)) e rfl
  | ok ix => intro _ _; exact .ok

theorem run_only {t : TdmsFile} (hi : Inv t.index) (al : Alloc) (op : Op) : R.Only P (B.run al t op).1 := by
  rcases run_segment al t op with ⟨e, he⟩ | ⟨s, bytes, _, he⟩
  · rw [he]; exact .err
  · rw [he]
    have := addSegment_only hB hi s
    revert this
    dsimp only
    cases (B.addSegment t.index s).1 with
    | error e => intro h e' he'; cases he'; exact h e rfl
    | ok n => intro _; exact .ok

end

end Tedium
