import Verif.Proofs.Concat
import Verif.Props.Existing

/-! # Helper lemmas: two lists of segments with the same index -/

namespace Tedium
open SegSpec WriteSpec PlanSpec

namespace Library

section
variable {segs segs' : List Segment} {ix : Index} (h : replay Index.new segs = .ok ix) (h' : replay Index.new segs' = .ok ix)
include h h'

theorem same_listed (p : Text) : Listed (entries segs) p ↔ Listed (entries segs') p := by
  have key : ∀ {s : List Segment}, replay Index.new s = .ok ix → (Listed (entries s) p ↔ ix.objects.get? p ≠ none) := by
    intro s hs
    constructor
    · intro hl
      rw [(replay_refines hs).obj.listed p hl]
      nofun
    · intro hg
      exact Classical.byContradiction fun hn => hg ((replay_refines hs).obj.unlisted p hn).1
  exact (key h).trans (key h').symm

theorem same_object {p : Text} (hl : Listed (entries segs) p) :
    objectOf (entries segs) (locations segs) p = objectOf (entries segs') (locations segs') p := by
  have h1 := (replay_refines h).obj.listed p hl
  have h2 := (replay_refines h').obj.listed p ((same_listed h h' p).mp hl)
  exact Option.some.inj (h1.symm.trans h2)

theorem same_layout (p : Text) : layoutOf (entries segs) p = layoutOf (entries segs') p := by
  by_cases hl : Listed (entries segs) p
  · exact congrArg ObjectData.latestDataFormat (same_object h h' hl)
  · rw [layoutOf_unlisted hl, layoutOf_unlisted (fun hl' => hl ((same_listed h h' p).mpr hl'))]

theorem same_locations (p : Text) : locations segs p = locations segs' p := by
  by_cases hl : Listed (entries segs) p
  · exact congrArg ObjectData.dataLocations (same_object h h' hl)
  · rw [((replay_refines h).obj.unlisted p hl).2,
      ((replay_refines h').obj.unlisted p (fun hl' => hl ((same_listed h h' p).mpr hl'))).2]

theorem same_active : active segs = active segs' :=
  (replay_refines h).obj.paths.symm.trans (replay_refines h').obj.paths

theorem same_count : (dataPrefixes segs).length = (dataPrefixes segs').length := by
  have h1 := congrArg List.length (replay_refines h).blocks
  have h2 := congrArg List.length (replay_refines h').blocks
  simp only [List.length_map] at h1 h2
  omega

theorem same_block {i : Nat} {pre pre' : List Segment} (hi : (dataPrefixes segs)[i]? = some pre) (hi' : (dataPrefixes segs')[i]? = some pre') :
    blockOf pre = blockOf pre' := by
  obtain ⟨b, hb, hg⟩ := (replay_refines h).block hi
  obtain ⟨b', hb', hg'⟩ := (replay_refines h').block hi'
  rw [hb, hb', ← hg, ← hg']

omit h h' in
theorem idx_some {segs segs' : List Segment} (hloc : ∀ p, locations segs p = locations segs' p) {i : Nat} {pre pre' : List Segment}
    (hi : (dataPrefixes segs)[i]? = some pre) (hi' : (dataPrefixes segs')[i]? = some pre') {p : Text} {j : Nat}
    (hj : (active pre).idxOf? p = some j) : (active pre').idxOf? p = some j ∧ samplesIn pre p = samplesIn pre' p := by
  have hmem : (⟨i, j, valuesPerChunk pre p * chunks pre⟩ : DataLocation) ∈ locations segs p := by
    unfold locations
    refine List.mem_filterMap.mpr ⟨(pre, i), ?_, by dsimp only; rw [hj]; rfl⟩
    exact List.mem_iff_getElem?.mpr ⟨i, by rw [List.getElem?_zipIdx, hi]; simp⟩
  rw [hloc] at hmem
  obtain ⟨pre2, h1, h2, h3, _⟩ := mem_locations hmem
  dsimp only at h1 h2 h3
  rw [hi'] at h1
  cases h1
  refine ⟨h2, ?_⟩
  rw [← h3]
  unfold samplesIn
  rw [if_pos (List.mem_of_getElem? (getElem?_of_idxOf? hj))]

theorem same_idx {i : Nat} {pre pre' : List Segment} (hi : (dataPrefixes segs)[i]? = some pre) (hi' : (dataPrefixes segs')[i]? = some pre')
    (p : Text) : (active pre).idxOf? p = (active pre').idxOf? p ∧ samplesIn pre p = samplesIn pre' p := by
  cases hj : (active pre).idxOf? p with
  | some j =>
    obtain ⟨h1, h2⟩ := idx_some (same_locations h h') hi hi' hj
    exact ⟨h1.symm, h2⟩
  | none =>
    cases hj' : (active pre').idxOf? p with
    | some j =>
      have := (idx_some (fun p => (same_locations h h' p).symm) hi' hi hj').1
      rw [hj] at this
      cases this
    | none =>
      refine ⟨rfl, ?_⟩
      unfold samplesIn
      rw [if_neg (idxOf?_eq_none.mp hj), if_neg (idxOf?_eq_none.mp hj')]

theorem same_channels {i : Nat} {pre pre' : List Segment} (hi : (dataPrefixes segs)[i]? = some pre) (hi' : (dataPrefixes segs')[i]? = some pre') :
    activeLayouts pre = activeLayouts pre' := by
  have hb := same_block h h' hi hi'
  obtain ⟨b, hb1, _⟩ := (replay_refines h).block hi
  rw [hb1] at hb
  have key : ∀ {pre : List Segment}, blockOf pre = some b → b.channels = activeLayouts pre := by
    intro pre hb
    unfold blockOf at hb
    obtain ⟨s, _, rfl⟩ := Option.map_eq_some_iff.mp hb
    rfl
  rw [← key hb1, ← key hb.symm]

theorem same_active_at {i : Nat} {pre pre' : List Segment} (hi : (dataPrefixes segs)[i]? = some pre)
    (hi' : (dataPrefixes segs')[i]? = some pre') (p : Text) : p ∈ active pre ↔ p ∈ active pre' := by
  have hx := (same_idx h h' hi hi' p).1
  constructor
  · intro hp
    refine Classical.byContradiction fun hn => ?_
    rw [idxOf?_eq_none.mpr hn] at hx
    exact idxOf?_eq_none.mp hx hp
  · intro hp
    refine Classical.byContradiction fun hn => ?_
    rw [idxOf?_eq_none.mpr hn] at hx
    exact idxOf?_eq_none.mp hx.symm hp

theorem same_layout_at {i : Nat} {pre pre' : List Segment} (hi : (dataPrefixes segs)[i]? = some pre)
    (hi' : (dataPrefixes segs')[i]? = some pre') {p : Text} (hp : p ∈ active pre) : layoutOf (entries pre) p = layoutOf (entries pre') p := by
  cases hj : (active pre).idxOf? p with
  | none => exact absurd hp (idxOf?_eq_none.mp hj)
  | some j =>
    have hj' := hj
    rw [(same_idx h h' hi hi' p).1] at hj'
    rw [← (layout_at h hi hj).1, ← (layout_at h' hi' hj').1, same_channels h h' hi hi']

theorem same_regular {i : Nat} {pre pre' : List Segment} (hi : (dataPrefixes segs)[i]? = some pre) (hi' : (dataPrefixes segs')[i]? = some pre')
    {f : Bytes} (hr : Regular f pre) : Regular f pre' := by
  have hb := same_block h h' hi hi'
  have hc := same_channels h h' hi hi'
  obtain ⟨h1, h2, h3, h4⟩ := hr
  refine ⟨hb ▸ h1, hc ▸ h2, hc ▸ h3, fun hw => ?_⟩
  obtain ⟨b, hb1, _⟩ := (replay_refines h).block hi
  rw [hb1] at hb
  have key : ∀ {pre : List Segment}, blockOf pre = some b → b.length = rawBytes pre ∧
      ((∃ s ∈ pre.getLast?, s.toc.dataIsInterleaved = true) ↔ b.layout = .interleaved) := by
    intro pre hb
    unfold blockOf at hb
    unfold rawBytes
    obtain ⟨s, hs, rfl⟩ := Option.map_eq_some_iff.mp hb
    rw [hs]
    refine ⟨rfl, ?_⟩
    dsimp only
    constructor
    · rintro ⟨s', hs', hd⟩
      cases hs'
      rw [if_pos hd]
    · intro hl
      refine ⟨s, rfl, ?_⟩
      cases hd : s.toc.dataIsInterleaved with
      | true => rfl
      | false => rw [hd] at hl; cases hl
  obtain ⟨k1, k2⟩ := key hb1
  obtain ⟨k1', k2'⟩ := key hb.symm
  have := h4 (k2.mpr (k2'.mp hw))
  unfold chunkBytes at this ⊢
  rw [← hc, ← k1', k1]
  exact this

theorem same_samples {α : Type} (dec : Endian → Bytes → α) (f : Bytes) (p : Text) :
    channelSamples dec f segs p = channelSamples dec f segs' p := by
  unfold channelSamples
  rw [List.flatMap_def, List.flatMap_def]
  congr 1
  apply List.ext_getElem?
  intro i
  rw [List.getElem?_map, List.getElem?_map]
  cases hi : (dataPrefixes segs)[i]? with
  | none =>
    have : (dataPrefixes segs')[i]? = none := by
      rw [List.getElem?_eq_none_iff] at hi ⊢
      rw [← same_count h h']; exact hi
    rw [this]
  | some pre =>
    cases hi' : (dataPrefixes segs')[i]? with
    | none =>
      rw [List.getElem?_eq_none_iff, ← same_count h h', ← List.getElem?_eq_none_iff, hi] at hi'
      cases hi'
    | some pre' =>
      show some _ = some _
      congr 1
      obtain ⟨hx, hs⟩ := same_idx h h' hi hi' p
      dsimp only
      rw [same_block h h' hi hi', hx, hs]
      cases hj : (active pre').idxOf? p with
      | none => cases blockOf pre' <;> rfl
      | some j =>
        rw [same_layout_at h h' hi hi' ((same_active_at h h' hi hi' p).mpr (List.mem_of_getElem? (getElem?_of_idxOf? hj)))]

theorem same_prefix {pre' : List Segment} (hp : pre' ∈ dataPrefixes segs') :
    ∃ (i : Nat) (pre : List Segment), (dataPrefixes segs)[i]? = some pre ∧ (dataPrefixes segs')[i]? = some pre' := by
  obtain ⟨i, hi⟩ := List.mem_iff_getElem?.mp hp
  have hlt := (List.getElem?_eq_some_iff.mp hi).1
  rw [← same_count h h'] at hlt
  exact ⟨i, _, List.getElem?_eq_getElem hlt, hi⟩

end

/-! ## Files that the library wrote -/

section
variable {al : Alloc} {s : Store} {last : Last} {segs : List Segment} {t : TdmsFile}

/-- The type of the samples of a channel. -/
def Store.types (s : Store) (p : Text) : STy := match s.content p with
  | some c => c.1
  | none => .u8

/-- An open file is an existing one, of the segments that are in its bytes. -/
theorem Models.existing (h : Models al s last segs t) (hal : Generous al) {fs : List FileSegment} (hh : _root_.Tedium.Holds fs t)
    (hne : ∀ p ty vals, s.content p = some ⟨ty, vals⟩ → vals ≠ []) :
    Existing al fs t s.types last ∧ storeIn s.types t.bytes (fs.map FileSegment.segment) = s := by
  have h1 := h.exact'.refines
  have h2 := hh.index
  have hM : Existing al fs t s.types last := by
    refine ⟨hal, hh.fits, hh.bytes ▸ hh.new al hal, fun pre hpre => ?_, fun pre hpre p hp => ?_, ?_, fun ty m hf => ?_⟩
    · obtain ⟨i, pre0, hi, hi'⟩ := same_prefix h1 h2 hpre
      exact same_regular h1 h2 hi hi' (h.regular pre0 (List.mem_of_getElem? hi))
    · obtain ⟨i, pre0, hi, hi'⟩ := same_prefix h1 h2 hpre
      have hp0 := (same_active_at h1 h2 hi hi' p).mpr hp
      unfold Store.types
      cases hc : s.content p with
      | none => exact absurd hp0 (h.absent p hc pre0 (List.mem_of_getElem? hi))
      | some c =>
        obtain ⟨ty, vals⟩ := c
        obtain ⟨p1, p2, _⟩ := h.present p ty vals hc
        refine ⟨p1, fun m hm => p2 pre0 (List.mem_of_getElem? hi) hp0 m ?_⟩
        rw [same_layout_at h1 h2 hi hi' hp0]; exact hm
    · rw [← same_active h1 h2]; exact h.last.channels
    · obtain ⟨f1, f2, f3⟩ := h.last.format ty m hf
      refine ⟨f1, by rw [← same_active h1 h2]; exact f2, fun p hp => ?_⟩
      rw [← same_layout h1 h2]; exact f3 p hp
  refine ⟨hM, ?_⟩
  have h3 := hM.models h.size
  refine store_ext (fun p => ?_) (fun p n => ?_) (fun p => ?_)
  · rw [← h3.objects p, h.objects p]
  · rw [← h3.value ⟨p⟩ n]
    exact h.value ⟨p⟩ n
  · rw [storeIn_content]
    cases hc : s.content p with
    | none =>
      rw [if_neg]
      intro hd
      obtain ⟨pre, hpre, hp⟩ := hasData_iff.mp hd
      obtain ⟨i, pre0, hi, hi'⟩ := same_prefix h1 h2 hpre
      exact h.absent p hc pre0 (List.mem_of_getElem? hi) ((same_active_at h1 h2 hi hi' p).mpr hp)
    | some c =>
      obtain ⟨ty, vals⟩ := c
      have hs := (h.present p ty vals hc).2.2 [] (by rw [List.append_nil]; exact h.size)
      rw [List.append_nil, same_samples h1 h2] at hs
      have hty : s.types p = ty := by unfold Store.types; rw [hc]
      rw [if_pos, hty, hs]
      cases hd : hasData (fs.map FileSegment.segment) p with
      | true => rfl
      | false => rw [samples_none hd] at hs; exact absurd hs.symm (hne p ty vals hc)

end

/-! ## The segments of a history -/

theorem toc_of_bytes {a b : ToC} (h : a.asBytes = b.asBytes) : a = b := by
  unfold ToC.asBytes at h
  have h := congrArg (fun x => ToC.fromU32 (decNat .little x)) h
  rw [decNat_encNat, decNat_encNat, Nat.mod_eq_of_lt (toU32_lt a), Nat.mod_eq_of_lt (toU32_lt b), fromU32_toU32, fromU32_toU32] at h
  exact h

theorem toc_written {s : FileSegment} {e : Endian} {toc : ToC} {md : Option MetaData} {data : Option DataToWrite}
    (h : s.encode = (writeSegment e toc md data).2) : s.toc = (writeSegment e toc md data).1.toc := by
  apply toc_of_bytes
  unfold FileSegment.encode FileSegment.head writeSegment at h
  dsimp only at h
  rw [List.append_assoc, List.append_cancel_left_eq, List.append_assoc] at h
  exact (List.append_inj h (by rw [ToC.asBytes, ToC.asBytes, length_encNat, length_encNat])).1

/-- No raw data before a new list of objects; no channels in force without one. -/
structure Fresh (fs : List FileSegment) (t : TdmsFile) : Prop where
  standalone : Standalone (fs.map FileSegment.segment)
  active : (∀ s ∈ fs, s.toc.containsNewObjectList = false) → t.index.activeObjects = []

theorem fresh_new : Fresh [] ⟨Index.new, []⟩ := ⟨nofun, fun _ => rfl⟩

theorem Fresh.call {al : Alloc} {fs : List FileSegment} {t : TdmsFile} (h : Fresh fs t) (hh : _root_.Tedium.Holds fs t) (op : Op)
    (hok : (op.run al t).1 = .ok ()) {s : FileSegment} (hs : _root_.Tedium.Holds (fs ++ [s]) (op.run al t).2) : Fresh (fs ++ [s]) (op.run al t).2 := by
  by_cases hold : ∃ x ∈ fs, x.toc.containsNewObjectList = true
  · obtain ⟨x, hx, hnew⟩ := hold
    refine ⟨?_, fun hall => ?_⟩
    · intro pre hpre
      rw [List.map_append, List.map_singleton, dataPrefixes_snoc] at hpre
      rcases List.mem_append.mp hpre with hpre | hpre
      · exact h.standalone pre hpre
      · split at hpre
        · rw [List.mem_singleton.mp hpre]
          exact ⟨x.segment, List.mem_append_left _ (List.mem_map_of_mem hx), hnew⟩
        · cases hpre
    · rw [hall x (List.mem_append_left _ hx)] at hnew
      cases hnew
  have hnone : ∀ x ∈ fs, x.toc.containsNewObjectList = false := by
    intro x hx
    cases hb : x.toc.containsNewObjectList with
    | false => rfl
    | true => exact absurd ⟨x, hx, hb⟩ hold
  have hact := h.active hnone
  have hbytes : (op.run al t).2.bytes = t.bytes ++ s.encode := by
    rw [hs.bytes, hh.bytes, List.flatMap_append, List.flatMap_singleton]
  have hcase : (s.toc.containsNewObjectList = true) ∨ (s.toc.containsRawData = false ∧ (op.run al t).2.index.activeObjects = []) := by
    cases op with
    | props e path ps =>
      right
      have hb : s.encode = (propertySegment e path ps).2 := by
        have : (Op.run al t (.props e path ps)).2.bytes = t.bytes ++ (propertySegment e path ps).2 := rfl
        rw [this] at hbytes
        exact (List.append_cancel_left hbytes).symm
      refine ⟨by rw [toc_written hb]; rfl, ?_⟩
      show (t.writeProperties e path ps).2.index.activeObjects = []
      rw [writeProperties_active]; exact hact
    | write e ty chs vals layout =>
      left
      have harg : chs ≠ [] ∧ chs.length ∣ vals.length := by
        change (t.writeChannels (ty.storage al) e chs vals layout).1 = .ok () at hok
        constructor
        · intro hh
          rw [(rejected_arguments _ e t chs vals layout).1 hh] at hok
          cases hok
        · apply Decidable.byContradiction
          intro hh
          rw [(rejected_arguments _ e t chs vals layout).2 (fun h0 => by
            rw [(rejected_arguments _ e t chs vals layout).1 h0] at hok
            cases hok) hh] at hok
          cases hok
      obtain ⟨w, bs, heq, _, hnew, _, _, _, _, _, _, toc, htoc⟩ :=
        writeChannels_segment (ty.storage al) e t chs vals layout harg.1 harg.2
      have hb : s.encode = bs := by
        have h1 : (Op.run al t (.write e ty chs vals layout)).2.bytes = t.bytes ++ bs := by
          show (t.writeChannels (ty.storage al) e chs vals layout).2.bytes = _
          rw [heq]
        rw [h1] at hbytes
        exact (List.append_cancel_left hbytes).symm
      have h2 : w = _ := congrArg Prod.fst htoc
      have h3 : bs = _ := congrArg Prod.snd htoc
      rw [h3] at hb
      rw [toc_written hb, ← h2, hnew, hact]
      exact decide_eq_true (Or.inl rfl)
  refine ⟨?_, fun hall => ?_⟩
  · intro pre hpre
    rw [List.map_append, List.map_singleton, dataPrefixes_snoc] at hpre
    rcases List.mem_append.mp hpre with hpre | hpre
    · exact h.standalone pre hpre
    · split at hpre
      · rename_i hraw
        rcases hcase with hc | ⟨hc, _⟩
        · rw [List.mem_singleton.mp hpre]
          exact ⟨s.segment, List.mem_append_right _ (List.mem_singleton.mpr rfl), hc⟩
        · have hraw : s.toc.containsRawData = true := hraw
          rw [hc] at hraw; cases hraw
      · cases hpre
  · rcases hcase with hc | ⟨_, hc⟩
    · rw [hall s (List.mem_append_right _ (List.mem_singleton.mpr rfl))] at hc
      cases hc
    · exact hc

/-- The segments in the bytes after a history. -/
theorem fresh_history (al : Alloc) : ∀ (ops : List Op) (fs : List FileSegment) (t : TdmsFile)
    (last : Last), _root_.Tedium.Holds fs t → Fresh fs t → Session al t → last.channels = t.index.activeObjects.map (·.path) →
    AllSucceed al t ops → (∀ op ∈ ops, Distinct op) → (∀ op ∈ ops, OpFits op) → Described al last ops →
    (runOps al t ops).bytes.length < 2 ^ 64 → ∃ more, _root_.Tedium.Holds (fs ++ more) (runOps al t ops) ∧ Fresh (fs ++ more) (runOps al t ops) := by
  intro ops
  induction ops with
  | nil => intro fs t last h hf _ _ _ _ _ _ _; exact ⟨[], by rw [List.append_nil]; exact h, by rw [List.append_nil]; exact hf⟩
  | cons op ops ih =>
    intro fs t last h hf hs hl hall hdist hfit hdesc hsz
    rw [allSucceed_cons] at hall
    rw [runOps_cons] at hsz ⊢
    have hsz1 : (op.run al t).2.bytes.length < 2 ^ 64 :=
      Nat.lt_of_le_of_lt (runOps_bytes al _ ops).length_le hsz
    obtain ⟨hd1, hd2⟩ := described_cons hdesc
    obtain ⟨s, hr, _⟩ := h.call al op hl hall.1 (hfit op List.mem_cons_self) hd1 hsz1
    obtain ⟨more, hm⟩ := ih (fs ++ [s]) _ (last.after op) hr (hf.call h op hall.1 hr) (.call op hs)
      (last_after_active al hs hl op (hdist op List.mem_cons_self) hall.1)
      hall.2 (fun o ho => hdist o (List.mem_cons_of_mem _ ho))
      (fun o ho => hfit o (List.mem_cons_of_mem _ ho)) hd2 hsz
    exact ⟨s :: more, by rw [List.append_cons]; exact hm⟩

theorem history_samples {ops : List Op} (hcomp : Compatible Last.none ops)
    (htypes : ∀ op ∈ ops, ∀ op' ∈ ops, ∀ p, Names p op → Names p op' → typeOf op = typeOf op') (p : Text) (ty : STy) (vals : List ty.Val)
    (hc : (storeOf ops).content p = some ⟨ty, vals⟩) : vals ≠ [] := by
  rcases one_type htypes p with hno | ⟨ty', hty, hn⟩
  · rw [store_content_none _ _ hno] at hc
    cases hc
  · rw [store_content ops ty' p hty hn] at hc
    cases hc
    obtain ⟨op, hop, hnm⟩ := hn
    intro hw
    unfold written at hw
    rw [List.flatMap_eq_nil_iff] at hw
    have hw := hw op hop
    have ht := hty op hop hnm
    cases op with
    | props => exact absurd hnm id
    | write e ty channels vals layout =>
      injection ht with ht
      subst ht
      rw [names_iff] at hnm
      obtain ⟨i, hi⟩ := Option.isSome_iff_exists.mp (List.isSome_idxOf?.mpr hnm)
      unfold valuesFor at hw
      dsimp only at hw
      rw [dif_pos rfl, hi] at hw
      have htab := compatible_table ops _ hcomp e _ channels vals layout hop
      refine column_length layout _ i vals ?_ htab.whole htab.some_value hw
      have := (List.findIdx?_eq_some_iff_getElem.mp hi).1
      rwa [List.length_map] at this

/-- The file after a history on a new file, as one that exists. -/
theorem history_existing {al : Alloc} (hal : Generous al) {ops : List Op} (hcomp : Compatible Last.none ops)
    (htypes : ∀ op ∈ ops, ∀ op' ∈ ops, ∀ p, Names p op → Names p op' → typeOf op = typeOf op')
    (hfit : ∀ op ∈ ops, OpFits op) (hdesc : Described al Last.none ops) (hsz : (runOps al ⟨Index.new, []⟩ ops).bytes.length < 2 ^ 63) :
    ∃ fs, Existing al fs (runOps al ⟨Index.new, []⟩ ops) (storeOf ops).types (ops.foldl Last.after Last.none) ∧
      storeIn (storeOf ops).types (runOps al ⟨Index.new, []⟩ ops).bytes (fs.map FileSegment.segment) = storeOf ops ∧
      Standalone (fs.map FileSegment.segment) := by
  obtain ⟨he, hempty⟩ := existing_new al hal (fun _ => .u8)
  have hM := he.models (show 0 < 2 ^ 63 by decide)
  have hM : Models al (storeIn (fun _ => .u8) [] []) Last.none [] ⟨Index.new, []⟩ := hM
  rw [hempty] at hM
  obtain ⟨hall, segs, hmod, _⟩ := models_history hM ops hcomp htypes (fun _ _ _ _ _ h => by cases h) hsz
  obtain ⟨more, hh, hf⟩ := fresh_history al ops [] ⟨Index.new, []⟩ Last.none ⟨nofun, rfl, rfl⟩ fresh_new (.opened (al := al) (f := []) rfl) rfl hall
    (fun op hop => by
      cases op with
      | props => trivial
      | write e ty chs vals layout => exact (compatible_table _ _ hcomp e ty chs vals layout hop).distinct)
    hfit hdesc (by omega)
  rw [List.nil_append] at hh hf
  obtain ⟨h1, h2⟩ := hmod.existing hal hh (history_samples hcomp htypes)
  exact ⟨more, h1, h2, hf.standalone⟩

end Library
end Tedium
