import Verif.Spec.Library
import Verif.Props.ReadBack
import Verif.Props.Properties
import Verif.Props.ReadSafety
import Verif.Proofs.EmptyRead
import Verif.Proofs.Mixed

/-! # Helper lemmas: a file that holds what a store says -/

namespace Tedium
open SegSpec WriteSpec PlanSpec

namespace Library

theorem readAs_self (ty : STy) (vals : List ty.Val) : readAs ty ⟨ty, vals⟩ = some vals := by
  cases ty <;> rfl

/-- Other types are not read. -/
theorem readAs_none (al : Alloc) {ty : STy} {c : (ty : STy) × List ty.Val} (h : readAs ty c = none) :
    (c.1.storage al).natural ∉ (ty.storage al).supported := by
  obtain ⟨ty', vals⟩ := c
  cases ty <;> cases ty' <;> first
    | (simp [STy.storage, numeric, boolStorage, extendedStorage, timestampStorage, complexStorage, stringStorage]; done)
    | (cases h; done)

theorem readAs_some (al : Alloc) {ty : STy} {c : (ty : STy) × List ty.Val} {vs : List ty.Val} (h : readAs ty c = some vs) :
    (c.1.storage al).natural ∈ (ty.storage al).supported ∧ (Format.ordinaryTy c.1 = true → Format.ordinaryTy ty = true) ∧
    ∃ f : c.1.Val → ty.Val, vs = c.2.map f ∧
      ∀ e bs, bs.length ≤ Format.bytesOf (c.1.storage al).natural → Format.decode ty e bs = f (Format.decode c.1 e bs) := by
  obtain ⟨ty', vals⟩ := c
  by_cases hb : ty = .bool ∧ ty' = .u8
  · obtain ⟨hb1, hb2⟩ := hb
    subst hb1 hb2
    cases h
    refine ⟨by simp [STy.storage, numeric, boolStorage], fun _ => rfl, _, rfl, fun e bs hbs => ?_⟩
    have hbs : bs.length ≤ 1 := hbs
    show (bs.headD 0 != 0) = (BitVec.ofNat 8 (decNat e bs) != 0)
    match bs, hbs with
    | [], _ => cases e <;> rfl
    | [b], _ =>
      have hd : decNat e [b] = b.toNat := by cases e <;> simp [decNat, leVal]
      rw [hd]
      show (b != 0) = _
      have hb := b.toNat_lt
      have : (b = 0) ↔ (BitVec.ofNat 8 b.toNat = 0) := by
        constructor
        · intro h; subst h; rfl
        · intro h
          have h2 := congrArg BitVec.toNat h
          rw [BitVec.toNat_ofNat, Nat.mod_eq_of_lt hb] at h2
          exact UInt8.toNat_inj.mp h2
      rw [Bool.eq_iff_iff, bne_iff_ne, bne_iff_ne, ne_eq, ne_eq, this]
  · by_cases heq : ty' = ty
    · subst heq
      rw [readAs_self] at h
      cases h
      exact ⟨STy.natural_mem al _, fun h => h, id, (List.map_id _).symm, fun _ _ _ => rfl⟩
    · exfalso
      cases ty <;> cases ty' <;> first
        | exact heq rfl
        | exact hb ⟨rfl, rfl⟩
        | cases h

theorem map_channelSamples {β γ : Type} (dec : Endian → Bytes → β) (dec' : Endian → Bytes → γ) (f : β → γ) (n : Nat)
    (hf : ∀ e bs, bs.length ≤ n → dec' e bs = f (dec e bs)) (bytes : Bytes) (segs : List Segment) (p : Text)
    (hs : ∀ pre ∈ dataPrefixes segs, p ∈ active pre → ∀ m, layoutOf (entries pre) p = some m → Format.bytesOf m.dataType = n) :
    channelSamples dec' bytes segs p = (channelSamples dec bytes segs p).map f := by
  unfold channelSamples
  rw [List.map_flatMap]
  unfold List.flatMap
  congr 1
  apply List.map_congr_left
  intro pre hpre
  cases blockOf pre with
  | none => rfl
  | some b =>
    cases hi : (active pre).idxOf? p with
    | none => rfl
    | some i =>
      cases hm : layoutOf (entries pre) p with
      | none => rfl
      | some m =>
        dsimp only
        unfold DataBlock.samples
        rw [List.map_map]
        apply List.map_congr_left
        intro k _
        refine hf _ _ ?_
        unfold DataBlock.sampleBytes
        rw [hs pre hpre (List.isSome_idxOf?.mp (by rw [hi]; rfl)) m hm, List.length_take]
        exact Nat.min_le_left _ _

theorem channelSamples_inactive {β : Type} (dec : Endian → Bytes → β) (f : Bytes) {segs : List Segment} {p : Text}
    (h : ∀ pre ∈ dataPrefixes segs, p ∉ active pre) : channelSamples dec f segs p = [] := by
  unfold channelSamples
  rw [List.flatMap_eq_nil_iff]
  intro pre hpre
  cases blockOf pre with
  | none => rfl
  | some b => rw [idxOf?_eq_none.mpr (h pre hpre)]

/-- The segments `segs` of the file `t` hold what the store says. -/
structure Image (al : Alloc) (s : Store) (segs : List Segment) (t : TdmsFile) : Prop where
  refines : replay Index.new segs = .ok t.index
  size : t.bytes.length < 2 ^ 63
  regular : ∀ pre ∈ dataPrefixes segs, Regular t.bytes pre
  objects : ∀ p, t.Has p ↔ s.objects p
  absent : ∀ p, s.content p = none → ∀ pre ∈ dataPrefixes segs, p ∉ active pre
  present : ∀ p ty vals, s.content p = some ⟨ty, vals⟩ → Format.ordinaryTy ty = true ∧
    (∀ pre ∈ dataPrefixes segs, p ∈ active pre → ∀ m, layoutOf (entries pre) p = some m → m.dataType = (ty.storage al).natural) ∧
    channelSamples (Format.decode ty) t.bytes segs p = vals

/-- All types. -/
def everyType : List DataType :=
  [.void, .i8, .i16, .i32, .i64, .u8, .u16, .u32, .u64, .singleFloat, .doubleFloat, .extendedFloat, .singleFloatWithUnit,
    .doubleFloatWithUnit, .extendedFloatWithUnit, .tdmsString, .boolean, .timestamp, .fixedPoint, .complexSingleFloat,
    .complexDoubleFloat, .daqmxRawData]

theorem mem_everyType (d : DataType) : d ∈ everyType := by
  cases d <;> decide

section
variable {al : Alloc} {s : Store} {segs : List Segment} {t : TdmsFile}

theorem Image.listed (h : Image al s segs t) (p : Text) : t.Has p ↔ Listed (entries segs) p := by
  rw [has_get]
  constructor
  · intro hh
    refine Classical.byContradiction fun hn => hh ?_
    exact ((replay_refines h.refines).obj.unlisted _ hn).1
  · intro hh
    rw [(replay_refines h.refines).obj.listed _ hh]
    nofun

theorem Image.count (h : Image al s segs t) (p : Text) : sampleCount segs p = s.count p := by
  unfold Store.count
  cases hc : s.content p with
  | none =>
    rw [← length_channelSamples (dec := Format.decode .u8) h.refines t.bytes p, channelSamples_inactive _ _ (h.absent p hc)]
    rfl
  | some c =>
    obtain ⟨ty, vals⟩ := c
    rw [← length_channelSamples (dec := Format.decode ty) h.refines t.bytes p, (h.present p ty vals hc).2.2]

/-- The samples, read as values of a type they can be read as. -/
theorem Image.readAs (h : Image al s segs t) {ty ty' : STy} {p : Text} {vals : List ty'.Val}
    (hc : s.content p = some ⟨ty', vals⟩) {vs : List ty.Val} (hr : Library.readAs ty ⟨ty', vals⟩ = some vs) :
    Format.ordinaryTy ty = true ∧ channelSamples (Format.decode ty) t.bytes segs p = vs ∧
    ∀ pre ∈ dataPrefixes segs, p ∈ active pre → Regular t.bytes pre ∧
      ∀ m, layoutOf (entries pre) p = some m → m.dataType ∈ (ty.storage al).supported := by
  obtain ⟨h1, h2, f, hf, hdec⟩ := readAs_some al hr
  dsimp only at h1 h2 f hf hdec
  obtain ⟨p1, p2, p3⟩ := h.present p _ _ hc
  refine ⟨h2 p1, ?_, fun pre hpre hact => ⟨h.regular pre hpre, fun m hm => by rw [p2 pre hpre hact m hm]; exact h1⟩⟩
  rw [map_channelSamples (Format.decode ty') (Format.decode ty) f _ hdec t.bytes segs p
    (fun pre hpre hact m hm => by rw [p2 pre hpre hact m hm]), p3, hf]

/-- Reading past the samples. -/
theorem Image.past (h : Image al s segs t) {α : Type} (S : Storage α) {c : ChannelPath}
    (hh : t.Has c.path) {start : Nat} (hs : s.count c.path ≤ start) (out : List α) :
    t.readChannelFrom S c start out = .ok out := by
  rw [← h.count] at hs
  have hr := replay_refines h.refines
  have hpos := hr.positions ((h.listed _).mp hh)
  have hvalid : Increasing (locations segs c.path) ∧
      ∀ l ∈ locations segs c.path, l.dataBlock < t.index.dataBlocks.length := by
    obtain ⟨o, ho, hol⟩ := Option.map_eq_some_iff.mp hpos
    refine ⟨hol ▸ hr.inv.incr _ _ ho, fun l hl => ?_⟩
    obtain ⟨b, _, _, hb, _⟩ := hr.inv.valid _ _ ho l (by rw [hol]; exact hl)
    exact (List.getElem?_eq_some_iff.mp hb).1
  unfold TdmsFile.readChannelFrom
  rw [hpos]
  dsimp only
  rw [readPlan_eq start t.index.dataBlocks.length [locations segs c.path]
    (fun ls hls => by rw [List.mem_singleton.mp hls]; exact hvalid.1)
    (fun ls hls => by rw [List.mem_singleton.mp hls]; exact hvalid.2)]
  have hplan : plan start t.index.dataBlocks.length [locations segs c.path] = [] := by
    unfold plan
    apply filterMap_none
    intro B _
    cases hv : visit start B (locations segs c.path) with
    | none => unfold visitAll; simp [hv]
    | some pl =>
      exfalso
      obtain ⟨pre, _, hp, _, _, _, _, _, _, _, _, _, _, hst⟩ := visit_segs hv
      rw [(sampleCount_at hp c.path).2.1, samplesBefore_locations] at hst
      have : ((dataPrefixes segs).take (B + 1) |>.map (fun pre => samplesIn pre c.path)).sum ≤ sampleCount segs c.path := by
        unfold sampleCount
        have hsplit := List.take_append_drop (B + 1) (dataPrefixes segs)
        conv => rhs; rw [← hsplit]
        rw [List.map_append, List.sum_append]
        omega
      omega
  rw [hplan]
  rfl

theorem Image.answers_read (h : Image al s segs t) (ty : STy) (c : ChannelPath) (start : Nat)
    (out : List ty.Val) : s.Answers al (.read ty c start out) ((Query.read ty c start out).run al t) := by
  refine ⟨fun ho hnr => ?_, fun ho hrf ty' vals hcont => ?_, fun ho => ?_⟩
  · show (t.readChannelFrom (ty.storage al) c start out).map _ = _
    have hhas := (h.objects _).mpr ho
    unfold Store.samplesAs
    cases hcont : s.content c.path with
    | none =>
      have hcnt : s.count c.path = 0 := by unfold Store.count; rw [hcont]
      rw [h.past (ty.storage al) hhas (by rw [hcnt]; exact Nat.zero_le _) out]
      dsimp only
      rw [List.drop_nil, overlay_nil]
      rfl
    | some cv =>
      obtain ⟨ty', vals⟩ := cv
      dsimp only
      cases hra : Library.readAs ty ⟨ty', vals⟩ with
      | none =>
        rw [Option.getD_none, List.drop_nil, overlay_nil]
        by_cases hlt : start < s.count c.path
        · have hout : out = [] := Classical.byContradiction fun hne => hnr ⟨⟨_, hcont, hra⟩, hlt, hne⟩
          subst hout
          obtain ⟨p1, p2, _⟩ := h.present _ _ _ hcont
          rcases empty_read_alike (ty.storage al) (ty'.storage al) t c start with ⟨h1, _⟩ | ⟨e, _, h2⟩
          · rw [h1]; rfl
          · rw [read_window_regular_partial al ty' p1 h.refines h.size c ((h.listed _).mp hhas)
              (fun pre hpre hact => ⟨h.regular pre hpre, fun m hm => by
                rw [p2 pre hpre hact m hm]; exact STy.natural_mem al ty'⟩) start []] at h2
            cases h2
        · rw [h.past (ty.storage al) hhas (by omega) out]
          rfl
      | some vs =>
        obtain ⟨hord, hs, hreg⟩ := h.readAs hcont hra
        rw [read_window_regular_partial al ty hord h.refines h.size c ((h.listed _).mp hhas) hreg start out, hs]
        rfl
  · show (t.readChannelFrom (ty.storage al) c start out).map _ = _
    obtain ⟨⟨cv, hcv, hne⟩, hlt, hout⟩ := hrf
    rw [hcont] at hcv
    cases hcv
    obtain ⟨_, p2, _⟩ := h.present _ _ _ hcont
    obtain ⟨pre, m, hp, hm, he⟩ := (wrong_type_never_reinterprets (ty.storage al) h.refines
      ((h.listed _).mp ((h.objects _).mpr ho))
      (fun pre hpre hact m hm => by rw [p2 pre hpre hact m hm]; exact readAs_none al hne) start out hout).2
      (by rw [h.count]; exact hlt)
    rw [he, p2 pre hp.data hp.active m hm]
    rfl
  · show (t.readChannelFrom (ty.storage al) c start out).map _ = _
    rw [((missing_in_session t ⟨[]⟩ c []).2.2.2 _ (ty.storage al) start out).1 (fun hh => ho ((h.objects _).mp hh))]
    rfl

/-- The first channel that is not there is named. -/
theorem lookupPositions_missing {t : TdmsFile} {c : ChannelPath} (hc : ¬ t.Has c.path) (after : List ChannelPath) :
    ∀ before : List ChannelPath, (∀ d ∈ before, t.Has d.path) →
    t.lookupPositions (before ++ c :: after) = R.err (.missingObject c.path)
  | [], _ => by
    rw [has_get, Classical.not_not] at hc
    rw [List.nil_append]
    unfold TdmsFile.lookupPositions Index.getChannelDataPositions
    rw [hc]
    rfl
  | d :: before, h => by
    have hd := h d List.mem_cons_self
    rw [has_get] at hd
    rw [List.cons_append]
    unfold TdmsFile.lookupPositions
    rw [lookupPositions_missing hc after before (fun x hx => h x (List.mem_cons_of_mem _ hx))]
    unfold Index.getChannelDataPositions
    cases hg : t.index.objects.get? d.path with
    | none => exact absurd hg hd
    | some o => rfl

theorem Image.answers_readMany (h : Image al s segs t) (ty : STy)
    (cs : List (ChannelPath × List ty.Val)) (start : Nat) (hord : Format.ordinaryTy ty = true)
    (hdist : cs.Pairwise (fun c d => c.1.path ≠ d.1.path))
    (hshare : ∀ c ∈ cs, ∀ d ∈ cs, ∀ pre ∈ dataPrefixes segs, c.1.path ∈ active pre → d.1.path ∈ active pre →
      c.2.length = d.2.length ∧ sampleCount pre.dropLast c.1.path = sampleCount pre.dropLast d.1.path) :
    s.Answers al (.readMany ty cs start) ((Query.readMany ty cs start).run al t) := by
  have hS := STy.fixed al ty hord
  have hread : ∀ c ∈ cs, ReadableFrom everyType t.bytes segs c.1.path start := fun c _ pre hpre hact _ _ =>
    (h.regular pre hpre).readable h.refines hpre hact (fun m _ => mem_everyType _) start
  have hstep : ∀ c ∈ cs, ∀ d ∈ cs, InStep segs c.1.path d.1.path := by
    intro c hcm d hdm pre hpre hc1 hd1
    refine ⟨?_, (hshare c hcm d hdm pre hpre hc1 hd1).2⟩
    have hr := h.regular pre hpre
    obtain ⟨B, hB⟩ := List.mem_iff_getElem?.mp hpre
    obtain ⟨j, hj⟩ := Option.isSome_iff_exists.mp (List.isSome_idxOf?.mpr hc1)
    obtain ⟨k, hk⟩ := Option.isSome_iff_exists.mp (List.isSome_idxOf?.mpr hd1)
    obtain ⟨_, m, hm⟩ := layout_at h.refines hB hj
    obtain ⟨_, m', hm'⟩ := layout_at h.refines hB hk
    unfold valuesPerChunk
    rw [hm, hm']
    exact (hr.equal m (List.mem_filterMap.mpr ⟨_, hc1, hm⟩)).2 m' (List.mem_filterMap.mpr ⟨_, hd1, hm'⟩)
  have hlen : ∀ c ∈ cs, ∀ d ∈ cs, (∃ pre ∈ dataPrefixes segs, c.1.path ∈ active pre ∧ d.1.path ∈ active pre) →
      c.2.length = d.2.length := fun c hcm d hdm ⟨pre, hpre, hc1, hd1⟩ => (hshare c hcm d hdm pre hpre hc1 hd1).1
  -- what a channel can be
  have hkind : ∀ p, (s.content p = none ∧ ∀ pre ∈ dataPrefixes segs, p ∉ active pre) ∨
      (∃ ty' vals vs, s.content p = some ⟨ty', vals⟩ ∧ Library.readAs ty ⟨ty', vals⟩ = some vs) ∨
      ∃ ty' vals, s.content p = some ⟨ty', vals⟩ ∧ Library.readAs ty ⟨ty', vals⟩ = none := by
    intro p
    cases hcont : s.content p with
    | none => exact Or.inl ⟨rfl, h.absent p hcont⟩
    | some cv =>
      obtain ⟨ty', vals⟩ := cv
      cases hra : Library.readAs ty ⟨ty', vals⟩ with
      | none => exact Or.inr (Or.inr ⟨ty', vals, rfl, hra⟩)
      | some vs => exact Or.inr (Or.inl ⟨ty', vals, vs, rfl, hra⟩)
  refine ⟨fun hobj hnr => ?_, fun hobj hsome => ?_, fun before c after hcs hbefore hc => ?_⟩
  · show (t.readChannelsFrom (ty.storage al) (cs.map (·.1)) start (cs.map (·.2))).map _ = _
    rw [readChannelsFrom_plain hS h.refines h.size start cs (fun c hcm => (h.listed _).mp ((h.objects _).mpr (hobj c hcm)))
      hread hdist hstep hlen (fun c hcm hne pre hpre hact hst m hm => by
        rcases hkind c.1.path with ⟨_, hno⟩ | ⟨ty', vals, vs, hcont, hra⟩ | ⟨ty', vals, hcont, hra⟩
        · exact absurd hact (hno pre hpre)
        · exact ((h.readAs hcont hra).2.2 pre hpre hact).2 m hm
        · exfalso
          obtain ⟨B, hB⟩ := List.mem_iff_getElem?.mp hpre
          have hle := sampleCount_prefix_le hB c.1.path
          rw [h.count] at hle
          exact hnr c hcm ⟨⟨_, hcont, hra⟩, by omega, hne⟩)]
    show Except.ok (Reply.samplesMany ty _) = _
    congr 2
    apply List.map_congr_left
    intro c hcm
    unfold Store.samplesAs
    rcases hkind c.1.path with ⟨hcont, hno⟩ | ⟨ty', vals, vs, hcont, hra⟩ | ⟨ty', vals, hcont, hra⟩
    · rw [channelSamples_inactive _ _ hno, hcont]
    · rw [(h.readAs hcont hra).2.1, hcont]
      dsimp only
      rw [hra]
      rfl
    · rw [hcont]
      dsimp only
      rw [hra, Option.getD_none, List.drop_nil, overlay_nil]
      by_cases hlt : start < s.count c.1.path
      · have hout : c.2 = [] := Classical.byContradiction fun hne => hnr c hcm ⟨⟨_, hcont, hra⟩, hlt, hne⟩
        rw [hout]
        simp [overlay]
      · rw [List.drop_eq_nil_of_le (by
          rw [length_channelSamples h.refines, h.count]; omega), overlay_nil]
  · have hrefused : ∀ c ∈ cs, (Refused (ty.storage al) segs start c ↔ s.Refuses ty c.1.path start c.2) := by
      intro c hcm
      constructor
      · intro hr
        refine ⟨?_, by rw [← h.count]; exact hr.more, hr.room⟩
        obtain ⟨pre, hs⟩ := holdsSample_exists hr.more
        obtain ⟨B, hB⟩ := List.mem_iff_getElem?.mp hs.data
        obtain ⟨j, hj⟩ := Option.isSome_iff_exists.mp (List.isSome_idxOf?.mpr hs.active)
        obtain ⟨_, m, hm⟩ := layout_at h.refines hB hj
        rcases hkind c.1.path with ⟨_, hno⟩ | ⟨ty', vals, vs, hcont, hra⟩ | ⟨ty', vals, hcont, hra⟩
        · exact absurd hs.active (hno pre hs.data)
        · exact absurd (((h.readAs hcont hra).2.2 pre hs.data hs.active).2 m hm) (hr.other pre hs.data hs.active m hm)
        · exact ⟨_, hcont, hra⟩
      · rintro ⟨⟨⟨ty', vals⟩, hcont, hra⟩, hlt, hne⟩
        refine ⟨hne, by rw [h.count]; exact hlt, fun pre hpre hact m hm => ?_⟩
        rw [(h.present _ _ _ hcont).2.1 pre hpre hact m hm]
        exact readAs_none al hra
    obtain ⟨c0, hc0, href0⟩ := hsome
    obtain ⟨c, hcm, href, pre, hpre, hact, m, hm, heq⟩ := readChannelsFrom_refused hS h.refines h.size start cs
      (fun c hcm => (h.listed _).mp ((h.objects _).mpr (hobj c hcm))) hread hdist hstep hlen
      (fun c hcm => by
        rcases hkind c.1.path with ⟨_, hno⟩ | ⟨ty', vals, vs, hcont, hra⟩ | ⟨ty', vals, hcont, hra⟩
        · exact Or.inl fun pre hpre hact => absurd hact (hno pre hpre)
        · exact Or.inl fun pre hpre hact => ((h.readAs hcont hra).2.2 pre hpre hact).2
        · refine Or.inr fun pre hpre hact m hm => ?_
          rw [(h.present _ _ _ hcont).2.1 pre hpre hact m hm]
          exact readAs_none al hra)
      ⟨c0, hc0, (hrefused c0 hc0).mpr href0⟩
    have hrs := (hrefused c hcm).mp href
    obtain ⟨⟨⟨ty', vals⟩, hcont, hra⟩, _, _⟩ := hrs
    refine ⟨c, hcm, (hrefused c hcm).mp href, ty', vals, hcont, ?_⟩
    show (t.readChannelsFrom (ty.storage al) (cs.map (·.1)) start (cs.map (·.2))).map _ = _
    rw [heq, (h.present _ _ _ hcont).2.1 pre hpre hact m hm]
    rfl
  · show (t.readChannelsFrom (ty.storage al) (cs.map (·.1)) start (cs.map (·.2))).map _ = _
    subst hcs
    unfold TdmsFile.readChannelsFrom
    rw [List.map_append, List.map_cons, lookupPositions_missing (fun hh => hc ((h.objects _).mp hh)) _ _ (fun d hd => by
      obtain ⟨x, hx, rfl⟩ := List.mem_map.mp hd
      exact (h.objects _).mpr (hbefore x hx))]
    rfl

end
end Library
end Tedium
