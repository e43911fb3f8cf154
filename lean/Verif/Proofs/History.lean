import Verif.Proofs.WriteStep
import Verif.Proofs.Mono
import Verif.Proofs.Session
import Verif.Props.Index

/-! # Helper lemmas: histories of writes -/

namespace Tedium
open SegSpec WriteSpec

theorem runOps_cons (al : Alloc) (t : TdmsFile) (op : Op) (ops : List Op) :
    runOps al t (op :: ops) = runOps al (op.run al t).2 ops := rfl

theorem runOps_append (al : Alloc) (t : TdmsFile) (a b : List Op) :
    runOps al t (a ++ b) = runOps al (runOps al t a) b := by
  unfold runOps; rw [List.foldl_append]

theorem allSucceed_cons (al : Alloc) (t : TdmsFile) (op : Op) (ops : List Op) :
    AllSucceed al t (op :: ops) ↔ (op.run al t).1 = .ok () ∧ AllSucceed al (op.run al t).2 ops := by
  unfold AllSucceed
  constructor
  · intro h
    refine ⟨h [] op ops rfl, ?_⟩
    intro pre o post hh
    have := h (op :: pre) o post (by rw [hh]; rfl)
    exact this
  · rintro ⟨h1, h2⟩ pre o post hh
    cases pre with
    | nil =>
      rw [List.nil_append] at hh
      injection hh with h3 h4
      subst h3
      exact h1
    | cons x pre =>
      rw [List.cons_append] at hh
      injection hh with h3 h4
      subst h3
      exact h2 pre o post h4

/-- Bytes are only appended. -/
theorem Op.run_bytes (al : Alloc) (t : TdmsFile) (op : Op) : t.bytes <+: (op.run al t).2.bytes := by
  cases op with
  | write e ty channels vals layout =>
    show t.bytes <+: (t.writeChannels (ty.storage al) e channels vals layout).2.bytes
    unfold TdmsFile.writeChannels
    split
    · exact List.prefix_rfl
    · split
      · exact List.prefix_rfl
      · exact List.prefix_append _ _
  | props e path properties => exact List.prefix_append _ _

theorem runOps_bytes (al : Alloc) (t : TdmsFile) (ops : List Op) : t.bytes <+: (runOps al t ops).bytes := by
  induction ops generalizing t with
  | nil => exact List.prefix_rfl
  | cons op ops ih => exact (Op.run_bytes al t op).trans (ih _)

/-- The new data prefix `pre` holds data of channels named by the call, of the call's type. -/
def NewData (al : Alloc) (f : Bytes) (ops : List Op) (pre : List Segment) : Prop :=
  Regular f pre ∧ ∃ op ∈ ops, ∃ ty, typeOf op = some ty ∧ Format.ordinaryTy ty = true ∧
    ∀ p ∈ active pre, Names p op ∧ ∀ m, layoutOf (entries pre) p = some m → m.dataType ∈ (ty.storage al).supported

theorem channelSamples_snoc_none {α : Type} (dec : Endian → Bytes → α) (f : Bytes) (segs : List Segment) (s : Segment)
    (path : Text) (h : s.toc.containsRawData = false) :
    channelSamples dec f (segs ++ [s]) path = channelSamples dec f segs path := by
  rw [channelSamples_snoc, h]; simp

/-- `last` describes the active channels of the segments, which are stored as one of the types `sup ty`. -/
structure LastIsIn (sup : STy → List DataType) (segs : List Segment) (last : Last) : Prop where
  channels : active segs = last.channels
  format : ∀ ty m, last.format = some (ty, m) → 0 < m ∧ Uniform (sup ty) segs last.channels m

theorem lastIs_iff {al : Alloc} {segs : List Segment} {last : Last} :
    LastIs al segs last ↔ LastIsIn (fun ty => (ty.storage al).supported) segs last :=
  ⟨fun h => ⟨h.channels, h.format⟩, fun h => ⟨h.channels, h.format⟩⟩

theorem uniform_mono {sup sup' : List DataType} (hs : ∀ d ∈ sup, d ∈ sup') {segs : List Segment} {ps : List Text} {m : Nat}
    (h : Uniform sup segs ps m) : Uniform sup' segs ps m where
  active := h.active
  layout := fun p hp => by
    obtain ⟨l, h1, h2, h3⟩ := h.layout p hp
    exact ⟨l, h1, hs _ h2, h3⟩

/-- **One call** of a history. -/
theorem history_step (al : Alloc) (sup : STy → List DataType) (hnat : ∀ ty : STy, (ty.storage al).natural ∈ sup ty)
    (hsub : ∀ (ty : STy), ∀ d ∈ sup ty, d ∈ (ty.storage al).supported) {segs : List Segment} {t : TdmsFile} {last : Last}
    (hx : Exact segs t) (hl : LastIsIn sup segs last) (op : Op) (hfol : Follows last op)
    (hsz1 : (op.run al t).2.bytes.length < 2 ^ 63) :
    ∃ t', op.run al t = (.ok (), t') ∧ ∃ s, Exact (segs ++ [s]) t' ∧ LastIsIn sup (segs ++ [s]) (last.after op) ∧
      (s.toc.containsRawData = true → (∀ g, Regular (t'.bytes ++ g) (segs ++ [s])) ∧
        ∃ ty, typeOf op = some ty ∧ Format.ordinaryTy ty = true ∧ (∀ p, p ∈ active (segs ++ [s]) ↔ Names p op) ∧
          ∀ p, Names p op → ∀ m, layoutOf (entries (segs ++ [s])) p = some m → m.dataType ∈ sup ty) ∧
      (∀ p, Names p op → Listed (entries (segs ++ [s])) p) ∧
      ∀ ty p, (Names p op → typeOf op = some ty) → ∀ g,
        channelSamples (Format.decode ty) (t'.bytes ++ g) (segs ++ [s]) p
          = channelSamples (Format.decode ty) (t'.bytes ++ g) segs p ++ valuesFor ty p op := by
  cases op with
  | props e path properties =>
    obtain ⟨t', h1, _, h3⟩ := property_step hx e path properties (by
      have : (t.writeProperties e path properties).2.bytes.length < 2 ^ 63 := hsz1
      omega)
    obtain ⟨f1, f2, f3⟩ := property_frame segs e path properties
    refine ⟨t', h1, _, h3, ⟨f1.trans hl.channels, ?_⟩, ?_, fun p h => absurd h id, ?_⟩
    · intro ty m hf
      obtain ⟨hm, hu⟩ := hl.format ty m hf
      exact ⟨hm, ⟨f1.trans hu.active, fun p hp => by rw [f2 p]; exact hu.layout p hp⟩⟩
    · intro hh; rw [f3] at hh; cases hh
    · intro ty p _ g
      rw [channelSamples_snoc_none _ _ _ _ _ f3]
      exact (List.append_nil _).symm
  | write e ty chs vals layout =>
    obtain ⟨htab, hcase⟩ := hfol
    have hk : 0 < chs.length := List.length_pos_iff.mpr htab.some_channel
    have hps : (chs.map ChannelPath.path).length = chs.length := List.length_map _
    have hn0 : 0 < vals.length / chs.length := by
      obtain ⟨n, hn⟩ := htab.whole
      rw [hn, Nat.mul_div_cancel_left _ hk]
      rcases Nat.eq_zero_or_pos n with h0 | h0
      · rw [h0, Nat.mul_zero] at hn
        exact absurd (List.length_eq_zero_iff.mp hn) htab.some_value
      · exact h0
    have hboth : ∃ m, 0 < m ∧ Uniform (sup ty)
        (segs ++ [(writtenSegment (ty.storage al) e segs (chs.map ChannelPath.path) vals layout).1])
        (chs.map ChannelPath.path) m ∧ (vals.length / chs.length = m ∨
          m ∣ vals.length / chs.length ∧ (chs.length = 1 ∨ layout = .interleaved)) ∧
        LastIsIn sup (segs ++ [(writtenSegment (ty.storage al) e segs (chs.map ChannelPath.path) vals layout).1])
          (last.after (.write e ty chs vals layout)) := by
      by_cases hd : Diverges last.channels (chs.map ChannelPath.path)
      · have hd' : Diverges (active segs) (chs.map ChannelPath.path) := by rw [hl.channels]; exact hd
        have hu := uniform_fresh (S := ty.storage al) e vals layout hd' htab.distinct (hnat ty)
        rw [hps] at hu
        refine ⟨_, hn0, hu, Or.inl rfl, ?_⟩
        unfold Last.after
        dsimp only
        rw [if_pos hd]
        refine ⟨hu.active, ?_⟩
        rintro ty' m' h'
        cases h'
        exact ⟨hn0, hu⟩
      · rcases hcase with hh | ⟨hch, m, hf, hm⟩
        · exact absurd hh hd
        · obtain ⟨hm0, hu⟩ := hl.format ty m hf
          have hd' : ¬ Diverges (active segs) (chs.map ChannelPath.path) := by rw [hl.channels]; exact hd
          have hu' := uniform_live (S := ty.storage al) (ps' := chs.map ChannelPath.path) e vals layout hd' (by rw [← hch]; exact hu)
          refine ⟨m, hm0, hu', hm, ?_⟩
          unfold Last.after
          dsimp only
          rw [if_neg hd]
          refine ⟨hu'.active.trans hch.symm, ?_⟩
          intro ty' m' hf'
          rw [hf] at hf'
          cases hf'
          exact ⟨hm0, by rw [hch]; exact hu'⟩
    obtain ⟨m, hm0, hu, hm, hlast⟩ := hboth
    obtain ⟨t', h1, _, h3, h4, _, h6⟩ := write_step al ty hx e chs vals layout htab (uniform_mono (hsub ty) hu) hm0 hm hsz1
    refine ⟨t', h1, _, h3, hlast, ?_, ?_, ?_⟩
    · intro _
      refine ⟨h4, ty, rfl, htab.ordinary, fun p => by rw [hu.active]; exact List.mem_map, ?_⟩
      intro p hp l hl'
      obtain ⟨l', hl'', hs, _⟩ := hu.layout p (List.mem_map.mpr hp)
      rw [hl''] at hl'
      cases hl'
      exact hs
    · intro p hp
      obtain ⟨l, hl', _⟩ := hu.layout p (List.mem_map.mpr hp)
      exact layoutOf_listed hl'
    · intro ty' p hty g
      rw [channelSamples_snoc, (writtenSegment_fields (ty.storage al) e segs _ vals layout).1, if_pos rfl]
      congr 1
      unfold valuesFor
      dsimp only
      by_cases heq : ty = ty'
      · subst heq
        rw [dif_pos rfl, h6 p g]
        cases (chs.map ChannelPath.path).idxOf? p <;> rfl
      · rw [dif_neg heq]
        unfold lastSamples
        rw [hu.active]
        have : (chs.map ChannelPath.path).idxOf? p = none := by
          rw [idxOf?_eq_none]
          intro hp
          have := hty (List.mem_map.mp hp)
          injection this with this
          exact heq this
        rw [this]
        split
        · rename_i hh _; cases hh
        · rfl

/-- **Histories**, with what the channel list in force is afterwards. -/
theorem history_last (al : Alloc) : ∀ (ops : List Op) (segs : List Segment) (t : TdmsFile) (last : Last),
    Exact segs t → LastIs al segs last → Compatible last ops → (runOps al t ops).bytes.length < 2 ^ 63 →
    AllSucceed al t ops ∧ ∃ more, Exact (segs ++ more) (runOps al t ops) ∧
      LastIs al (segs ++ more) (ops.foldl Last.after last) ∧
      (∀ pre ∈ dataPrefixes (segs ++ more), pre ∈ dataPrefixes segs ∨ NewData al (runOps al t ops).bytes ops pre) ∧
      (∀ p, (∃ op ∈ ops, Names p op) → Listed (entries (segs ++ more)) p) ∧
      ∀ ty p, (∀ op ∈ ops, Names p op → typeOf op = some ty) → ∀ g,
        channelSamples (Format.decode ty) ((runOps al t ops).bytes ++ g) (segs ++ more) p
          = channelSamples (Format.decode ty) ((runOps al t ops).bytes ++ g) segs p ++ written ty p ops := by
  intro ops
  induction ops with
  | nil =>
    intro segs t last hx hl _ _
    refine ⟨fun pre op post h => by simp at h, [], by rw [List.append_nil]; exact hx, by rw [List.append_nil]; exact hl, ?_, ?_, ?_⟩
    · intro pre hpre; rw [List.append_nil] at hpre; exact Or.inl hpre
    · rintro p ⟨op, h, _⟩; simp at h
    · intro ty p _ g
      rw [List.append_nil]
      show _ = _ ++ []
      rw [List.append_nil]
  | cons op ops ih =>
    intro segs t last hx hl hc hsz
    rw [runOps_cons] at hsz ⊢
    obtain ⟨hfol, hcomp⟩ := hc
    rw [allSucceed_cons]
    have hsz1 : (op.run al t).2.bytes.length < 2 ^ 63 :=
      Nat.lt_of_le_of_lt (runOps_bytes al _ ops).length_le hsz
    -- what one call gives
    have hstep : ∃ t', op.run al t = (.ok (), t') ∧ ∃ s, Exact (segs ++ [s]) t' ∧ LastIs al (segs ++ [s]) (last.after op) ∧
        (s.toc.containsRawData = true → ∀ g, NewData al (t'.bytes ++ g) [op] (segs ++ [s])) ∧
        (∀ p, Names p op → Listed (entries (segs ++ [s])) p) ∧
        ∀ ty p, (Names p op → typeOf op = some ty) → ∀ g,
          channelSamples (Format.decode ty) (t'.bytes ++ g) (segs ++ [s]) p
            = channelSamples (Format.decode ty) (t'.bytes ++ g) segs p ++ valuesFor ty p op := by
      obtain ⟨t', h1, s, h2, h3, h4, h5⟩ := history_step al (fun ty => (ty.storage al).supported) (STy.natural_mem al)
        (fun _ _ h => h) hx (lastIs_iff.mp hl) op hfol hsz1
      refine ⟨t', h1, s, h2, lastIs_iff.mpr h3, fun hraw g => ?_, h5⟩
      obtain ⟨hr, ty, hty, hord, hact, hlay⟩ := h4 hraw
      exact ⟨hr g, op, List.mem_singleton.mpr rfl, ty, hty, hord, fun p hp => ⟨(hact p).mp hp, hlay p ((hact p).mp hp)⟩⟩
    obtain ⟨t', hrun, s, hx', hl', hnew, hlist, hsam⟩ := hstep
    rw [hrun] at hsz hsz1 ⊢
    obtain ⟨hall, more, hx'', hl'', hpre, hlisted, hsamples⟩ := ih (segs ++ [s]) t' (last.after op) hx' hl' hcomp hsz
    obtain ⟨g1, hg1⟩ := runOps_bytes al t' ops
    refine ⟨⟨rfl, hall⟩, s :: more, ?_, ?_, ?_, ?_, ?_⟩
    · rw [List.append_cons]; exact hx''
    · rw [List.append_cons]; exact hl''
    · intro pre hp
      rw [List.append_cons] at hp
      rcases hpre pre hp with hp | ⟨hr, o, ho, hrest⟩
      · rw [dataPrefixes_snoc] at hp
        rcases List.mem_append.mp hp with hp | hp
        · exact Or.inl hp
        · split at hp
          · rename_i hraw
            rw [List.mem_singleton.mp hp]
            obtain ⟨hr, o, ho, hrest⟩ := hnew hraw g1
            rw [hg1] at hr
            exact Or.inr ⟨hr, o, by rw [List.mem_singleton.mp ho]; exact List.mem_cons_self, hrest⟩
          · cases hp
      · exact Or.inr ⟨hr, o, List.mem_cons_of_mem _ ho, hrest⟩
    · rintro p ⟨o, ho, hn⟩
      rw [List.append_cons]
      rcases List.mem_cons.mp ho with rfl | ho
      · unfold entries at hlist ⊢
        rw [List.flatMap_append]
        exact (listed_append _ _ _).mpr (Or.inl (hlist p hn))
      · exact hlisted p ⟨o, ho, hn⟩
    · intro ty p hty g
      rw [List.append_cons, hsamples ty p (fun o ho => hty o (List.mem_cons_of_mem _ ho)) g]
      have := hsam ty p (hty op List.mem_cons_self) (g1 ++ g)
      rw [← List.append_assoc, hg1] at this
      rw [this, List.append_assoc]
      rfl

/-- **Histories.** -/
theorem history (al : Alloc) (ops : List Op) (segs : List Segment) (t : TdmsFile) (last : Last)
    (hx : Exact segs t) (hl : LastIs al segs last) (hc : Compatible last ops)
    (hsz : (runOps al t ops).bytes.length < 2 ^ 63) :
    AllSucceed al t ops ∧ ∃ more, Exact (segs ++ more) (runOps al t ops) ∧
      (∀ pre ∈ dataPrefixes (segs ++ more), pre ∈ dataPrefixes segs ∨ NewData al (runOps al t ops).bytes ops pre) ∧
      (∀ p, (∃ op ∈ ops, Names p op) → Listed (entries (segs ++ more)) p) ∧
      ∀ ty p, (∀ op ∈ ops, Names p op → typeOf op = some ty) → ∀ g,
        channelSamples (Format.decode ty) ((runOps al t ops).bytes ++ g) (segs ++ more) p
          = channelSamples (Format.decode ty) ((runOps al t ops).bytes ++ g) segs p ++ written ty p ops := by
  obtain ⟨h1, more, h2, _, h3, h4, h5⟩ := history_last al ops segs t last hx hl hc hsz
  exact ⟨h1, more, h2, h3, h4, h5⟩

end Tedium
