import Verif.Spec.Crashes
import Verif.Proofs.Library
import Verif.Props.Crash

/-! # Helper lemmas: the library as a store that survives crashes -/

namespace Tedium
open SegSpec WriteSpec PlanSpec

namespace Library

section
variable {al : Alloc} {ops : List Op}

theorem Sound.left {a b : List Op} (h : Sound al (a ++ b)) : Sound al a where
  compatible := compatible_append a b _ h.compatible
  types := fun op hop op' hop' => h.types op (List.mem_append_left _ hop) op' (List.mem_append_left _ hop')
  size := by
    have := h.size
    rw [runOps_append] at this
    exact Nat.lt_of_le_of_lt (runOps_bytes al _ _).length_le this
  fits := fun op hop => h.fits op (List.mem_append_left _ hop)
  described := described_append a b _ h.described

theorem Sound.take (h : Sound al ops) (k : Nat) : Sound al (ops.take k) :=
  Sound.left (b := ops.drop k) (by rw [List.take_append_drop]; exact h)

theorem Sound.accepted (h : Sound al ops) : ∀ op ∈ ops, Accepted op = true := by
  intro op hop
  cases op with
  | props => rfl
  | write e ty chs vals layout =>
    have ht := compatible_table _ _ h.compatible e ty chs vals layout hop
    unfold Accepted
    rw [Bool.and_eq_true, Bool.not_eq_true', List.isEmpty_eq_false_iff, beq_iff_eq]
    exact ⟨ht.some_channel, Nat.mod_eq_zero_of_dvd ht.whole⟩

/-- The part of the file that is left is opened. -/
theorem cut_opens (hal : Generous al) (h : Sound al ops) {disk : Bytes} (hd : disk <+: (runOps al ⟨Index.new, []⟩ ops).bytes)
    {k : Nat} (hk : k ≤ ops.length)
    (hiff : ∀ j, j ≤ ops.length → ((runOps al ⟨Index.new, []⟩ (ops.take j)).bytes <+: disk ↔ j ≤ k))
    (hs : disk.length < bytesAfter al ops k + 4) :
    TdmsFile.new al disk = .ok ⟨(runOps al ⟨Index.new, []⟩ (ops.take k)).index, disk⟩ := by
  obtain ⟨k', hk', hiff', hlow, _⟩ := crash_recovery_partial al hal [] (fun _ h => by cases h) (t := ⟨Index.new, []⟩) rfl ops
    (holds_history al ops h.compatible h.size).1
    (fun op hop => by
      cases op with
      | props => trivial
      | write e ty chs vals layout => exact (compatible_table _ _ h.compatible e ty chs vals layout hop).distinct)
    h.fits h.described (by have := h.size; omega) disk (List.nil_prefix) hd
  have h1 : k ≤ k' := (hiff' k hk).mp ((hiff k hk).mpr (Nat.le_refl _))
  have h2 : k' ≤ k := (hiff k' hk').mp ((hiff' k' hk').mpr (Nat.le_refl _))
  obtain rfl : k = k' := Nat.le_antisymm h1 h2
  exact hlow hs

/-- The file holds what the store says. -/
theorem Sound.image {t : TdmsFile} (hs : Sound al ops) (hix : t.index = (runOps al ⟨Index.new, []⟩ ops).index)
    (hb : (runOps al ⟨Index.new, []⟩ ops).bytes <+: t.bytes) (hsz : t.bytes.length < 2 ^ 63) : ∃ segs, Holds al ops segs (runOps al ⟨Index.new, []⟩ ops) ∧
    Image al (storeOf ops) segs t := by
  obtain ⟨_, segs, H⟩ := holds_history al ops hs.compatible hs.size
  have I := H.image hs.compatible hs.types hs.size
  refine ⟨segs, H, ⟨by rw [hix]; exact I.refines, hsz, fun pre hpre => (I.regular pre hpre).grow hb, fun p => ?_, I.absent,
    fun p ty vals hc => ?_⟩⟩
  · rw [← I.objects, has_get, has_get, hix]
  · obtain ⟨h1, h2, h3⟩ := I.present p ty vals hc
    refine ⟨h1, h2, ?_⟩
    obtain ⟨g, hg⟩ := hb
    rcases one_type hs.types p with hno | ⟨ty', hty, hn⟩
    · rw [store_content_none _ _ hno] at hc
      cases hc
    · rw [store_content ops ty' p hty hn] at hc
      obtain ⟨e1, e2⟩ := Sigma.mk.inj (Option.some.inj hc)
      subst e1
      cases e2
      rw [← hg]
      exact H.samples ty' p hty g

theorem Sound.answers {t : TdmsFile} (hs : Sound al ops) (hix : t.index = (runOps al ⟨Index.new, []⟩ ops).index)
    (hb : (runOps al ⟨Index.new, []⟩ ops).bytes <+: t.bytes) (hsz : t.bytes.length < 2 ^ 63) (q : Query) (hq : Askable ops q) :
    (storeOf ops).Answers al q (q.run al t) := by
  obtain ⟨segs, H, I⟩ := hs.image hix hb hsz
  obtain ⟨ix, b⟩ := t
  obtain rfl : ix = (runOps al ⟨Index.new, []⟩ ops).index := hix
  cases q with
  | property path n => exact answers_property hs.compatible hs.size path n
  | properties path => exact answers_properties hs.compatible hs.size path
  | length c => exact answers_length hs.compatible hs.types hs.size c
  | read ty c start out => exact I.answers_read ty c start out
  | readMany ty cs start =>
    have ht : Library.Together ops cs := hq
    refine I.answers_readMany ty cs start ht.ordinary ht.distinct (fun c hcm d hdm pre hpre hc1 hd1 => ?_)
    obtain ⟨o1, op, o2, hsplit, hn1, hn2, e1, e2⟩ := H.shared hs.types pre hpre hc1 hd1
    exact ⟨ht.buffers c hcm d hdm ⟨op, by rw [hsplit]; exact List.mem_append_right _ List.mem_cons_self, hn1, hn2⟩,
      by rw [e1, e2]; exact ht.level c hcm d hdm o1 op o2 hsplit hn1 hn2⟩
  | groups => exact answers_groups hs.compatible hs.size hq
  | channels g => exact answers_channels hs.compatible hs.size hq g

end

/-- The open file `t` holds the calls `ops`, and maybe a small rest of a call; the first `synced` bytes are safe. -/
structure At (al : Alloc) (ops : List Op) (synced : Nat) (whole : Bool) (older : List Store) (t : TdmsFile) : Prop where
  index : t.index = (runOps al ⟨Index.new, []⟩ ops).index
  bytes : (runOps al ⟨Index.new, []⟩ ops).bytes <+: t.bytes
  rest : t.bytes.length < bytesAfter al ops ops.length + 4
  more : ∃ more, Sound al (ops ++ more) ∧ t.bytes <+: (runOps al ⟨Index.new, []⟩ (ops ++ more)).bytes ∧
    ∀ j, j ≤ (ops ++ more).length → (runOps al ⟨Index.new, []⟩ ((ops ++ more).take j)).bytes <+: t.bytes → j ≤ ops.length
  exact' : whole = true → t.bytes = (runOps al ⟨Index.new, []⟩ ops).bytes
  past : ∃ j, j ≤ ops.length ∧ synced = bytesAfter al ops j ∧ ∀ i, j ≤ i → i < ops.length → storeOf (ops.take i) ∈ older

section
variable {al : Alloc} {ops : List Op} {synced : Nat} {whole : Bool} {older : List Store} {t : TdmsFile}

theorem At.sound (h : At al ops synced whole older t) : Sound al ops := by
  obtain ⟨more, hs, _⟩ := h.more
  exact hs.left

theorem At.size (h : At al ops synced whole older t) : t.bytes.length < 2 ^ 63 := by
  obtain ⟨more, hs, hp, _⟩ := h.more
  exact Nat.lt_of_le_of_lt hp.length_le hs.size

/-- What a part of the file holds. -/
theorem At.cut (hal : Generous al) (h : At al ops synced whole older t) (kept k : Nat) (hk : k ≤ ops.length)
    (hiff : ∀ j, j ≤ ops.length → (bytesAfter al ops j ≤ kept ↔ j ≤ k)) (hlt : kept < bytesAfter al ops k + 4) :
    ∃ t', TdmsFile.new al (t.bytes.take kept) = .ok t' ∧
      ∀ older, At al (ops.take k) (bytesAfter al ops k) (kept == bytesAfter al ops k) older t' := by
  obtain ⟨more, hs, hp, hnext⟩ := h.more
  have htk : ∀ j, j ≤ ops.length → (ops ++ more).take j = ops.take j := fun j hj => List.take_append_of_le_length hj
  have hsub : ∀ j, j ≤ ops.length → (runOps al ⟨Index.new, []⟩ (ops.take j)).bytes <+: t.bytes := by
    intro j hj
    refine List.IsPrefix.trans ?_ h.bytes
    conv => rhs; rw [← List.take_append_drop j ops, runOps_append]
    exact runOps_bytes al _ _
  have hmin : (t.bytes.take kept).length = min kept t.bytes.length := List.length_take
  have hpre : t.bytes.take kept <+: t.bytes := List.take_prefix _ _
  have hall : ∀ j, j ≤ (ops ++ more).length →
      ((runOps al ⟨Index.new, []⟩ ((ops ++ more).take j)).bytes <+: t.bytes.take kept ↔ j ≤ k) := by
    intro j hj
    constructor
    · intro hh
      have hjo := hnext j hj (hh.trans hpre)
      rw [htk j hjo] at hh
      refine (hiff j hjo).mp ?_
      have := hh.length_le
      rw [hmin] at this
      exact Nat.le_trans this (Nat.min_le_left _ _)
    · intro hjk
      have hjo : j ≤ ops.length := Nat.le_trans hjk hk
      rw [htk j hjo]
      refine prefix_of_le (hsub j hjo) hpre ?_
      rw [hmin]
      exact Nat.le_min.mpr ⟨(hiff j hjo).mpr hjk, (hsub j hjo).length_le⟩
  have hfull : k ≤ (ops ++ more).length := by rw [List.length_append]; omega
  have hba : bytesAfter al (ops ++ more) k = bytesAfter al ops k := by unfold bytesAfter; rw [htk k hk]
  have hnew := cut_opens hal hs (hpre.trans hp) hfull hall (by rw [hmin, hba]; omega)
  rw [htk k hk] at hnew
  refine ⟨_, hnew, fun older => ⟨rfl, ?_, ?_, ⟨ops.drop k ++ more, ?_, ?_, ?_⟩, ?_, ⟨k, ?_, ?_, ?_⟩⟩⟩
  · have := (hall k hfull).mpr (Nat.le_refl _)
    rwa [htk k hk] at this
  · have hl : (ops.take k).length = k := List.length_take_of_le hk
    show (t.bytes.take kept).length < _
    rw [hmin, hl]
    unfold bytesAfter
    rw [List.take_take, Nat.min_self]
    have := hlt
    unfold bytesAfter at this
    omega
  · rw [← List.append_assoc, List.take_append_drop]; exact hs
  · rw [← List.append_assoc, List.take_append_drop]; exact hpre.trans hp
  · rw [← List.append_assoc, List.take_append_drop, List.length_take_of_le hk]
    exact fun j hj hh => (hall j hj).mp hh
  · intro hw
    have hkept : kept = bytesAfter al ops k := beq_iff_eq.mp hw
    have h1 := (hall k hfull).mpr (Nat.le_refl _)
    rw [htk k hk] at h1
    show t.bytes.take kept = _
    refine (List.IsPrefix.eq_of_length_le h1 ?_).symm
    rw [hmin, hkept]
    exact Nat.min_le_left _ _
  · rw [List.length_take_of_le hk]; exact Nat.le_refl _
  · unfold bytesAfter
    rw [List.take_take, Nat.min_self]
  · intro i h1 h2
    rw [List.length_take_of_le hk] at h2
    omega

theorem At.answers (h : At al ops synced whole older t) (q : Query) (hq : Askable ops q) :
    (storeOf ops).Answers al q (q.run al t) := h.sound.answers h.index h.bytes h.size q hq

/-- A call that is accepted. -/
theorem At.call (h : At al ops synced true older t) {op : Op} (hacc : Accepted op = true) (hs : Sound al (ops ++ [op])) :
    (op.run al t).1.map (fun _ => Reply.done) = ((storeOf ops).call op).1 ∧ ((storeOf ops).call op).2 = storeOf (ops ++ [op]) ∧
    At al (ops ++ [op]) synced true (storeOf ops :: older) (op.run al t).2 := by
  have ht : t = runOps al ⟨Index.new, []⟩ ops := by
    obtain ⟨ix, b⟩ := t
    obtain rfl : ix = _ := h.index
    obtain rfl : b = _ := h.exact' rfl
    rfl
  subst ht
  have hok := (holds_history al _ hs.compatible hs.size).1 ops op [] rfl
  have hcall : (storeOf ops).call op = (.ok .done, (storeOf ops).after op) := by
    cases op with
    | props => rfl
    | write e ty chs vals layout =>
      unfold Accepted at hacc
      rw [Bool.and_eq_true, Bool.not_eq_true', List.isEmpty_eq_false_iff, beq_iff_eq] at hacc
      unfold Store.call
      dsimp only
      rw [if_neg (fun hh => hacc.1 (List.length_eq_zero_iff.mp hh)), if_neg (fun hh => hh hacc.2)]
  have hrun : (op.run al (runOps al ⟨Index.new, []⟩ ops)).2 = runOps al ⟨Index.new, []⟩ (ops ++ [op]) := by
    rw [runOps_append]
    rfl
  rw [hcall, hok, hrun]
  refine ⟨rfl, (storeOf_snoc _ _).symm, rfl, List.prefix_rfl, ?_, ⟨[], ?_, ?_, ?_⟩, fun _ => rfl, ?_⟩
  · unfold bytesAfter
    rw [List.take_length]
    omega
  · rw [List.append_nil]; exact hs
  · rw [List.append_nil]; exact List.prefix_rfl
  · rw [List.append_nil]; exact fun j hj _ => hj
  · obtain ⟨j, h1, h2, h3⟩ := h.past
    have hj : (ops ++ [op]).take j = ops.take j := List.take_append_of_le_length h1
    refine ⟨j, by rw [List.length_append]; omega, by rw [h2]; unfold bytesAfter; rw [hj], fun i hi hlt => ?_⟩
    rw [List.length_append, List.length_singleton] at hlt
    rw [List.take_append_of_le_length (by omega)]
    by_cases hlast : i = ops.length
    · rw [hlast, List.take_length]; exact List.mem_cons_self
    · exact List.mem_cons_of_mem _ (h3 i hi (by omega))

/-- A call that is rejected. -/
theorem refused_call (s : Store) (t : TdmsFile) {op : Op} (hacc : Accepted op = false) :
    (op.run al t).1.map (fun _ => Reply.done) = (s.call op).1 ∧ (s.call op).2 = s ∧ (op.run al t).2 = t := by
  cases op with
  | props => cases hacc
  | write e ty chs vals layout =>
    have hmod : chs.length ≠ 0 → vals.length % chs.length ≠ 0 := by
      intro h0 hmod
      unfold Accepted at hacc
      dsimp only at hacc
      rw [hmod] at hacc
      cases chs with
      | nil => exact h0 rfl
      | cons c cs => cases hacc
    show (TdmsFile.writeChannels _ _ _ _ _ _).1.map _ = _ ∧ _ ∧ (TdmsFile.writeChannels _ _ _ _ _ _).2 = _
    unfold TdmsFile.writeChannels Store.call
    dsimp only
    by_cases h0 : chs.length = 0
    · rw [if_pos h0, if_pos h0]; exact ⟨rfl, rfl, rfl⟩
    · rw [if_neg h0, if_neg h0, if_pos (hmod h0), if_pos (hmod h0)]; exact ⟨rfl, rfl, rfl⟩

/-- More earlier states. -/
theorem At.weaken (h : At al ops synced whole older t) (s : Store) : At al ops synced whole (s :: older) t := by
  obtain ⟨j, h1, h2, h3⟩ := h.past
  exact { h with past := ⟨j, h1, h2, fun i hi hlt => List.mem_cons_of_mem _ (h3 i hi hlt)⟩ }

/-- Everything is safe. -/
theorem At.safe (h : At al ops synced whole older t) : At al ops (bytesAfter al ops ops.length) whole [] t :=
  { h with past := ⟨ops.length, Nat.le_refl _, rfl, fun i hi hlt => by omega⟩ }

/-- Opening the file again. -/
theorem At.reopen (hal : Generous al) (h : At al ops synced whole older t) : TdmsFile.new al t.bytes = .ok t := by
  obtain ⟨more, hs, hp, hnext⟩ := h.more
  have htk : (ops ++ more).take ops.length = ops := List.take_left
  have hnew := cut_opens hal hs hp (k := ops.length) (by rw [List.length_append]; omega)
    (fun j hj => ⟨hnext j hj, fun hj' => by
      rw [List.take_append_of_le_length hj']
      refine List.IsPrefix.trans ?_ h.bytes
      conv => rhs; rw [← List.take_append_drop j ops, runOps_append]
      exact runOps_bytes al _ _⟩)
    (by
      have := h.rest
      unfold bytesAfter at this ⊢
      rwa [htk, ← List.take_length (l := ops)])
  rw [htk, ← h.index] at hnew
  exact hnew

theorem survives_from (hal : Generous al) : ∀ (steps : List Step) (ops : List Op) (synced : Nat) (whole : Bool) (older : List Store)
    (t : TdmsFile), At al ops synced whole older t → Endures al ops synced whole steps →
    Survives al (storeOf ops) older (stepReplies al t steps)
  | [], _, _, _, _, _, _, _ => trivial
  | .command (.call op) :: steps, ops, synced, whole, older, t, h, he => by
    cases hacc : Accepted op with
    | true =>
      obtain ⟨hw, hs, hrest⟩ := he.1 hacc
      subst hw
      obtain ⟨h1, h2, h3⟩ := h.call hacc hs
      refine ⟨h1, ?_⟩
      rw [h2]
      exact survives_from hal steps _ _ _ _ _ h3 hrest
    | false =>
      obtain ⟨h1, h2, h3⟩ := refused_call (al := al) (storeOf ops) t hacc
      refine ⟨h1, ?_⟩
      rw [h2]
      show Survives al _ _ (stepReplies al (op.run al t).2 steps)
      rw [h3]
      exact survives_from hal steps _ _ _ _ _ (h.weaken _) (he.2 hacc)
  | .command (.ask q) :: steps, ops, synced, whole, older, t, h, he =>
    ⟨h.answers q he.1, survives_from hal steps _ _ _ _ _ h he.2⟩
  | .command .reopen :: steps, ops, synced, whole, older, t, h, he => by
    have hrun : (Step.command .reopen).run al t = (.ok .done, t) := by
      unfold Step.run Command.run
      dsimp only
      rw [h.reopen hal]
    show (((Step.command .reopen).run al t).1 = .ok .done) ∧ Survives al _ _ (stepReplies al ((Step.command .reopen).run al t).2 steps)
    rw [hrun]
    exact ⟨rfl, survives_from hal steps _ _ _ _ _ h.safe he⟩
  | .sync :: steps, ops, synced, whole, older, t, h, he => ⟨rfl, survives_from hal steps _ _ _ _ _ h.safe he⟩
  | .crash kept :: steps, ops, synced, whole, older, t, h, he => by
    obtain ⟨hsync, k, hk, hiff, hlt, hrest⟩ := he
    obtain ⟨t', hnew, hat⟩ := h.cut hal kept k hk hiff hlt
    have hrun : (Step.crash kept).run al t = (.ok .done, t') := by
      unfold Step.run
      dsimp only
      rw [hnew]
    show (((Step.crash kept).run al t).1 = .ok .done) ∧
      ∃ s' ∈ storeOf ops :: older, Survives al s' [] (stepReplies al ((Step.crash kept).run al t).2 steps)
    rw [hrun]
    refine ⟨rfl, storeOf (ops.take k), ?_, survives_from hal steps _ _ _ _ _ (hat []) hrest⟩
    obtain ⟨j, h1, h2, h3⟩ := h.past
    have hjk : j ≤ k := (hiff j h1).mp (by rw [← h2]; exact hsync)
    by_cases hlast : k = ops.length
    · rw [hlast, List.take_length]; exact List.mem_cons_self
    · exact List.mem_cons_of_mem _ (h3 k hjk (by omega))

end
end Library
end Tedium
