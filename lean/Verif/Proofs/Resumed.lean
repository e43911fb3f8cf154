import Verif.Spec.Resumed
import Verif.Proofs.Crashes
import Verif.Proofs.Existing

/-! # Helper lemmas: the library as a store that survives crashes, on files that exist -/

namespace Tedium
open SegSpec WriteSpec PlanSpec

namespace Library

/-- The store after some calls. -/
abbrev storeFrom (s : Store) (ops : List Op) : Store := ops.foldl Store.after s

theorem storeFrom_snoc (s : Store) (ops : List Op) (op : Op) : storeFrom s (ops ++ [op]) = (storeFrom s ops).after op :=
  List.foldl_append

section
variable {al : Alloc} {fs : List FileSegment} {t0 : TdmsFile} {ty : Text → STy} {last : Last} {ops : List Op}

local notation "S0" => storeIn ty (TdmsFile.bytes t0) (List.map FileSegment.segment fs)

theorem SoundOn.left {s : Store} {a b : List Op} (h : SoundOn al t0 s last (a ++ b)) : SoundOn al t0 s last a where
  compatible := compatible_append a b _ h.compatible
  types := fun op hop op' hop' => h.types op (List.mem_append_left _ hop) op' (List.mem_append_left _ hop')
  fileTypes := fun op hop => h.fileTypes op (List.mem_append_left _ hop)
  size := by
    have := h.size
    rw [runOps_append] at this
    exact Nat.lt_of_le_of_lt (runOps_bytes al _ _).length_le this
  fits := fun op hop => h.fits op (List.mem_append_left _ hop)
  described := described_append a b _ h.described

theorem SoundOn.models (h : SoundOn al t0 S0 last ops) (he : Existing al fs t0 ty last) : AllSucceed al t0 ops ∧
    ∃ segs, Models al (storeFrom S0 ops) (ops.foldl Last.after last) segs (runOps al t0 ops) ∧
      Linked (fs.map FileSegment.segment) S0 ops segs :=
  models_history (he.models (Nat.lt_of_le_of_lt (runOps_bytes al t0 ops).length_le h.size)) ops h.compatible h.types h.fileTypes h.size

/-- The part of the file that is left is opened. -/
theorem Existing.cut_opens (he : Existing al fs t0 ty last) (h : SoundOn al t0 S0 last ops) {disk : Bytes} (hd : disk <+: (runOps al t0 ops).bytes)
    {k : Nat} (hk : k ≤ ops.length)
    (hiff : ∀ j, j ≤ ops.length → ((runOps al t0 (ops.take j)).bytes <+: disk ↔ j ≤ k))
    (hs : disk.length < bytesAt al t0 ops k + 4) :
    TdmsFile.new al disk = .ok ⟨(runOps al t0 (ops.take k)).index, disk⟩ := by
  have hh := _root_.Tedium.Holds.of_opened al he.generous he.fits he.opened
  have hact : last.channels = t0.index.activeObjects.map (·.path) := by
    rw [← he.channels]
    exact (replay_refines hh.index).obj.paths.symm
  obtain ⟨k', hk', hiff', hlow, _⟩ := recover al he.generous disk ops fs t0 last hh (.opened he.opened) hact (h.models he).1
    (fun op hop => by
      cases op with
      | props => trivial
      | write e ty chs vals layout => exact (compatible_table _ _ h.compatible e ty chs vals layout hop).distinct)
    h.fits h.described (by have := h.size; omega) ((hiff 0 (Nat.zero_le _)).mpr (Nat.zero_le _)) hd
  have h1 : k ≤ k' := (hiff' k hk).mp ((hiff k hk).mpr (Nat.le_refl _))
  have h2 : k' ≤ k := (hiff k' hk').mp ((hiff' k' hk').mpr (Nat.le_refl _))
  obtain rfl : k = k' := Nat.le_antisymm h1 h2
  exact hlow hs

theorem SoundOn.answers {t : TdmsFile} (hs : SoundOn al t0 S0 last ops) (he : Existing al fs t0 ty last)
    (hix : t.index = (runOps al t0 ops).index) (hb : (runOps al t0 ops).bytes <+: t.bytes) (hsz : t.bytes.length < 2 ^ 63)
    (q : Query) (hq : AskableOn (fs.map FileSegment.segment) S0 ops q) : (storeFrom S0 ops).Answers al q (q.run al t) := by
  obtain ⟨_, segs, H, L⟩ := hs.models he
  have I : Image al (storeFrom S0 ops) segs t := by
    refine ⟨by rw [hix]; exact H.image.refines, hsz, fun pre hpre => (H.regular pre hpre).grow hb, fun p => ?_, H.absent,
      fun p ty vals hc => ?_⟩
    · rw [← H.objects, has_get, has_get, hix]
    · obtain ⟨h1, h2, h3⟩ := H.present p ty vals hc
      obtain ⟨g, hg⟩ := hb
      refine ⟨h1, h2, ?_⟩
      rw [← hg]
      exact h3 g (by rw [hg]; exact hsz)
  have hclean : (∀ op ∈ ops, Tidy op) ∧ (∀ p, (S0).objects p → ∃ o : Obj, o.SlashFree ∧ o.toPath.path = p) →
      ∀ p, (storeFrom S0 ops).objects p → ∃ o : Obj, o.SlashFree ∧ o.toPath.path = p := by
    rintro ⟨hl1, hl2⟩ p hp
    rcases (after_objects _ _ p).mp hp with hp | ⟨op, hop, hm⟩
    · exact hl2 p hp
    · have := hl1 op hop
      cases op with
      | props e path ps =>
        obtain ⟨o, h1, h2⟩ := this
        exact ⟨o, h1, by rw [h2]; exact hm.symm⟩
      | write e ty chs vals layout =>
        obtain ⟨c, hcm, hcp⟩ := List.mem_map.mp hm
        obtain ⟨o, h1, h2⟩ := this c hcm
        exact ⟨o, h1, h2.trans hcp⟩
  obtain ⟨ix, b⟩ := t
  obtain rfl : ix = (runOps al t0 ops).index := hix
  cases q with
  | property path n => exact H.answers_property path n
  | properties path => exact H.answers_properties path
  | length c => exact H.answers_length c
  | read ty c start out => exact I.answers_read ty c start out
  | readMany ty cs start =>
    have ht : TogetherOn _ _ ops cs := hq
    refine I.answers_readMany ty cs start ht.ordinary ht.distinct (fun c hcm d hdm pre hpre hc1 hd1 => ?_)
    rcases L pre hpre with hp | ⟨o1, op, o2, hsplit, hnm, hcnt⟩
    · exact ht.file c hcm d hdm pre hp hc1 hd1
    · have hn1 := (hnm _).mp hc1
      have hn2 := (hnm _).mp hd1
      refine ⟨ht.buffers c hcm d hdm ⟨op, by rw [hsplit]; exact List.mem_append_right _ List.mem_cons_self, hn1, hn2⟩, ?_⟩
      rw [hcnt, hcnt]
      exact ht.level c hcm d hdm o1 op o2 hsplit hn1 hn2
  | groups => exact H.answers_groups (hclean hq)
  | channels g => exact H.answers_channels (hclean hq) g

end

/-- The open file `t` holds what `t0` held, and the calls `ops`, and maybe a small rest of a call; the first `synced` bytes are safe. -/
structure AtOn (al : Alloc) (t0 : TdmsFile) (s : Store) (last : Last) (ops : List Op) (synced : Nat) (whole : Bool) (older : List Store)
    (t : TdmsFile) : Prop where
  index : t.index = (runOps al t0 ops).index
  bytes : (runOps al t0 ops).bytes <+: t.bytes
  rest : t.bytes.length < bytesAt al t0 ops ops.length + 4
  more : ∃ more, SoundOn al t0 s last (ops ++ more) ∧ t.bytes <+: (runOps al t0 (ops ++ more)).bytes ∧
    ∀ j, j ≤ (ops ++ more).length → (runOps al t0 ((ops ++ more).take j)).bytes <+: t.bytes → j ≤ ops.length
  exact' : whole = true → t.bytes = (runOps al t0 ops).bytes
  past : ∃ j, j ≤ ops.length ∧ synced = bytesAt al t0 ops j ∧ ∀ i, j ≤ i → i < ops.length → storeFrom s (ops.take i) ∈ older

section
variable {al : Alloc} {fs : List FileSegment} {t0 : TdmsFile} {ty : Text → STy} {last : Last} {ops : List Op} {synced : Nat}
  {whole : Bool} {older : List Store} {t : TdmsFile}

local notation "S0" => storeIn ty (TdmsFile.bytes t0) (List.map FileSegment.segment fs)

theorem AtOn.sound (h : AtOn al t0 S0 last ops synced whole older t) : SoundOn al t0 S0 last ops := by
  obtain ⟨more, hs, _⟩ := h.more
  exact hs.left

theorem AtOn.size (h : AtOn al t0 S0 last ops synced whole older t) : t.bytes.length < 2 ^ 63 := by
  obtain ⟨more, hs, hp, _⟩ := h.more
  exact Nat.lt_of_le_of_lt hp.length_le hs.size

/-- What a part of the file holds. -/
theorem AtOn.cut (he : Existing al fs t0 ty last) (h : AtOn al t0 S0 last ops synced whole older t) (kept k : Nat) (hk : k ≤ ops.length)
    (hiff : ∀ j, j ≤ ops.length → (bytesAt al t0 ops j ≤ kept ↔ j ≤ k)) (hlt : kept < bytesAt al t0 ops k + 4) :
    ∃ t', TdmsFile.new al (t.bytes.take kept) = .ok t' ∧
      ∀ older, AtOn al t0 S0 last (ops.take k) (bytesAt al t0 ops k) (kept == bytesAt al t0 ops k) older t' := by
  obtain ⟨more, hs, hp, hnext⟩ := h.more
  have htk : ∀ j, j ≤ ops.length → (ops ++ more).take j = ops.take j := fun j hj => List.take_append_of_le_length hj
  have hsub : ∀ j, j ≤ ops.length → (runOps al t0 (ops.take j)).bytes <+: t.bytes := by
    intro j hj
    refine List.IsPrefix.trans ?_ h.bytes
    conv => rhs; rw [← List.take_append_drop j ops, runOps_append]
    exact runOps_bytes al _ _
  have hmin : (t.bytes.take kept).length = min kept t.bytes.length := List.length_take
  have hpre : t.bytes.take kept <+: t.bytes := List.take_prefix _ _
  have hall : ∀ j, j ≤ (ops ++ more).length →
      ((runOps al t0 ((ops ++ more).take j)).bytes <+: t.bytes.take kept ↔ j ≤ k) := by
    intro j hj
    constructor
    · intro hh
      have hjo := hnext j hj (hh.trans hpre)
      rw [htk j hjo] at hh
      refine (hiff j hjo).mp ?_
      have := hh.length_le
      rw [hmin] at this
      exact Nat.le_trans this (Nat.min_le_left _ _)
    · intro hjk
      have hjo : j ≤ ops.length := Nat.le_trans hjk hk
      rw [htk j hjo]
      refine prefix_of_le (hsub j hjo) hpre ?_
      rw [hmin]
      exact Nat.le_min.mpr ⟨(hiff j hjo).mpr hjk, (hsub j hjo).length_le⟩
  have hfull : k ≤ (ops ++ more).length := by rw [List.length_append]; omega
  have hba : bytesAt al t0 (ops ++ more) k = bytesAt al t0 ops k := by unfold bytesAt; rw [htk k hk]
  have hnew := he.cut_opens hs (hpre.trans hp) hfull hall (by rw [hmin, hba]; omega)
  rw [htk k hk] at hnew
  refine ⟨_, hnew, fun older => ⟨rfl, ?_, ?_, ⟨ops.drop k ++ more, ?_, ?_, ?_⟩, ?_, ⟨k, ?_, ?_, ?_⟩⟩⟩
  · have := (hall k hfull).mpr (Nat.le_refl _)
    rwa [htk k hk] at this
  · have hl : (ops.take k).length = k := List.length_take_of_le hk
    show (t.bytes.take kept).length < _
    rw [hmin, hl]
    unfold bytesAt
    rw [List.take_take, Nat.min_self]
    have := hlt
    unfold bytesAt at this
    omega
  · rw [← List.append_assoc, List.take_append_drop]; exact hs
  · rw [← List.append_assoc, List.take_append_drop]; exact hpre.trans hp
  · rw [← List.append_assoc, List.take_append_drop, List.length_take_of_le hk]
    exact fun j hj hh => (hall j hj).mp hh
  · intro hw
    have hkept : kept = bytesAt al t0 ops k := beq_iff_eq.mp hw
    have h1 := (hall k hfull).mpr (Nat.le_refl _)
    rw [htk k hk] at h1
    show t.bytes.take kept = _
    refine (List.IsPrefix.eq_of_length_le h1 ?_).symm
    rw [hmin, hkept]
    exact Nat.min_le_left _ _
  · rw [List.length_take_of_le hk]; exact Nat.le_refl _
  · unfold bytesAt
    rw [List.take_take, Nat.min_self]
  · intro i h1 h2
    rw [List.length_take_of_le hk] at h2
    omega

theorem AtOn.answers (he : Existing al fs t0 ty last) (h : AtOn al t0 S0 last ops synced whole older t) (q : Query)
    (hq : AskableOn (fs.map FileSegment.segment) S0 ops q) :
    (storeFrom S0 ops).Answers al q (q.run al t) :=
  h.sound.answers he h.index h.bytes h.size q hq

/-- A call that is accepted. -/
theorem AtOn.call (he : Existing al fs t0 ty last) (h : AtOn al t0 S0 last ops synced true older t) {op : Op}
    (hacc : Accepted op = true) (hs : SoundOn al t0 S0 last (ops ++ [op])) :
    (op.run al t).1.map (fun _ => Reply.done) = ((storeFrom S0 ops).call op).1 ∧ ((storeFrom S0 ops).call op).2 = storeFrom S0 (ops ++ [op]) ∧
    AtOn al t0 S0 last (ops ++ [op]) synced true (storeFrom S0 ops :: older) (op.run al t).2 := by
  have ht : t = runOps al t0 ops := by
    obtain ⟨ix, b⟩ := t
    obtain rfl : ix = _ := h.index
    obtain rfl : b = _ := h.exact' rfl
    rfl
  subst ht
  have hok := (hs.models he).1 ops op [] rfl
  have hcall : (storeFrom S0 ops).call op = (.ok .done, (storeFrom S0 ops).after op) := by
    cases op with
    | props => rfl
    | write e ty chs vals layout =>
      unfold Accepted at hacc
      rw [Bool.and_eq_true, Bool.not_eq_true', List.isEmpty_eq_false_iff, beq_iff_eq] at hacc
      unfold Store.call
      dsimp only
      rw [if_neg (fun hh => hacc.1 (List.length_eq_zero_iff.mp hh)), if_neg (fun hh => hh hacc.2)]
  have hrun : (op.run al (runOps al t0 ops)).2 = runOps al t0 (ops ++ [op]) := by
    rw [runOps_append]
    rfl
  rw [hcall, hok, hrun]
  refine ⟨rfl, (storeFrom_snoc _ _ _).symm, rfl, List.prefix_rfl, ?_, ⟨[], ?_, ?_, ?_⟩, fun _ => rfl, ?_⟩
  · unfold bytesAt
    rw [List.take_length]
    omega
  · rw [List.append_nil]; exact hs
  · rw [List.append_nil]; exact List.prefix_rfl
  · rw [List.append_nil]; exact fun j hj _ => hj
  · obtain ⟨j, h1, h2, h3⟩ := h.past
    have hj : (ops ++ [op]).take j = ops.take j := List.take_append_of_le_length h1
    refine ⟨j, by rw [List.length_append]; omega, by rw [h2]; unfold bytesAt; rw [hj], fun i hi hlt => ?_⟩
    rw [List.length_append, List.length_singleton] at hlt
    rw [List.take_append_of_le_length (by omega)]
    by_cases hlast : i = ops.length
    · rw [hlast, List.take_length]; exact List.mem_cons_self
    · exact List.mem_cons_of_mem _ (h3 i hi (by omega))

/-- More earlier states. -/
theorem AtOn.weaken (h : AtOn al t0 S0 last ops synced whole older t) (s : Store) : AtOn al t0 S0 last ops synced whole (s :: older) t := by
  obtain ⟨j, h1, h2, h3⟩ := h.past
  exact { h with past := ⟨j, h1, h2, fun i hi hlt => List.mem_cons_of_mem _ (h3 i hi hlt)⟩ }

/-- Everything is safe. -/
theorem AtOn.safe (h : AtOn al t0 S0 last ops synced whole older t) : AtOn al t0 S0 last ops (bytesAt al t0 ops ops.length) whole [] t :=
  { h with past := ⟨ops.length, Nat.le_refl _, rfl, fun i hi hlt => by omega⟩ }

/-- Opening the file again. -/
theorem AtOn.reopen (he : Existing al fs t0 ty last) (h : AtOn al t0 S0 last ops synced whole older t) : TdmsFile.new al t.bytes = .ok t := by
  obtain ⟨more, hs, hp, hnext⟩ := h.more
  have htk : (ops ++ more).take ops.length = ops := List.take_left
  have hnew := he.cut_opens hs hp (k := ops.length) (by rw [List.length_append]; omega)
    (fun j hj => ⟨hnext j hj, fun hj' => by
      rw [List.take_append_of_le_length hj']
      refine List.IsPrefix.trans ?_ h.bytes
      conv => rhs; rw [← List.take_append_drop j ops, runOps_append]
      exact runOps_bytes al _ _⟩)
    (by
      have := h.rest
      unfold bytesAt at this ⊢
      rwa [htk, ← List.take_length (l := ops)])
  rw [htk, ← h.index] at hnew
  exact hnew

theorem resumes_from (he : Existing al fs t0 ty last) : ∀ (steps : List Step) (ops : List Op) (synced : Nat) (whole : Bool) (older : List Store)
    (t : TdmsFile), AtOn al t0 S0 last ops synced whole older t → EnduresOn al (fs.map FileSegment.segment) t0 S0 last ops synced whole steps →
    Survives al (storeFrom S0 ops) older (stepReplies al t steps)
  | [], _, _, _, _, _, _, _ => trivial
  | .command (.call op) :: steps, ops, synced, whole, older, t, h, hd => by
    cases hacc : Accepted op with
    | true =>
      obtain ⟨hw, hs, hrest⟩ := hd.1 hacc
      subst hw
      obtain ⟨h1, h2, h3⟩ := h.call he hacc hs
      refine ⟨h1, ?_⟩
      rw [h2]
      exact resumes_from he steps _ _ _ _ _ h3 hrest
    | false =>
      obtain ⟨h1, h2, h3⟩ := refused_call (al := al) (storeFrom S0 ops) t hacc
      refine ⟨h1, ?_⟩
      rw [h2]
      show Survives al _ _ (stepReplies al (op.run al t).2 steps)
      rw [h3]
      exact resumes_from he steps _ _ _ _ _ (h.weaken _) (hd.2 hacc)
  | .command (.ask q) :: steps, ops, synced, whole, older, t, h, hd =>
    ⟨h.answers he q hd.1, resumes_from he steps _ _ _ _ _ h hd.2⟩
  | .command .reopen :: steps, ops, synced, whole, older, t, h, hd => by
    have hrun : (Step.command .reopen).run al t = (.ok .done, t) := by
      unfold Step.run Command.run
      dsimp only
      rw [h.reopen he]
    show (((Step.command .reopen).run al t).1 = .ok .done) ∧ Survives al _ _ (stepReplies al ((Step.command .reopen).run al t).2 steps)
    rw [hrun]
    exact ⟨rfl, resumes_from he steps _ _ _ _ _ h.safe hd⟩
  | .sync :: steps, ops, synced, whole, older, t, h, hd => ⟨rfl, resumes_from he steps _ _ _ _ _ h.safe hd⟩
  | .crash kept :: steps, ops, synced, whole, older, t, h, hd => by
    obtain ⟨hsync, k, hk, hiff, hlt, hrest⟩ := hd
    obtain ⟨t', hnew, hat⟩ := h.cut he kept k hk hiff hlt
    have hrun : (Step.crash kept).run al t = (.ok .done, t') := by
      unfold Step.run
      dsimp only
      rw [hnew]
    show (((Step.crash kept).run al t).1 = .ok .done) ∧
      ∃ s' ∈ storeFrom S0 ops :: older, Survives al s' [] (stepReplies al ((Step.crash kept).run al t).2 steps)
    rw [hrun]
    refine ⟨rfl, storeFrom S0 (ops.take k), ?_, resumes_from he steps _ _ _ _ _ (hat []) hrest⟩
    obtain ⟨j, h1, h2, h3⟩ := h.past
    have hjk : j ≤ k := (hiff j h1).mp (by rw [← h2]; exact hsync)
    by_cases hlast : k = ops.length
    · rw [hlast, List.take_length]; exact List.mem_cons_self
    · exact List.mem_cons_of_mem _ (h3 k hjk (by omega))

end
end Library
end Tedium
