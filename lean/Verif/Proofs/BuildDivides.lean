import Verif.Proofs.BuildReads
import Verif.Proofs.BuildWrap
import Verif.Proofs.BuildSession
import Verif.Spec.Tame

/-! # What reads of both builds divide by -/

namespace Tedium
open SegSpec PlanSpec

section
variable {α : Type} {S : Storage α}

theorem setReadable_planFor {reqs : List (ChannelRequest α)} : ∀ {ms : List RawDataMeta} {plan p : List (RecordEntry α)},
    PlanFor ms plan → setReadable plan reqs = .ok p → PlanFor ms p := by
  induction reqs with
  | nil =>
    intro ms plan p hplan h
    cases h
    exact hplan
  | cons r rs ih =>
    intro ms plan p hplan h
    unfold setReadable at h
    cases hr : plan[r.channelIndex]? with
    | none => rw [hr] at h; cases h
    | some en =>
      rw [hr] at h
      dsimp only at h
      exact ih (hplan.set hr _ _ _) h

theorem buildRecordPlan_planFor {ms : List RawDataMeta} {reqs : List (ChannelRequest α)} {p : List (RecordEntry α)}
    (h : buildRecordPlan S ms reqs = .ok p) : PlanFor ms p := by
  unfold buildRecordPlan at h
  cases hv : validateTypes S ms reqs with
  | error e => rw [hv] at h; cases h
  | ok u =>
    rw [hv] at h
    exact setReadable_planFor (PlanFor.base ms) h

theorem firstLength_pos {b : DataBlock} (hl : ∃ m0, b.channels.head? = some m0 ∧ 0 < m0.numberOfValues)
    {plan : List (RecordEntry α)} (h : PlanFor b.channels plan) : ∀ n, firstLength plan = .ok n → 0 < n := by
  obtain ⟨m0, h0, hp⟩ := hl
  cases hch : b.channels with
  | nil => rw [hch] at h0; cases h0
  | cons m ms =>
    rw [hch] at h0 h
    cases h0
    cases plan with
    | nil => exact h.elim
    | cons x xs =>
      intro n hn
      cases hn
      rw [h.1]; exact hp

/-- the build with checks divides by a size, not by zero -/
theorem divides_debug (hpos : 0 < S.memSize) (hmem : S.memSize ≤ 24) {t : TdmsFile} {ls : List DataLocation}
    (hf : FirstAt t ls) (hz : SizedAt t ls) : DividesAt Build.debug S t ls := by
  intro l hl hn b hb reqs plan hplan
  have hp := buildRecordPlan_planFor hplan
  obtain ⟨h1, h2⟩ := (PlanFor.sizes hpos hmem hp).2.1 (hz l hl hn b hb)
  refine ⟨fun hlay => ⟨firstLength_pos (hf l hl hn b hb hlay) hp, fun bs hbs => ?_⟩, h2⟩
  unfold Build.blockSize Build.debug at hbs
  dsimp only at hbs
  split at hbs
  · cases hbs; exact h1
  · cases hbs

/-- and so does the build without, for types whose values take as many bytes as the format says -/
theorem divides_release {dec : Endian → Bytes → α} (hS : S.Fixed dec) (hpos : 0 < S.memSize) (hmem : S.memSize ≤ 24) {t : TdmsFile}
    {ls : List DataLocation} (hf : FirstAt t ls) (hz : SizedAt t ls)
    (hlt : ∀ l ∈ ls, ∀ b, t.index.getDataBlock l.dataBlock = some b →
      (b.channels.map (fun m => m.numberOfValues * m.dataType.size)).sum < u64Lim) : DividesAt Build.release S t ls := by
  intro l hl hn b hb reqs plan hplan
  have hp := buildRecordPlan_planFor hplan
  obtain ⟨h1, h2⟩ := (PlanFor.sizes hpos hmem hp).2.1 (hz l hl hn b hb)
  refine ⟨fun hlay => ⟨firstLength_pos (hf l hl hn b hb hlay) hp, fun bs hbs => ?_⟩, h2⟩
  unfold Build.blockSize Build.release at hbs
  cases hbs
  have hsum := (buildRecordPlan_sizes hS hplan).sums.1
  unfold planBytes at hsum
  rw [hsum] at h1 ⊢
  rw [Nat.mod_eq_of_lt (hlt l hl b hb)]
  exact h1

end

theorem chunkSizeFrom_lt (cs : List RawDataMeta) : ∀ {w : Nat} {r : ChunkSize}, w < u64Lim →
    (∀ m ∈ cs, m.totalSizeBytes = none) → DataBlock.chunkSizeFrom (.fixed w) cs = .ok r →
    w + (cs.map (fun m => m.numberOfValues * m.dataType.size)).sum < u64Lim := by
  induction cs with
  | nil => intro w r hw _ _; simpa using hw
  | cons c cs ih =>
    intro w r hw hn h
    unfold DataBlock.chunkSizeFrom at h
    rw [hn c List.mem_cons_self] at h
    dsimp only at h
    split at h
    · cases hc : (ChunkSize.fixed w).combine (.fixed (c.numberOfValues * c.dataType.size)) with
      | error e => rw [hc] at h; cases h
      | ok x =>
        rw [hc] at h
        have hx := combine_fixed_ok hc
        subst hx
        have hlt : w + c.numberOfValues * c.dataType.size < u64Lim := by
          unfold ChunkSize.combine chunkAdd at hc
          dsimp only at hc
          split at hc
          · assumption
          · cases hc
        have := ih hlt (fun m hm => hn m (List.mem_cons_of_mem _ hm)) h
        rw [List.map_cons, List.sum_cons]
        omega
    · cases h

/-- the blocks of an index: something in them has a size, and the size of a chunk is below 2^64 -/
theorem sized_of_inv {t : TdmsFile} (hi : Inv t.index) (hp : Plain t.index) {c : ChannelPath} {ls : List DataLocation}
    (hls : t.index.getChannelDataPositions c = some ls) : SizedAt t ls ∧
    ∀ l ∈ ls, ∀ b, t.index.getDataBlock l.dataBlock = some b →
      (b.channels.map (fun m => m.numberOfValues * m.dataType.size)).sum < u64Lim := by
  obtain ⟨o, ho, rfl⟩ := Option.map_eq_some_iff.mp hls
  have key : ∀ l ∈ o.dataLocations, ∀ b, t.index.getDataBlock l.dataBlock = some b → ∃ m n : Nat,
      b.numberOfChunks = .ok n ∧ l.numberOfSamples = m * n := by
    intro l hl b hb
    obtain ⟨b', m, n, hb', _, hn', hs⟩ := hi.valid _ _ ho l hl
    have : b' = b := by
      unfold Index.getDataBlock at hb
      rw [hb'] at hb
      exact Option.some.inj hb
    subst this
    exact ⟨_, n, hn', hs⟩
  have hnone : ∀ l b, t.index.getDataBlock l = some b → ∀ m ∈ b.channels, m.totalSizeBytes = none :=
    fun l b hb => hp.blocks b (List.mem_of_getElem? hb)
  constructor
  · intro l hl hn b hb
    obtain ⟨m, n, hn', hs⟩ := key l hl b hb
    have hspec := numberOfChunks_spec hn'
    rw [if_neg] at hspec
    · split at hspec
      · rw [hspec] at hs
        simp at hs
        omega
      · omega
    · rw [List.any_eq_true]
      rintro ⟨x, hx, hsome⟩
      rw [hnone _ b hb x hx] at hsome
      cases hsome
  · intro l hl b hb
    obtain ⟨_, n, hn', _⟩ := key l hl b hb
    unfold DataBlock.numberOfChunks DataBlock.chunkSize at hn'
    cases hc : DataBlock.chunkSizeFrom (.fixed 0) b.channels with
    | error e => rw [hc] at hn'; cases hn'
    | ok r =>
      have := chunkSizeFrom_lt b.channels (by decide) (hnone _ b hb) hc
      omega

end Tedium
