import Verif.Proofs.BuildWrap
import Verif.Proofs.BuildSession
import Verif.Proofs.WriteStep

/-! # Reads of the optimised build that stop where the other build panics -/

namespace Tedium
open SegSpec PlanSpec

/-- The blocks in which a channel has samples are within the addresses. -/
def WithinAt (t : TdmsFile) (ls : List DataLocation) : Prop :=
  ∀ l ∈ ls, 0 < l.numberOfSamples → ∀ b, t.index.getDataBlock l.dataBlock = some b →
    b.Within ∧ b.SkipWithin l.numberOfSamples

section
variable {α : Type} {S : Storage α} {dec : Endian → Bytes → α}
variable (hS : S.Fixed dec) (hmono : ∀ e, Rd.Mono (S.read e)) (hmem : S.memSize ≤ 24)
include hS hmono hmem

theorem executePlan_halts {t : TdmsFile} : ∀ (plan : List BlockRead) (ps : List (Progress α)),
    (∀ br ∈ plan, ∃ b, t.index.getDataBlock br.dataBlock = some b ∧ b.Within ∧
      ∀ pl, some pl ∈ br.channelIndexes → pl.index < b.channels.length ∧ b.SkipWithin pl.samplesToSkip) →
    R.Halts (executePlan S t plan ps) (Build.release.executePlan S t plan ps) := by
  intro plan
  induction plan with
  | nil => intro ps _; exact .rfl
  | cons br brs ih =>
    intro ps h
    obtain ⟨b, hb, hw, hpl⟩ := h br List.mem_cons_self
    have hread := readBlock_halts hS hmono hmem t.bytes hw (reqs := blockRequests 0 br.channelIndexes ps)
        (fun r hr => by
          obtain ⟨pl, h1, h2, _⟩ := mem_blockRequests hr
          rw [h2]; exact (hpl pl h1).1)
        (fun r hr => by
          obtain ⟨pl, h1, _, h3⟩ := mem_blockRequests hr
          rw [h3]; exact (hpl pl h1).2)
    rw [← Build.debug_readBlock, ← Build.debug_readBlockSkip] at hread
    have hblock : R.Halts (Build.debug.executeBlock S t br ps) (Build.release.executeBlock S t br ps) := by
      unfold Build.executeBlock
      dsimp only
      rw [hb]
      dsimp only
      generalize hany : List.any br.channelIndexes _ = anySkip
      have key : ∀ {x y : R (Nat × List (RecordEntry α))}, R.Halts x y → R.Halts
          (match x with
            | .error e => (.error e : R (List (Progress α)))
            | .ok (n, plan) => .ok (addSamples n br.channelIndexes (storeOutputs (planOutputs plan) 0 ps)))
          (match y with
            | .error e => .error e
            | .ok (n, plan) => .ok (addSamples n br.channelIndexes (storeOutputs (planOutputs plan) 0 ps))) := by
        intro x y hxy
        rcases hxy with rfl | ⟨rfl, e, rfl⟩
        · exact .rfl
        · exact Or.inr ⟨rfl, e, rfl⟩
      cases anySkip with
      | true => exact key hread.2
      | false => exact key hread.1
    rw [← Build.debug_executePlan]
    unfold Build.executePlan
    rcases hblock with hblock | ⟨h1, e, h2⟩
    · rw [hblock]
      cases Build.debug.executeBlock S t br ps with
      | error e => exact .rfl
      | ok qs =>
        dsimp only
        split
        · exact .rfl
        · rw [Build.debug_executePlan]
          exact ih qs (fun x hx => h x (List.mem_cons_of_mem _ hx))
    · rw [h1, h2]
      exact Or.inr ⟨rfl, e, rfl⟩

theorem readPositions_halts {t : TdmsFile} (hi : Inv t.index) (cs : List ChannelPath) (pos : List (List DataLocation))
    (start : Nat) (hl : ∀ ls ∈ pos, ∃ c ∈ cs, t.index.getChannelDataPositions c = some ls)
    (ht : ∀ ls ∈ pos, WithinAt t ls) (ps : List (Progress α)) :
    R.Halts (readPlan pos start >>= fun plan => executePlan S t plan ps)
      (readPlan pos start >>= fun plan => Build.release.executePlan S t plan ps) := by
  have hvalid : ∀ ls ∈ pos, Increasing ls ∧ ∀ l ∈ ls, ValidLocation t.index.dataBlocks l := by
    intro ls hls
    obtain ⟨c, _, hc⟩ := hl ls hls
    obtain ⟨o, ho, rfl⟩ := Option.map_eq_some_iff.mp hc
    exact ⟨hi.incr _ _ ho, hi.valid _ _ ho⟩
  rw [readPlan_eq start t.index.dataBlocks.length pos (fun ls h => (hvalid ls h).1) (fun ls h l hlm => by
    obtain ⟨b, _, _, hb, _⟩ := (hvalid ls h).2 l hlm
    exact (List.getElem?_eq_some_iff.mp hb).1)]
  show R.Halts (executePlan S t _ ps) (Build.release.executePlan S t _ ps)
  apply executePlan_halts hS hmono hmem
  intro br hbr
  obtain ⟨hch, ls, hls, pl, hv⟩ : br.channelIndexes = pos.map (visit start br.dataBlock) ∧
      ∃ ls ∈ pos, ∃ pl, visit start br.dataBlock ls = some pl := by
    unfold plan at hbr
    obtain ⟨B, hB, hva⟩ := List.mem_filterMap.mp hbr
    unfold visitAll at hva
    split at hva
    · rename_i hany
      cases hva
      rw [List.any_map, List.any_eq_true] at hany
      obtain ⟨ls, hls, hv⟩ := hany
      obtain ⟨pl, hv⟩ := Option.isSome_iff_exists.mp hv
      exact ⟨rfl, ls, hls, pl, hv⟩
    · cases hva
  obtain ⟨l, b, m, hlm, hlB, hn, hb, _, _, _⟩ := visit_valid (hvalid ls hls).2 hv
  refine ⟨b, hb, (ht ls hls l hlm hn b (by rw [hlB]; exact hb)).1, ?_⟩
  intro pl' hpl'
  rw [hch] at hpl'
  obtain ⟨ls', hls', hv'⟩ := List.mem_map.mp hpl'
  obtain ⟨l', b', m', hlm', hlB', hn', hb', hm', _, hk'⟩ := visit_valid (hvalid ls' hls').2 hv'
  rw [hb] at hb'
  cases hb'
  refine ⟨(List.getElem?_eq_some_iff.mp hm').1, fun hlay => ?_⟩
  have h1 := (ht ls' hls' l' hlm' hn' b (by rw [hlB']; exact hb)).2 hlay
  have h2 : pl'.samplesToSkip * (b.channels.map (fun m => m.dataType.size)).sum
      ≤ l'.numberOfSamples * (b.channels.map (fun m => m.dataType.size)).sum := Nat.mul_le_mul_right _ hk'
  omega

theorem readChannelsFrom_halts {t : TdmsFile} (hi : Inv t.index) (cs : List ChannelPath) (start : Nat)
    (outs : List (List α)) (ht : ∀ c ∈ cs, ∀ ls, t.index.getChannelDataPositions c = some ls → WithinAt t ls) :
    R.Halts (t.readChannelsFrom S cs start outs) (Build.release.readChannelsFrom S t cs start outs) := by
  unfold TdmsFile.readChannelsFrom Build.readChannelsFrom
  have hpos := lookupPositions_sat t cs
  refine R.Halts.bind' .rfl (fun pos hp => ?_)
  have hpos' : ∀ ls ∈ pos, ∃ c ∈ cs, t.index.getChannelDataPositions c = some ls := by
    rcases hpos with ⟨a, ha, h⟩ | ⟨e, he⟩
    · rw [hp] at ha; cases ha; exact h
    · rw [hp] at he; cases he
  have h := readPositions_halts hS hmono hmem hi cs pos start hpos' (fun ls hls => by
    obtain ⟨c, hc, h⟩ := hpos' ls hls
    exact ht c hc ls h) (outs.map (fun o => ⟨o, 0⟩))
  rw [← bind_assoc, ← bind_assoc]
  exact h.bind (fun _ => .rfl)

theorem readChannelFrom_halts {t : TdmsFile} (hi : Inv t.index) (c : ChannelPath) (start : Nat)
    (out : List α) (ht : ∀ ls, t.index.getChannelDataPositions c = some ls → WithinAt t ls) :
    R.Halts (t.readChannelFrom S c start out) (Build.release.readChannelFrom S t c start out) := by
  unfold TdmsFile.readChannelFrom Build.readChannelFrom
  cases hc : t.index.getChannelDataPositions c with
  | none => exact .rfl
  | some ls =>
    dsimp only
    have h := readPositions_halts hS hmono hmem hi [c] [ls] start (fun x hx => by
      rw [List.mem_singleton.mp hx]; exact ⟨c, List.mem_cons_self, hc⟩) (fun x hx => by
      rw [List.mem_singleton.mp hx]; exact ht ls hc) [⟨out, 0⟩]
    rw [← bind_assoc, ← bind_assoc]
    exact h.bind (fun _ => .rfl)

end

/-! ## Files whose blocks are within the addresses -/

theorem addSegment_next_lt {ix ix' : Index} {s : Segment} {n : Nat} (h : ix.addSegment s = (.ok n, ix')) :
    ix'.nextSegmentStart < 2 ^ 64 := by
  rw [addSegment_eq] at h
  generalize afterObjects ix s = ao at h
  obtain ⟨r, ix1⟩ := ao
  cases r with
  | error e => cases h
  | ok u =>
    dsimp only at h
    generalize ix1.addRawData s = ard at h
    obtain ⟨r, ix2⟩ := ard
    cases r with
    | error e => cases h
    | ok u =>
      dsimp only at h
      rw [advance_eq] at h
      split at h
      · rename_i hlt
        cases h
        exact hlt
      · cases h

theorem replay_next_lt : ∀ {segs : List Segment} {ix ix' : Index}, ix.nextSegmentStart < 2 ^ 64 →
    replay ix segs = .ok ix' → ix'.nextSegmentStart < 2 ^ 64
  | [], ix, ix', h, hr => by cases hr; exact h
  | s :: ss, ix, ix', h, hr => by
    unfold SegSpec.replay at hr
    cases hadd : ix.addSegment s with
    | mk r ix1 =>
      rw [hadd] at hr
      cases r with
      | error e => cases hr
      | ok n => exact replay_next_lt (addSegment_next_lt hadd) hr

/-- the end of the segments that were accepted is an address -/
theorem endOf_lt {segs : List Segment} {ix : Index} (h : replay Index.new segs = .ok ix) : endOf segs < 2 ^ 64 := by
  rw [← (replay_refines h).next]
  exact replay_next_lt (by decide) h

theorem within_of_even {segs : List Segment} {t : TdmsFile} (h : replay Index.new segs = .ok t.index)
    (hp : Plain t.index) {c : ChannelPath}
    (hev : ∀ pre ∈ dataPrefixes segs, c.path ∈ active pre → EvenRows pre) {ls : List DataLocation}
    (hls : t.index.getChannelDataPositions c = some ls) : WithinAt t ls := by
  have hr := replay_refines h
  intro l hl hn b hb
  have hloc : l ∈ locations segs c.path := by
    by_cases hlist : Listed (entries segs) c.path
    · rw [hr.positions hlist] at hls
      cases hls
      exact hl
    · unfold Index.getChannelDataPositions at hls
      obtain ⟨o, ho, hol⟩ := Option.map_eq_some_iff.mp hls
      have := (hr.obj.unlisted _ hlist).1
      rw [ho] at this
      cases this
  obtain ⟨m, n, hm, hn', hs⟩ : ∃ (m : RawDataMeta) (n : Nat), m ∈ b.channels ∧ b.numberOfChunks = .ok n ∧
      l.numberOfSamples = m.numberOfValues * n := by
    obtain ⟨o, ho, rfl⟩ := Option.map_eq_some_iff.mp hls
    obtain ⟨b', m, n, hb', hm, hn', hs⟩ := hr.inv.valid _ _ ho l hl
    have : b' = b := by
      unfold Index.getDataBlock at hb
      rw [hb'] at hb
      exact Option.some.inj hb
    subst this
    exact ⟨m, n, List.mem_of_getElem? hm, hn', hs⟩
  have hmem : b ∈ t.index.dataBlocks := List.mem_of_getElem? hb
  have hspec := numberOfChunks_spec hn'
  rw [if_neg (by
    rw [List.any_eq_true]
    rintro ⟨x, hx, hsome⟩
    rw [hp.blocks b hmem x hx] at hsome
    cases hsome)] at hspec
  have hnpos : 0 < n := by
    rw [hs] at hn
    exact Nat.pos_of_mul_pos_left hn
  generalize hsum : (b.channels.map (fun m => m.numberOfValues * m.dataType.size)).sum = C at hspec
  have hC : C ≠ 0 := fun h0 => by rw [if_pos h0] at hspec; omega
  rw [if_neg hC] at hspec
  have hCn : C * n ≤ b.length := by rw [hspec]; exact Nat.mul_div_le _ _
  have hC1 : C * 1 ≤ C * n := Nat.mul_le_mul_left _ hnpos
  unfold locations at hloc
  obtain ⟨⟨pre, i⟩, hpi, hl'⟩ := List.mem_filterMap.mp hloc
  obtain ⟨j, hj, hlj⟩ := Option.map_eq_some_iff.mp hl'
  have hi : (dataPrefixes segs)[i]? = some pre := List.mem_zipIdx_iff_getElem?.mp hpi
  obtain ⟨b', hb', hgb⟩ := hr.block hi
  have hbb : b' = b := by
    rw [← hlj] at hb
    dsimp only at hb
    rw [hgb] at hb
    exact Option.some.inj hb
  subst hbb
  have hact : c.path ∈ active pre := List.isSome_idxOf?.mp (by rw [hj]; rfl)
  have hev := hev pre (List.mem_of_getElem? hi) hact
  obtain ⟨s, hs', hch, hlen, hlay⟩ := blockOf_fields hb'
  -- the prefix is a number of segments
  obtain ⟨k, hk⟩ : ∃ k, pre = segs.take (k + 1) := by
    have := List.mem_of_getElem? hi
    unfold dataPrefixes at this
    obtain ⟨k, _, hk⟩ := List.mem_map.mp (List.mem_filter.mp this).1
    exact ⟨k, hk.symm⟩
  obtain ⟨ix', hix'⟩ := replay_take h (k + 1)
  rw [← hk] at hix'
  have hend := endOf_lt hix'
  obtain ⟨q, hq⟩ := List.getLast?_eq_some_iff.mp hs'
  have hfit : b'.start + b'.length < 2 ^ 64 := by
    rw [hq] at hend hb'
    rw [blockOf_snoc] at hb'
    rw [endOf_snoc] at hend
    have hb0 := Option.some.inj hb'
    have hl0 : b'.length = s.nextSegmentOffset - s.rawDataOffset := by rw [← hb0]
    have hs0 : b'.start = endOf q + 28 + s.rawDataOffset := by rw [← hb0]
    omega
  refine ⟨⟨hfit, by rw [hsum]; omega⟩, fun hinter => ?_⟩
  rw [hlay] at hinter
  have htoc : s.toc.dataIsInterleaved = true := by
    cases hd : s.toc.dataIsInterleaved with
    | true => rfl
    | false => rw [hd] at hinter; cases hinter
  have heq := hev ⟨s, hs', htoc⟩
  rw [← hch] at heq
  have hrow : C = m.numberOfValues * (b'.channels.map (fun m => m.dataType.size)).sum := by
    rw [← hsum]
    have : ∀ l : List RawDataMeta, (∀ x ∈ l, x.numberOfValues = m.numberOfValues) →
        (l.map (fun m => m.numberOfValues * m.dataType.size)).sum
          = m.numberOfValues * (l.map (fun m => m.dataType.size)).sum := by
      intro l
      induction l with
      | nil => intro _; simp
      | cons x xs ih =>
        intro hx
        simp only [List.map_cons, List.sum_cons]
        rw [ih (fun y hy => hx y (List.mem_cons_of_mem _ hy)), hx x List.mem_cons_self, Nat.mul_add]
    exact this _ (fun x hx => heq x hx m hm)
  have : l.numberOfSamples * (b'.channels.map (fun m => m.dataType.size)).sum = C * n := by
    rw [hs, hrow, Nat.mul_right_comm]
  omega

end Tedium
