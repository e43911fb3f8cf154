import Verif.Proofs.JointOutcome
import Verif.Proofs.JointlyFile
import Verif.Proofs.WrongType

/-! # How a read of several channels of a file ends -/

namespace Tedium
open PlanSpec SegSpec

section
variable {α : Type} {S : Storage α} {dec : Endian → Bytes → α}

theorem partOf_chan {pre : List Segment} {start : Nat} {x : Text × Progress α} {u : Taker}
    (h : partOf pre start x = some u) : (active pre).idxOf? x.1 = some u.chan := by
  have hw := partOf_wanted h
  obtain ⟨h0, _⟩ := of_decide_eq_true hw
  obtain ⟨j, hj⟩ := Option.isSome_iff_exists.mp (List.isSome_idxOf?.mpr (samplesIn_active h0))
  unfold partOf takerOf at h
  dsimp only at h
  split at h
  · cases h
    rw [hj]
    rfl
  · cases h

/-- the read of one block for all buffers -/
theorem executeBlock_outcome (hS : S.Reads dec) (hsh : S.Short) (hmem : S.memSize ≤ 16) {segs : List Segment}
    {t : TdmsFile} (h : replay Index.new segs = .ok t.index) (hf : t.bytes.length < 2 ^ 63) {B : Nat}
    {pre : List Segment} (hB : (dataPrefixes segs)[B]? = some pre) {b : DataBlock} (hbo : blockOf pre = some b)
    (hb : t.index.getDataBlock B = some b) (start : Nat) (st : List (Text × Progress α))
    (hend : b.start + b.length < 2 ^ 63) (hchs : b.channels.length < 2 ^ 59)
    (hsamples : ∀ x ∈ st, samplesIn pre x.1 < 2 ^ 63) :
    executeBlock S t ⟨B, st.map fun x => visit start B (locations segs x.1)⟩ (st.map (·.2)) =
      match b.jointFault S.supported S.natural S.memSize t.bytes.length (anySkips pre start st)
          ((st.map (partOf pre start)).filterMap id) with
      | some e => .error e
      | none => .ok ((afterBlock (Cell.value dec S.memSize t.bytes) S.memSize pre b start st).map (·.2)) := by
  have htk := takers_requestsOf (τ := partOf pre start) (fun x t h => partOf_room h) st 0
  obtain ⟨_, hslots⟩ := requestsOf_slots (partOf pre start) st 0
  have hin : ∀ x ∈ st, ∀ u, partOf pre start x = some u → u.chan < b.channels.length := by
    intro x hx u hu
    obtain ⟨hl, m, hm⟩ := layout_at h hB (partOf_chan hu)
    obtain ⟨_, _, hc, _⟩ := blockOf_fields hbo
    rw [hm, ← hc] at hl
    exact (List.getElem?_eq_some_iff.mp hl).1
  have hreq : ∀ r ∈ requestsOf (partOf pre start) 0 st, r.channelIndex < b.channels.length ∧ r.skip < 2 ^ 63 := by
    intro r hr
    obtain ⟨y, hy, hyr⟩ := List.mem_filterMap.mp hr
    obtain ⟨u, hu, rfl⟩ := Option.map_eq_some_iff.mp hyr
    have hmemst := List.mem_of_getElem? (zipIdx_mem hy).2
    refine ⟨hin _ hmemst u hu, ?_⟩
    show u.skip < 2 ^ 63
    rw [partOf_skip hu]
    obtain ⟨_, hst⟩ := of_decide_eq_true (partOf_wanted hu)
    have h1 := hsamples _ hmemst
    obtain ⟨h2, h3, h4⟩ := sampleCount_at hB y.1.1
    omega
  obtain ⟨h1, h2⟩ := b.readAs_outcome hS hsh hmem hf hslots (fun r hr => (hreq r hr).1) hend hchs
    (fun r hr => (hreq r hr).2) (anySkips pre start st) unskipped
  rw [htk] at h1 h2
  cases hj : b.jointFault S.supported S.natural S.memSize t.bytes.length (anySkips pre start st)
      ((st.map (partOf pre start)).filterMap id) with
  | some e =>
    rw [executeBlock_read hB hb]
    have := h1 e hj
    unfold DataBlock.readAs at this
    rw [this]
  | none =>
    obtain ⟨res, hres, hjr⟩ := h2 hj
    exact executeBlock_result hB hb start st hin hres hjr

theorem anySkips_bufs (pre : List Segment) (start : Nat) (st : List (Text × Progress α)) :
    skipsSome pre start (st.map fun x => (x.1, x.2.output.length)) = anySkips pre start st := by
  unfold skipsSome anySkips
  rw [List.any_map]
  rfl

/-- an execution and what the specification says of it -/
def Ends (value : Cell → α) (fault : Option Fail) (outs : List (List α)) (cells : List (List (Nat × Cell)))
    (r : R (List (Progress α))) : Prop :=
  match fault with
  | some e => r = .error e
  | none => ∃ ps, r = .ok ps ∧ ps.map (·.output) = List.zipWith (storeAll value) outs cells

theorem executePlan_outcome (hS : S.Reads dec) (hsh : S.Short) (hmem : S.memSize ≤ 16) {segs : List Segment}
    {t : TdmsFile} (h : replay Index.new segs = .ok t.index) (hf : t.bytes.length < 2 ^ 63) (start : Nat)
    {bufs : List Buffer} (hadd : JointlyAddressable segs bufs) :
    ∀ (d B : Nat) (st : List (Text × Progress α)), B + d = (dataPrefixes segs).length →
      (st.map fun x => (x.1, x.2.output.length)) = bufs →
      Ends (Cell.value dec S.memSize t.bytes)
        (jointFault S.supported S.natural S.memSize t.bytes.length start bufs ((dataPrefixes segs).drop B)
          (st.map (·.2.samplesRead)))
        (st.map (·.2.output))
        (stored S.memSize start bufs ((dataPrefixes segs).drop B) (st.map (·.2.samplesRead)))
        (executePlan S t ((List.range' B d).filterMap fun B => visitAll start B (st.map fun x => locations segs x.1))
          (st.map (·.2))) := by
  have hr := replay_refines h
  intro d
  induction d with
  | zero =>
    intro B st hB hbufs
    rw [List.drop_of_length_le (by omega)]
    refine ⟨st.map (·.2), rfl, ?_⟩
    unfold stored
    rw [← hbufs, List.map_map, List.map_map, List.zipWith_map, List.zipWith_self]
    rfl
  | succ d ih =>
    intro B st hB hbufs
    have hlt : B < (dataPrefixes segs).length := by omega
    have hpre : (dataPrefixes segs)[B]? = some (dataPrefixes segs)[B] := List.getElem?_eq_getElem hlt
    generalize (dataPrefixes segs)[B] = pre at hpre
    have hdrop : (dataPrefixes segs).drop B = pre :: (dataPrefixes segs).drop (B + 1) := by
      rw [List.drop_eq_getElem_cons hlt]
      congr 1
      exact (List.getElem?_eq_some_iff.mp hpre).2
    obtain ⟨b, hb, hgb⟩ := hr.block hpre
    obtain ⟨hab, has⟩ := hadd pre (List.mem_of_getElem? hpre)
    obtain ⟨hend, hchs⟩ := hab b hb
    rw [hdrop, List.range'_succ, List.filterMap_cons]
    unfold stored jointFault
    rw [hb]
    dsimp only
    have htp : takers pre start bufs (st.map (·.2.samplesRead)) = st.map (partOf pre start) := by
      rw [← hbufs]; exact takers_parts pre start st
    rw [htp]
    have hva : visitAll start B (st.map fun x => locations segs x.1) =
        if bufs.any (fun x => wanted pre start x.1) then
          some ⟨B, st.map fun x => visit start B (locations segs x.1)⟩ else none := by
      have hany : ((st.map fun x => locations segs x.1).map (visit start B)).any Option.isSome =
          bufs.any (fun x => wanted pre start x.1) := by
        rw [← hbufs, List.map_map, List.any_map, List.any_map]
        congr 1
        funext x
        show (visit start B (locations segs x.1)).isSome = wanted pre start x.1
        rw [visit_wanted hpre]
        cases wanted pre start x.1 <;> rfl
      unfold visitAll
      rw [hany, List.map_map]
      rfl
    rw [hva]
    cases hw : bufs.any (fun x => wanted pre start x.1) with
    | false => exact ih (B + 1) st (by omega) hbufs
    | true =>
      rw [if_pos rfl, if_pos rfl, if_pos rfl]
      dsimp only
      have hex := executeBlock_outcome (dec := dec) hS hsh hmem h hf hpre hb hgb start st hend hchs (by
        intro x hx
        refine has (x.1, x.2.output.length) ?_
        rw [← hbufs]
        exact List.mem_map_of_mem hx)
      have hsk : skipsSome pre start bufs = anySkips pre start st := by
        rw [← hbufs]; exact anySkips_bufs pre start st
      rw [hsk]
      unfold executePlan
      rw [hex]
      cases hj : b.jointFault S.supported S.natural S.memSize t.bytes.length (anySkips pre start st)
          ((st.map (partOf pre start)).filterMap id) with
      | some e => rfl
      | none =>
        dsimp only
        have hbufs' := afterBlock_bufs (Cell.value dec S.memSize t.bytes) S.memSize pre b start st
        have hprog := afterBlock_prog (Cell.value dec S.memSize t.bytes) S.memSize pre b start st
        have hlocs : st.map (fun x => locations segs x.1) =
            (afterBlock (Cell.value dec S.memSize t.bytes) S.memSize pre b start st).map
              (fun x => locations segs x.1) := by
          have := congrArg (List.map (fun x : Buffer => locations segs x.1)) hbufs'
          rw [List.map_map, List.map_map] at this
          exact this.symm
        have hdone : ((afterBlock (Cell.value dec S.memSize t.bytes) S.memSize pre b start st).map (·.2)).all
            Progress.isComplete = (bufs.zip
              (progressed pre start bufs (st.map (·.2.samplesRead))
                (b.counted S.memSize ((st.map (partOf pre start)).filterMap id)))).all
              (fun x => decide (x.1.2 ≤ x.2)) := by
          rw [← hbufs, ← hprog, ← hbufs', List.zip_map', List.all_map, List.all_map]
          rfl
        have hnow : (afterBlock (Cell.value dec S.memSize t.bytes) S.memSize pre b start st).map (·.2.output) =
            List.zipWith (storeAll (Cell.value dec S.memSize t.bytes)) (st.map (·.2.output))
              ((List.range bufs.length).map
                (storedIn b S.memSize (st.map (partOf pre start)) (st.map (·.2.samplesRead)))) := by
          rw [← hbufs]
          unfold afterBlock
          apply List.ext_getElem?
          intro k
          simp only [List.getElem?_map, List.getElem?_mapIdx, List.getElem?_zipWith, List.length_map]
          by_cases hk : k < st.length
          · rw [List.getElem?_range hk, List.getElem?_eq_getElem hk]
            rfl
          · rw [List.getElem?_eq_none (by omega)]
            rfl
        rw [hdone]
        split
        · refine ⟨_, rfl, ?_⟩
          rw [List.map_map]
          exact hnow
        · have := ih (B + 1) (afterBlock (Cell.value dec S.memSize t.bytes) S.memSize pre b start st)
            (by omega) (hbufs'.trans hbufs)
          rw [hprog, hbufs, hnow, ← hlocs] at this
          revert this
          cases jointFault S.supported S.natural S.memSize t.bytes.length start bufs ((dataPrefixes segs).drop (B + 1))
              (progressed pre start bufs (st.map (·.2.samplesRead))
                (b.counted S.memSize ((st.map (partOf pre start)).filterMap id))) with
          | some e => exact fun h => h
          | none =>
            rintro ⟨ps, hps, hout⟩
            exact ⟨ps, hps, hout.trans (zipWith_storeAll _ _ _ _)⟩

/-- How `read_channels_from` ends. -/
theorem readChannelsFrom_outcome (hS : S.Reads dec) (hsh : S.Short) (hmem : S.memSize ≤ 16)
    {segs : List Segment} {t : TdmsFile} (h : replay Index.new segs = .ok t.index)
    (hf : t.bytes.length < 2 ^ 63) (cs : List ChannelPath) (hl : ∀ c ∈ cs, Listed (entries segs) c.path) (start : Nat)
    (outs : List (List α)) (hlen : outs.length = cs.length)
    (hadd : JointlyAddressable segs ((cs.map ChannelPath.path).zip (outs.map List.length))) :
    t.readChannelsFrom S cs start outs =
      match readsFault S.supported S.natural S.memSize t.bytes.length segs
          ((cs.map ChannelPath.path).zip (outs.map List.length)) start with
      | some e => .error e
      | none => .ok (List.zipWith (storeAll (Cell.value dec S.memSize t.bytes)) outs
          (storedFrom S.memSize segs ((cs.map ChannelPath.path).zip (outs.map List.length)) start)) := by
  have hr := replay_refines h
  have hlook := lookupPositions_eq (t := t) (cs := cs) (locs := fun c => locations segs c.path)
    (fun c hc => hr.positions (hl c hc))
  have hinc : ∀ ls ∈ cs.map (fun c => locations segs c.path), Increasing ls := by
    intro ls hls
    obtain ⟨c, hc, rfl⟩ := List.mem_map.mp hls
    obtain ⟨o, ho, hlo⟩ := Option.map_eq_some_iff.mp (hr.positions (hl c hc))
    rw [← hlo]; exact hr.inv.incr _ _ ho
  have hlt : ∀ ls ∈ cs.map (fun c => locations segs c.path), ∀ l ∈ ls, l.dataBlock < t.index.dataBlocks.length := by
    intro ls hls
    obtain ⟨c, hc, rfl⟩ := List.mem_map.mp hls
    obtain ⟨o, ho, hlo⟩ := Option.map_eq_some_iff.mp (hr.positions (hl c hc))
    intro l hl
    rw [← hlo] at hl
    obtain ⟨b, _, _, hb, _⟩ := hr.inv.valid _ _ ho l hl
    exact (List.getElem?_eq_some_iff.mp hb).1
  have hcount : t.index.dataBlocks.length = (dataPrefixes segs).length := by
    have := congrArg List.length hr.blocks
    simpa using this
  let st : List (Text × Progress α) := (cs.zip outs).map fun x => (x.1.path, ⟨x.2, 0⟩)
  have hbufs : st.map (fun x => ((x.1, x.2.output.length) : Buffer)) =
      (cs.map ChannelPath.path).zip (outs.map List.length) := by
    show ((cs.zip outs).map _).map _ = _
    rw [List.map_map, List.zip_map]
    rfl
  have hprog : st.map (·.2.samplesRead) =
      ((cs.map ChannelPath.path).zip (outs.map List.length)).map fun _ => 0 := by
    rw [← hbufs]
    show ((cs.zip outs).map _).map _ = (((cs.zip outs).map _).map _).map _
    rw [List.map_map, List.map_map, List.map_map]
    rfl
  have hst2 : st.map (·.2) = outs.map fun o => (⟨o, 0⟩ : Progress α) := by
    show ((cs.zip outs).map _).map _ = _
    rw [List.map_map]
    conv => rhs; rw [← List.map_snd_zip (show outs.length ≤ cs.length by omega)]
    rw [List.map_map]
    rfl
  have hout : st.map (·.2.output) = outs := by
    show ((cs.zip outs).map _).map _ = _
    rw [List.map_map]
    exact List.map_snd_zip (show outs.length ≤ cs.length by omega)
  have hlocs : st.map (fun x => locations segs x.1) = cs.map fun c => locations segs c.path := by
    show ((cs.zip outs).map _).map _ = _
    rw [List.map_map]
    conv => rhs; rw [← List.map_fst_zip (show cs.length ≤ outs.length by omega)]
    rw [List.map_map]
    rfl
  have hex := executePlan_outcome (dec := dec) hS hsh hmem h hf start hadd (dataPrefixes segs).length 0 st
    (Nat.zero_add _) hbufs
  rw [List.drop_zero, hprog, hout, hlocs, hst2] at hex
  unfold TdmsFile.readChannelsFrom
  rw [hlook]
  show (readPlan (cs.map fun c => locations segs c.path) start >>= fun plan =>
      executePlan S t plan (outs.map fun o => ⟨o, 0⟩) >>= fun ps => pure (ps.map (·.output))) = _
  rw [readPlan_eq start t.index.dataBlocks.length _ hinc hlt]
  show (executePlan S t (plan start t.index.dataBlocks.length (cs.map fun c => locations segs c.path))
    (outs.map fun o => ⟨o, 0⟩) >>= _) = _
  unfold plan
  rw [List.range_eq_range', hcount]
  revert hex
  show Ends _ (readsFault S.supported S.natural S.memSize t.bytes.length segs _ start) _ (storedFrom S.memSize segs _ start)
    _ → _
  cases readsFault S.supported S.natural S.memSize t.bytes.length segs
      ((cs.map ChannelPath.path).zip (outs.map List.length)) start with
  | some e =>
    intro hex
    have hex : _ = Except.error e := hex
    rw [hex]
    rfl
  | none =>
    rintro ⟨ps, hps, hres⟩
    rw [hps]
    show Except.ok (ps.map (·.output)) = _
    rw [hres]

end
end Tedium
