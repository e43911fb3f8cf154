import Verif.Proofs.Outcome
import Verif.Spec.Outcome

/-! # How a read of one block, and of one channel, ends -/

namespace Tedium
open PlanSpec SegSpec

section
variable {α : Type} {S : Storage α} {dec : Endian → Bytes → α}

theorem allRead_iff (ext : Col α → Nat) (P : Nat → Prop) : ∀ (cols : List (Col α)) (o : Nat),
    AllRead ext P o cols ↔ ∀ (j : Nat) (c : Col α), cols[j]? = some c → c.out.isSome = true →
      P (o + ((cols.take j).map ext).sum) := by
  intro cols
  induction cols with
  | nil => intro o; simp [AllRead]
  | cons c cs ih =>
    intro o
    rw [AllRead, ih]
    constructor
    · rintro ⟨h1, h2⟩ j d hj hd
      cases j with
      | zero =>
        simp only [List.getElem?_cons_zero, Option.some.injEq] at hj
        subst hj
        simpa using h1 hd
      | succ j =>
        have := h2 j d hj hd
        rw [List.take_succ_cons, List.map_cons, List.sum_cons, ← Nat.add_assoc]
        exact this
    · intro h
      refine ⟨fun hc => by simpa using h 0 c rfl hc, ?_⟩
      intro j d hj hd
      have := h (j + 1) d hj hd
      rw [List.take_succ_cons, List.map_cons, List.sum_cons, ← Nat.add_assoc] at this
      exact this

theorem allRead_colsFor {w : Nat} {channels : List RawDataMeta} {i slot : Nat} {out : List α}
    (h : i < channels.length) (ext : Col α → Nat) (P : Nat → Prop) :
    AllRead ext P 0 (colsFor w channels i slot out) ↔ P (((colsFor w channels i slot out).take i).map ext).sum := by
  rw [allRead_iff]
  constructor
  · intro hx
    have := hx i _ ((colsFor_getElem? w channels i slot out i).trans
      (by rw [List.getElem?_eq_getElem h]; rfl)) (by simp)
    simpa using this
  · intro hx j c hj hc
    rw [colsFor_getElem?] at hj
    obtain ⟨m, _, rfl⟩ := Option.map_eq_some_iff.mp hj
    by_cases hji : j = i
    · subst hji; simpa using hx
    · simp [hji] at hc

/-- the part of a block read that does not depend on the data -/
structure DataBlock.Holds (S : Storage α) (b : DataBlock) (i : Nat) (m : RawDataMeta) (k : Nat) : Prop where
  addresses : b.start + b.length < 2 ^ 63
  channel : b.channels[i]? = some m
  values : 0 < m.numberOfValues
  skip : m.dataType ∈ S.supported → k < 2 ^ 63
  row : (stepWidths b.channels i S.memSize).sum < 2 ^ 63

/-- the outcome of a block read -/
def BlockOutcome (S : Storage α) (dec : Endian → Bytes → α) (f : Bytes) (b : DataBlock) (i : Nat) (m : RawDataMeta)
    (k slot : Nat) (out : List α) (x : R (Nat × List (RecordEntry α))) : Prop :=
  match b.fault S.supported S.natural S.memSize f.length i m k out.length with
  | some e => x = .error e
  | none => ∃ res, x = .ok res ∧ res.1 = min (b.delivered i m S.memSize k).length out.length ∧
      (planOutputs res.2).lookup slot = some (overlay out ((b.delivered i m S.memSize k).map
        fun p => dec b.byteOrder ((f.drop p).take S.memSize)))

theorem DataBlock.Holds.outcome (hS : S.Reads dec) (hsh : S.Short) (hmem : S.memSize < 2 ^ 63) {f : Bytes}
    {b : DataBlock} {i : Nat} {m : RawDataMeta} {k : Nat} (h : b.Holds S i m k) (slot : Nat) (out : List α) :
    BlockOutcome S dec f b i m k slot out (b.readWithSkip S f [⟨i, slot, out, k⟩]) ∧
    (k = 0 → BlockOutcome S dec f b i m k slot out (b.read S f [⟨i, slot, out, k⟩])) := by
  obtain ⟨hin, hch, hn, hk63, hrow63⟩ := h
  have hi := (List.getElem?_eq_some_iff.mp hch).1
  unfold BlockOutcome DataBlock.fault
  by_cases hty : m.dataType ∈ S.supported
  case neg =>
    rw [if_pos hty]
    dsimp only
    have hv : ∀ r : ChannelRequest α, r.channelIndex = i → buildRecordPlan S b.channels [r] =
        .error (.err (.dataTypeMismatch m.dataType S.natural)) := by
      intro r hr
      unfold buildRecordPlan validateTypes
      rw [hr, hch]
      dsimp only
      rw [if_neg (by simpa using hty)]
      rfl
    unfold DataBlock.readWithSkip DataBlock.read
    rw [hv _ rfl]
    exact ⟨rfl, fun _ => rfl⟩
  case pos =>
  rw [if_neg (fun h => h hty)]
  replace hk63 := hk63 hty
  have hplan := buildRecordPlan_eq (S := S) b.channels [⟨i, slot, out, k⟩] (List.pairwise_singleton _ _)
    (by intro r hr; rw [List.mem_singleton.mp hr]; exact ⟨m, hch, hty⟩)
  rw [colsFor_entry S.memSize] at hplan
  dsimp only at hplan
  obtain ⟨hbytes, hsizes⟩ := colsFor_bytes S.memSize b.channels i slot out
  have hany := colsFor_any (w := S.memSize) (slot := slot) (out := out) hi
  have hcnt := colsFor_count (w := S.memSize) (slot := slot) (out := out) hi
  have hsz := colsFor_sized (S := S) b.channels i slot out
  have hpos : ∀ c ∈ colsFor S.memSize b.channels i slot out, c.size < 2 ^ 63 := by
    intro c hc
    obtain ⟨j, m', _, rfl⟩ := mem_colsFor hc
    dsimp only
    split
    · exact hmem
    · exact size_small _
  have huni : Uni m.numberOfValues out.length (colsFor S.memSize b.channels i slot out) := by
    intro c hc x hx
    obtain ⟨j, m', hm', rfl⟩ := mem_colsFor hc
    by_cases hj : j = i
    · subst hj
      rw [hch] at hm'
      cases hm'
      simp only [if_true, Option.some.injEq] at hx
      subst hx
      exact ⟨rfl, rfl⟩
    · simp [hj] at hx
  unfold DataBlock.readWithSkip DataBlock.read
  dsimp only [List.map_cons, List.map_nil]
  rw [hplan]
  cases hlay : b.layout with
  | contigious =>
    dsimp only
    have hbind : ∀ (x : R ((Nat × List (RecordEntry α)) × Nat)) (e : Fail), x = .error e →
        (x >>= fun r => (pure r.1 : R (Nat × List (RecordEntry α)))) = .error e := by
      rintro x e rfl; rfl
    obtain ⟨m0, hm0⟩ : ∃ m0, b.channels.head? = some m0 := by
      cases hcs : b.channels with
      | nil => rw [hcs] at hi; simp at hi
      | cons a as => exact ⟨a, rfl⟩
    have hfirst : (colsFor S.memSize b.channels i slot out).head?.map (·.length) = some m0.numberOfValues := by
      cases hcs : b.channels with
      | nil => rw [hcs] at hm0; cases hm0
      | cons a as => rw [hcs] at hm0; cases hm0; simp [colsFor, List.mapIdx_cons]
    have hhead : (b.channels.map (·.numberOfValues)).headD 0 = m0.numberOfValues := by
      cases hcs : b.channels with
      | nil => rw [hcs] at hm0; cases hm0
      | cons a as => rw [hcs] at hm0; cases hm0; rfl
    have hbs0 := stepChunks_pos (w := S.memSize) hch hn hS.pos
    obtain ⟨c0, cs0, hcols⟩ : ∃ c cs, colsFor S.memSize b.channels i slot out = c :: cs := by
      cases hc : colsFor S.memSize b.channels i slot out with
      | nil => rw [hc] at hfirst; cases hfirst
      | cons c cs => exact ⟨c, cs, rfl⟩
    have hsub0 : c0.length = m0.numberOfValues := by rw [hcols] at hfirst; simpa using hfirst
    have hfl : firstLength ((colsFor S.memSize b.channels i slot out).map (Col.entry 0)) = .ok m0.numberOfValues := by
      rw [hcols, ← hsub0]; rfl
    by_cases hbig : 2 ^ 64 ≤ (stepChunks b.channels i S.memSize).sum
    · rw [if_pos hbig]
      dsimp only
      have hbl : blockSize S ((colsFor S.memSize b.channels i slot out).map (Col.entry 0)) =
          (R.panic .overflow : R Nat) := by
        have heq : ((colsFor S.memSize b.channels i slot out).map (Col.entry 0)).map
            (fun e => e.plan.sizeBytes S * e.length) =
            (colsFor S.memSize b.channels i slot out).map Col.bytes := by
          rw [List.map_map]
          apply List.map_congr_left
          intro c hc
          simp only [Function.comp, Col.entry, Col.bytes]
          cases ho : c.out with
          | none => simp [EntryPlan.sizeBytes, Nat.mul_comm]
          | some x => simp [EntryPlan.sizeBytes, hsz c hc (by rw [ho]; rfl), Nat.mul_comm]
        unfold blockSize
        rw [heq, hbytes]
        dsimp only
        rw [if_neg (by unfold u64Lim; omega)]
      constructor
      · refine hbind _ _ ?_
        unfold contigReadSkip
        rw [Rd.bind_ok (show Rd.seek b.start f 0 = .ok ((), b.start) from rfl), hbl]
        rfl
      · intro _
        refine hbind _ _ ?_
        unfold contigReadFrom
        rw [Rd.bind_ok (show Rd.seek b.start f 0 = .ok ((), b.start) from rfl), hbl]
        rfl
    rw [if_neg hbig, hhead]
    have hbl := blockSize_entry (S := S) 0 _ hsz (by rw [hbytes]; omega)
    rw [hbytes] at hbl
    have hdiv : divR b.length (stepChunks b.channels i S.memSize).sum =
        .ok (b.length / (stepChunks b.channels i S.memSize).sum) := by unfold divR; rw [if_neg (by omega)]
    by_cases hz : m0.numberOfValues = 0
    · rw [if_pos hz]
      dsimp only
      constructor
      · refine hbind _ _ ?_
        unfold contigReadSkip
        rw [Rd.bind_ok (show Rd.seek b.start f 0 = .ok ((), b.start) from rfl), lift_bind hbl, lift_bind hdiv,
          lift_bind hfl, hz]
        rfl
      · intro _
        refine hbind _ _ ?_
        unfold contigReadFrom
        rw [Rd.bind_ok (show Rd.seek b.start f 0 = .ok ((), b.start) from rfl), lift_bind hbl, lift_bind hdiv,
          lift_bind hfl, hz]
        rfl
    rw [if_neg hz]
    have hm0pos : 0 < m0.numberOfValues := by omega
    have hD : b.delivered i m S.memSize k = ((List.range (m.numberOfValues *
        (b.length / (stepChunks b.channels i S.memSize).sum))).drop
          (DataBlock.skippedFor m0.numberOfValues m.numberOfValues k)).map fun s =>
        b.start + s / m.numberOfValues * (stepChunks b.channels i S.memSize).sum +
          ((stepChunks b.channels i S.memSize).take i).sum + s % m.numberOfValues * S.memSize := by
      unfold DataBlock.delivered
      rw [hlay]
      dsimp only
      rw [hhead]
    obtain ⟨hok, herr⟩ := contigLoop_total hS hsh b.byteOrder f b.start (stepChunks b.channels i S.memSize).sum
      (k / m0.numberOfValues) (k % m0.numberOfValues) m.numberOfValues
      (b.length / (stepChunks b.channels i S.memSize).sum) 0 (colsFor S.memSize b.channels i slot out) 0 out.length 0
      hsz hpos (by rw [hbytes]) (by
        have := Nat.div_mul_le_self b.length (stepChunks b.channels i S.memSize).sum
        rw [Nat.zero_add]
        omega) huni
    have hneed : AllRead Col.bytes (LoopNeeds S.memSize f.length b.start (stepChunks b.channels i S.memSize).sum
        (k / m0.numberOfValues) (k % m0.numberOfValues) m.numberOfValues
        (b.length / (stepChunks b.channels i S.memSize).sum) 0 out.length) 0
        (colsFor S.memSize b.channels i slot out) ↔
        Inside S.memSize f.length ((b.delivered i m S.memSize k).take out.length) := by
      rw [allRead_colsFor hi, loopNeeds_iff, chunkPos_skipped, hD, List.map_take, hbytes]
      exact Iff.rfl
    rw [hneed] at hok herr
    have hfrom : contigReadFrom S b.byteOrder b.start b.length
        ((colsFor S.memSize b.channels i slot out).map (Col.entry 0)) k f 0 =
        contigLoop S b.byteOrder (stepChunks b.channels i S.memSize).sum (k / m0.numberOfValues)
          (k % m0.numberOfValues) (b.length / (stepChunks b.channels i S.memSize).sum) 0
          ((colsFor S.memSize b.channels i slot out).map (Col.entry 0)) 0 f
          (b.start + 0 * (stepChunks b.channels i S.memSize).sum) := by
      unfold contigReadFrom
      rw [Rd.bind_ok (show Rd.seek b.start f 0 = .ok ((), b.start) from rfl), lift_bind hbl, lift_bind hdiv,
        lift_bind hfl, lift_bind (show divR k m0.numberOfValues = .ok (k / m0.numberOfValues) by
          unfold divR; rw [if_neg hz]), Nat.zero_mul, Nat.add_zero]
    have hskip := contigReadSkip_uniform (S := S) b.byteOrder f b.start b.length 0 k 0 m0.numberOfValues
      (colsFor S.memSize b.channels i slot out) hfirst hm0pos
    rw [hcnt, if_pos hany, hfrom] at hskip
    by_cases hins : Inside S.memSize f.length ((b.delivered i m S.memSize k).take out.length)
    · rw [if_pos hins]
      dsimp only
      obtain ⟨k', hk'⟩ := hok hins
      rw [hk'] at hskip hfrom
      have hgood : ∀ x : R ((Nat × List (RecordEntry α)) × Nat), x = .ok ((0 +
          (if anyOut (colsFor S.memSize b.channels i slot out) then
            min (chunkCount (k / m0.numberOfValues) (k % m0.numberOfValues) m.numberOfValues 0
              (b.length / (stepChunks b.channels i S.memSize).sum)) out.length else 0),
          (feedCols Col.bytes (chunkVals S dec b.byteOrder f b.start (stepChunks b.channels i S.memSize).sum
            (k / m0.numberOfValues) (k % m0.numberOfValues) 0
            (b.length / (stepChunks b.channels i S.memSize).sum)) 0
            (colsFor S.memSize b.channels i slot out)).map (Col.entry k')),
          b.start + (0 + b.length / (stepChunks b.channels i S.memSize).sum) *
            (stepChunks b.channels i S.memSize).sum) →
          ∃ res, (x >>= fun r => (pure r.1 : R (Nat × List (RecordEntry α)))) = .ok res ∧
          res.1 = min (b.delivered i m S.memSize k).length out.length ∧
          (planOutputs res.2).lookup slot = some (overlay out ((b.delivered i m S.memSize k).map
            fun p => dec b.byteOrder ((f.drop p).take S.memSize))) := by
        rintro x rfl
        refine ⟨_, rfl, ?_, ?_⟩
        · dsimp only
          rw [if_pos hany, chunkCount_skipped, hD]
          simp
        · dsimp only
          rw [colsFor_outputs S.memSize b.channels slot out hch, chunkVals_skipped, List.map_take, hbytes, hD]
          unfold flatVals
          rw [List.map_map, List.map_drop]
          rfl
      exact ⟨hgood _ hskip, by rintro rfl; exact hgood _ hfrom⟩
    · rw [if_neg hins]
      dsimp only
      have he := herr hins
      rw [he] at hskip hfrom
      exact ⟨hbind _ _ hskip, by rintro rfl; exact hbind _ _ hfrom⟩
  | interleaved =>
    dsimp only
    have hbind : ∀ (x : R ((Nat × List (RecordEntry α)) × Nat)) (e : Fail), x = .error e →
        (x >>= fun r => (pure r.1 : R (Nat × List (RecordEntry α)))) = .error e := by
      rintro x e rfl; rfl
    have hrow := stepWidths_pos (w := S.memSize) hch hS.pos
    have hset : ∀ k, setSkips [k] ((colsFor S.memSize b.channels i slot out).map (Col.entry 0)) =
        (colsFor S.memSize b.channels i slot out).map (Col.entry k) := by
      intro k
      have := setSkips_replicate k ((colsFor S.memSize b.channels i slot out).map (Col.entry 0))
      rw [blockSkips_entry, hcnt, List.length_replicate, mapSkips_entry] at this
      exact this
    have hD : b.delivered i m S.memSize k = ((List.range (b.length / (stepWidths b.channels i S.memSize).sum)).drop
        k).map fun r => b.start + r * (stepWidths b.channels i S.memSize).sum +
          ((stepWidths b.channels i S.memSize).take i).sum := by
      unfold DataBlock.delivered
      rw [hlay]
    suffices main : (match (if 2 ^ 63 ≤ k * (stepWidths b.channels i S.memSize).sum then some (.panic .overflow)
        else if Inside S.memSize f.length ((b.delivered i m S.memSize k).take (out.length + 1)) then none
        else some endOfFile : Option Fail) with
        | some e => interRead S b.byteOrder b.start b.length
            ((colsFor S.memSize b.channels i slot out).map (Col.entry k)) f 0 = .error e
        | none => ∃ res q, interRead S b.byteOrder b.start b.length
            ((colsFor S.memSize b.channels i slot out).map (Col.entry k)) f 0 = .ok (res, q) ∧
            res.1 = min (b.delivered i m S.memSize k).length out.length ∧
            (planOutputs res.2).lookup slot = some (overlay out ((b.delivered i m S.memSize k).map
              fun p => dec b.byteOrder ((f.drop p).take S.memSize)))) by
      revert main
      cases (if 2 ^ 63 ≤ k * (stepWidths b.channels i S.memSize).sum then some (.panic .overflow)
        else if Inside S.memSize f.length ((b.delivered i m S.memSize k).take (out.length + 1)) then none
        else some endOfFile : Option Fail) with
      | some e =>
        intro main
        constructor
        · show (do let r ← interRead S b.byteOrder b.start b.length (setSkips [k] _) f 0; pure r.1) = _
          rw [hset]
          exact hbind _ _ main
        · rintro rfl
          exact hbind _ _ main
      | none =>
        rintro ⟨res, q, h1, h2, h3⟩
        constructor
        · refine ⟨res, ?_, h2, h3⟩
          show (do let r ← interRead S b.byteOrder b.start b.length (setSkips [k] _) f 0; pure r.1) = _
          rw [hset, h1]
          rfl
        · rintro rfl
          refine ⟨res, ?_, h2, h3⟩
          show (do let r ← interRead S b.byteOrder b.start b.length _ f 0; pure r.1) = _
          rw [h1]
          rfl
    generalize hR : (stepWidths b.channels i S.memSize).sum = rs at *
    have hle : b.length / rs * rs ≤ b.length := Nat.div_mul_le_self _ _
    have hdiv : divR b.length rs = .ok (b.length / rs) := by unfold divR; rw [if_neg (by omega)]
    have hmin : minOrZero (blockSkips ((colsFor S.memSize b.channels i slot out).map (Col.entry k))) = k := by
      rw [blockSkips_entry, minOrZero_replicate, hcnt, if_neg (by omega)]
    have hmap : mapSkips (fun s => s - k) ((colsFor S.memSize b.channels i slot out).map (Col.entry k)) =
        (colsFor S.memSize b.channels i slot out).map (Col.entry 0) := by
      rw [mapSkips_entry, Nat.sub_self]
    have hread : interRead S b.byteOrder b.start b.length
        ((colsFor S.memSize b.channels i slot out).map (Col.entry k)) f 0 =
        if 2 ^ 63 ≤ k * rs then .error (.panic .overflow)
        else interLoop S b.byteOrder (b.length / rs - k) 0
          ((colsFor S.memSize b.channels i slot out).map (Col.entry 0)) 0 f (b.start + k * rs) := by
      unfold interRead
      rw [Rd.bind_ok (show Rd.seek b.start f 0 = .ok ((), b.start) from rfl), rowSize_entry k _ hsz, hsizes, hR,
        lift_bind hdiv]
      simp only [hmin]
      rw [hmap]
      by_cases hk0 : k > 0
      · rw [if_pos hk0]
        by_cases hbig : 2 ^ 63 ≤ k * rs
        · rw [if_pos hbig]
          have : mulI64 (toI64 k) (toI64 rs) = (R.panic .overflow : R Int) := by
            unfold mulI64 toI64
            rw [if_pos hk63, if_pos hrow63, ← Int.natCast_mul, if_neg]
            rintro ⟨_, h2⟩
            have h3 : k * rs < 2 ^ 63 := by exact_mod_cast h2
            omega
          rw [this]
          rfl
        · rw [if_neg hbig, lift_bind (mulI64_small (by omega) hk63 hrow63), Rd.bind_ok (move_nat _ _ _ (by omega))]
      · rw [if_neg hk0]
        have : k = 0 := by omega
        subst this
        rw [Nat.zero_mul, if_neg (by omega), Nat.add_zero]
    rw [hread]
    by_cases hbig : 2 ^ 63 ≤ k * rs
    · rw [if_pos hbig, if_pos hbig]
    rw [if_neg hbig, if_neg hbig]
    obtain ⟨hok, herr⟩ := interLoop_total hS hsh b.byteOrder f b.start rs m.numberOfValues (b.length / rs - k) k 0
      (colsFor S.memSize b.channels i slot out) 0 out.length hsz hany (by rw [hsizes, hR]) (by
        rcases Nat.le_total k (b.length / rs) with hk | hk
        · rw [show k + (b.length / rs - k) = b.length / rs by omega]; omega
        · rw [show k + (b.length / rs - k) = k by omega]; omega) huni
    have hneed : AllRead Col.size (RowNeeds S.memSize f.length b.start rs (b.length / rs - k) k out.length) 0
        (colsFor S.memSize b.channels i slot out) ↔
        Inside S.memSize f.length ((b.delivered i m S.memSize k).take (out.length + 1)) := by
      rw [allRead_colsFor hi, rowNeeds_iff, hD, List.map_take, hsizes, List.range_eq_range', List.drop_range']
      simp [Inside]
    rw [hneed] at hok herr
    by_cases hins : Inside S.memSize f.length ((b.delivered i m S.memSize k).take (out.length + 1))
    · rw [if_pos hins]
      dsimp only
      obtain ⟨q, hq⟩ := hok hins
      refine ⟨_, q, hq, ?_, ?_⟩
      · dsimp only
        rw [hD]
        simp
      · dsimp only
        rw [colsFor_outputs S.memSize b.channels slot out hch, List.map_take, hsizes, hD]
        unfold rowVals
        rw [List.map_map, List.range_eq_range', List.drop_range']
        simp only [Nat.zero_add, Nat.mul_one]
        rfl
    · rw [if_neg hins]
      exact herr hins

/-! ## The plan for one channel -/

/-- the first fault of the blocks `B, …, B + d - 1` -/
def planFault (W : Nat → List α) (E : Nat → Nat → Option Fail) : Nat → Nat → Nat → Option Fail
  | 0, _, _ => none
  | d + 1, B, room =>
    if room = 0 then none
    else match E B room with
      | some e => some e
      | none => planFault W E d (B + 1) (room - (W B).length)

/-- what a block read has to do: fail with `E`, or deliver `W` -/
def Yields (W : List α) (E : Nat → Option Fail) (out : List α) (x : R (Nat × List (RecordEntry α))) : Prop :=
  (∀ e, E out.length = some e → x = .error e) ∧
  (E out.length = none → ∃ res, x = .ok res ∧ res.1 = min W.length out.length ∧
    (planOutputs res.2).lookup 0 = some (overlay out W))

/-- Executing the plan for one channel: `W B` are the values that block number `B` delivers, `E B` is how it fails. -/
theorem executeSingle_outcome {t : TdmsFile} {start : Nat} {ls : List DataLocation} {out : List α}
    (W : Nat → List α) (E : Nat → Nat → Option Fail)
    (hnone : ∀ B, visit start B ls = none → W B = [] ∧ ∀ room, E B room = none)
    (hsome : ∀ B pl, visit start B ls = some pl → ∃ b, t.index.getDataBlock B = some b ∧ ∀ out' : List α,
      Yields (W B) (E B) out' (b.readWithSkip S t.bytes [⟨pl.index, 0, out', pl.samplesToSkip⟩]) ∧
      (pl.samplesToSkip = 0 →
        Yields (W B) (E B) out' (b.read S t.bytes [⟨pl.index, 0, out', pl.samplesToSkip⟩]))) :
    ∀ (d B : Nat), (given W B).length < out.length →
      (∀ e, planFault W E d B (out.length - (given W B).length) = some e →
        executePlan S t ((List.range' B d).filterMap (fun block => visitAll start block [ls]))
          [⟨overlay out (given W B), (given W B).length⟩] = .error e) ∧
      (planFault W E d B (out.length - (given W B).length) = none →
        ∃ ps, executePlan S t ((List.range' B d).filterMap (fun block => visitAll start block [ls]))
          [⟨overlay out (given W B), (given W B).length⟩] = .ok ps ∧
        (ps.map (·.output)).headD [] = overlay out (given W (B + d))) := by
  intro d
  induction d with
  | zero =>
    intro B _
    refine ⟨?_, fun _ => ⟨_, rfl, rfl⟩⟩
    intro e he
    cases he
  | succ d ih =>
    intro B hB
    rw [List.range'_succ, List.filterMap_cons]
    have hmono : ∀ d B, ∃ ys, given W (B + d) = given W B ++ ys := by
      intro d
      induction d with
      | zero => intro B; exact ⟨[], by simp⟩
      | succ d ihd =>
        intro B
        obtain ⟨ys, hys⟩ := ihd B
        exact ⟨ys ++ W (B + d), by rw [← Nat.add_assoc, given_succ, hys, List.append_assoc]⟩
    rw [planFault, if_neg (by omega)]
    cases hv : visit start B ls with
    | none =>
      have hva : visitAll start B [ls] = none := by unfold visitAll; simp [hv]
      obtain ⟨hW, hE⟩ := hnone B hv
      have hg : given W (B + 1) = given W B := by rw [given_succ, hW, List.append_nil]
      rw [hva, hE, hW]
      have := ih (B + 1) (by rw [hg]; exact hB)
      rw [hg, show B + 1 + d = B + (d + 1) by omega] at this
      exact this
    | some pl =>
      have hva : visitAll start B [ls] = some ⟨B, [some pl]⟩ := by unfold visitAll; simp [hv]
      rw [hva]
      dsimp only
      obtain ⟨b, hgb, hread⟩ := hsome B pl hv
      obtain ⟨h1, h2⟩ := hread ((overlay out (given W B)).drop (given W B).length)
      have hreqs : blockRequests 0 [some pl] [(⟨overlay out (given W B), (given W B).length⟩ : Progress α)] =
          [⟨pl.index, 0, (overlay out (given W B)).drop (given W B).length, pl.samplesToSkip⟩] := by
        unfold blockRequests
        rw [if_neg]
        · rfl
        · unfold Progress.isComplete
          simp only [length_overlay, decide_eq_true_eq]
          omega
      have hy : Yields (W B) (E B) ((overlay out (given W B)).drop (given W B).length)
          (if decide (pl.samplesToSkip > 0) = true then
            b.readWithSkip S t.bytes [⟨pl.index, 0, (overlay out (given W B)).drop (given W B).length,
              pl.samplesToSkip⟩]
          else b.read S t.bytes [⟨pl.index, 0, (overlay out (given W B)).drop (given W B).length,
              pl.samplesToSkip⟩]) := by
        by_cases hsk : pl.samplesToSkip > 0
        · rw [if_pos (by simpa using hsk)]; exact h1
        · rw [if_neg (by simpa using hsk)]; exact h2 (by omega)
      have hblk : ∀ x, x = (if decide (pl.samplesToSkip > 0) = true then
            b.readWithSkip S t.bytes [⟨pl.index, 0, (overlay out (given W B)).drop (given W B).length,
              pl.samplesToSkip⟩]
          else b.read S t.bytes [⟨pl.index, 0, (overlay out (given W B)).drop (given W B).length,
              pl.samplesToSkip⟩]) →
          executeBlock S t ⟨B, [some pl]⟩ [⟨overlay out (given W B), (given W B).length⟩] =
          match x with
          | .error e => .error e
          | .ok (n, plan) => .ok (addSamples n [some pl] (storeOutputs (planOutputs plan) 0
              [⟨overlay out (given W B), (given W B).length⟩])) := by
        rintro x rfl
        unfold executeBlock
        dsimp only
        rw [hgb, hreqs]
        simp only [List.any_cons, List.any_nil, Bool.or_false]
        rfl
      have hdrop : ((overlay out (given W B)).drop (given W B).length).length = out.length - (given W B).length := by
        rw [List.length_drop, length_overlay]
      obtain ⟨hyE, hyO⟩ := hy
      rw [hdrop] at hyE hyO
      unfold executePlan
      cases hE : E B (out.length - (given W B).length) with
      | some e =>
        rw [hblk _ rfl, hyE e hE]
        dsimp only
        refine ⟨?_, fun h => by cases h⟩
        intro e' he'
        cases he'
        rfl
      | none =>
        obtain ⟨⟨n, plan⟩, hr1, hr2, hr3⟩ := hyO hE
        have hblock : executeBlock S t ⟨B, [some pl]⟩ [⟨overlay out (given W B), (given W B).length⟩] =
            .ok [⟨overlay out (given W (B + 1)), (given W B).length + n⟩] := by
          rw [hblk _ rfl, hr1]
          dsimp only
          unfold storeOutputs storeOutputs addSamples addSamples
          dsimp only at hr3 ⊢
          rw [hr3]
          simp only [Option.isSome_some, if_true]
          have happ := overlay_append out (given W B) (W B)
          rw [Nat.min_eq_left (by omega)] at happ
          rw [given_succ, ← happ]
        dsimp only at hr2
        rw [hblock]
        dsimp only
        have hlen1 : (given W (B + 1)).length = (given W B).length + (W B).length := by
          rw [given_succ, List.length_append]
        by_cases hcomp : [(⟨overlay out (given W (B + 1)), (given W B).length + n⟩ : Progress α)].all Progress.isComplete = true
        · rw [if_pos hcomp]
          simp only [List.all_cons, List.all_nil, Bool.and_true, Progress.isComplete, length_overlay,
            decide_eq_true_eq] at hcomp
          have hz : planFault W E d (B + 1) (out.length - (given W B).length - (W B).length) = none := by
            cases d with
            | zero => rfl
            | succ d => rw [planFault, if_pos (by omega)]
          rw [hz]
          refine ⟨fun e he => (by cases he), fun _ => ⟨_, rfl, ?_⟩⟩
          obtain ⟨ys, hys⟩ := hmono d (B + 1)
          rw [show B + (d + 1) = B + 1 + d by omega, hys, overlay_full _ _ _ (by omega)]
          rfl
        · rw [if_neg hcomp]
          simp only [List.all_cons, List.all_nil, Bool.and_true, Progress.isComplete, length_overlay,
            decide_eq_true_eq] at hcomp
          have hn : n = (W B).length := by omega
          rw [hn, ← hlen1]
          have := ih (B + 1) (by omega)
          rw [show B + 1 + d = B + (d + 1) by omega] at this
          rw [show out.length - (given W B).length - (W B).length = out.length - (given W (B + 1)).length by omega]
          exact this

end
end Tedium
