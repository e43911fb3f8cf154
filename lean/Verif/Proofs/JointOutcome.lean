import Verif.Proofs.LanesCut
import Verif.Proofs.Jointly

/-! # How the read of one data block for several buffers ends -/

namespace Tedium

section
variable {α : Type} {S : Storage α} {dec : Endian → Bytes → α}

/-! ## A file with the rest of a block -/

/-- a file with zeros up to `E` bytes -/
def padTo (f : Bytes) (E : Nat) : Bytes := f ++ List.replicate (E - f.length) 0

theorem length_padTo (f : Bytes) (E : Nat) : (padTo f E).length = max f.length E := by
  unfold padTo
  rw [List.length_append, List.length_replicate]
  omega

theorem padTo_same (f : Bytes) (E p w : Nat) (h : p + w ≤ f.length) :
    (f.drop p).take w = ((padTo f E).drop p).take w := by
  unfold padTo
  rw [List.drop_append_of_le_length (by omega), List.take_append_of_le_length (by rw [List.length_drop]; omega)]

theorem sameBytes_padTo (f : Bytes) (E : Nat) : SameBytes f (padTo f E) := fun p w h _ => padTo_same f E p w h

theorem overlay_congr {β : Type} (out : List α) (u v : β → α) (l : List β) (h : ∀ p ∈ l.take out.length, u p = v p) :
    overlay out (l.map u) = overlay out (l.map v) := by
  unfold overlay
  rw [List.length_map, List.length_map, ← List.map_take, ← List.map_take, List.map_congr_left h]

/-! ## Types -/

theorem validateTypes_exact (b : DataBlock) (reqs : List (ChannelRequest α))
    (h : ∀ r ∈ reqs, r.channelIndex < b.channels.length) :
    validateTypes S b.channels reqs =
      match (reqs.map ChannelRequest.taker).findSome? (b.mismatch S.supported S.natural) with
      | some e => .error e
      | none => .ok () := by
  induction reqs with
  | nil => rfl
  | cons r rs ih =>
    have hr := h r (by simp)
    unfold validateTypes
    rw [List.map_cons, List.findSome?_cons]
    have hm : b.channels[r.channelIndex]? = some b.channels[r.channelIndex] := List.getElem?_eq_getElem hr
    rw [hm]
    unfold DataBlock.mismatch
    rw [show (ChannelRequest.taker r).chan = r.channelIndex from rfl, hm]
    dsimp only
    by_cases hs : b.channels[r.channelIndex].dataType ∈ S.supported
    · rw [if_pos hs, if_pos (by simpa using hs)]
      exact ih (fun r hr => h r (by simp [hr]))
    · rw [if_neg hs, if_neg (by simpa using hs)]

theorem typed_of_none {b : DataBlock} {ts : List Taker} {supported : List DataType} {natural : DataType}
    (hin : ∀ t ∈ ts, t.chan < b.channels.length) (h : ts.findSome? (b.mismatch supported natural) = none) :
    ∀ t ∈ ts, ∃ m, b.channels[t.chan]? = some m ∧ m.dataType ∈ supported := by
  intro t ht
  have := List.findSome?_eq_none_iff.mp h t ht
  have hlt := hin t ht
  have hm : b.channels[t.chan]? = some b.channels[t.chan] := List.getElem?_eq_getElem hlt
  unfold DataBlock.mismatch at this
  rw [hm] at this
  dsimp only at this
  refine ⟨_, hm, ?_⟩
  refine Classical.byContradiction fun hn => ?_
  rw [if_neg hn] at this
  cases this

/-! ## The positions -/

theorem readChans_mem (b : DataBlock) (ts : List Taker) (j : Nat) :
    j ∈ b.readChans ts ↔ j < b.channels.length ∧ (ts.map (·.chan)).contains j = true := by
  unfold DataBlock.readChans
  rw [List.mem_filter, List.mem_range]

theorem lanePos_offered (w : Nat) (b : DataBlock) (reqs : List (ChannelRequest α)) (hlay : b.layout = .contigious)
    (skips : List Nat)
    (hall : ∀ c, skips.all (fun s => decide (s / b.firstCount ≤ c)) =
      (reqs.map ChannelRequest.taker).all (fun t => decide (t.skip / b.firstCount ≤ c)))
    {j : Nat} {m : RawDataMeta} (hm : b.channels[j]? = some m) :
    lanePos w b.start (jointChunks b.channels ((reqs.map ChannelRequest.taker).map (·.chan)) w).sum b.firstCount
        skips 0
        (b.length / (jointChunks b.channels ((reqs.map ChannelRequest.taker).map (·.chan)) w).sum)
        (((lanesOf w b.channels reqs).take j).map (fun c => c.length * c.size)).sum m.numberOfValues
        (skipFor (reqs.map ChannelRequest.taker) j) =
      b.offered w (reqs.map ChannelRequest.taker) j := by
  unfold lanePos DataBlock.offered
  rw [hm, hlay]
  dsimp only
  rw [← List.range_eq_range', List.flatMap_def, List.flatMap_def]
  congr 1
  apply List.map_congr_left
  intro c _
  rw [hall c]
  split
  · unfold posAt
    rw [← List.map_drop]
    apply List.map_congr_left
    intro s _
    have hb2 := take_sum_map (lanesOf w b.channels reqs) Lane.bytes j
    rw [lanesOf_chunks] at hb2
    unfold Lane.bytes at hb2
    rw [hb2]
  · rfl

theorem laneCells_touched (w : Nat) (b : DataBlock) (reqs : List (ChannelRequest α)) (hlay : b.layout = .contigious)
    (skips : List Nat)
    (hall : ∀ c, skips.all (fun s => decide (s / b.firstCount ≤ c)) =
      (reqs.map ChannelRequest.taker).all (fun t => decide (t.skip / b.firstCount ≤ c))) (p : Nat) :
    p ∈ laneCells (· * ·) (lanePos w b.start
        (jointChunks b.channels ((reqs.map ChannelRequest.taker).map (·.chan)) w).sum b.firstCount skips 0
        (b.length / (jointChunks b.channels ((reqs.map ChannelRequest.taker).map (·.chan)) w).sum)) 0
        (lanesOf w b.channels reqs) ↔
      p ∈ b.touched w (reqs.map ChannelRequest.taker) := by
  rw [mem_laneCells]
  unfold DataBlock.touched
  rw [hlay]
  dsimp only
  rw [List.mem_flatMap]
  constructor
  · rintro ⟨j, c, x, hj, hx, hp⟩
    rw [lanesOf_getElem?] at hj
    obtain ⟨m, hm, rfl⟩ := Option.map_eq_some_iff.mp hj
    obtain ⟨r, hr, rfl⟩ := Option.map_eq_some_iff.mp hx
    refine ⟨j, (readChans_mem _ _ _).mpr ⟨(List.getElem?_eq_some_iff.mp hm).1, ?_⟩, ?_⟩
    · rw [← getter_isSome, hr]; rfl
    · rw [Nat.zero_add] at hp
      rw [roomFor_getter, hr, ← lanePos_offered w b reqs hlay skips hall hm]
      exact hp
  · rintro ⟨j, hj, hp⟩
    obtain ⟨hlt, hc⟩ := (readChans_mem _ _ _).mp hj
    rw [← getter_isSome] at hc
    obtain ⟨r, hr⟩ := Option.isSome_iff_exists.mp hc
    have hm : b.channels[j]? = some b.channels[j] := List.getElem?_eq_getElem hlt
    refine ⟨j, laneAt w reqs j b.channels[j], (r.slot, ⟨[], r.output⟩), ?_, ?_, ?_⟩
    · rw [lanesOf_getElem?, hm]; rfl
    · unfold laneAt
      rw [hr]; rfl
    · rw [Nat.zero_add]
      rw [roomFor_getter, hr, ← lanePos_offered w b reqs hlay skips hall hm] at hp
      exact hp

theorem rowCells_touched (w : Nat) (b : DataBlock) (reqs : List (ChannelRequest α)) (q p : Nat) :
    p ∈ rowCells (b.start + q * (jointWidths b.channels ((reqs.map ChannelRequest.taker).map (·.chan)) w).sum) 0
        (lanesOf w b.channels reqs) ↔
      p ∈ (b.readChans (reqs.map ChannelRequest.taker)).map fun i =>
        b.start + q * (jointWidths b.channels ((reqs.map ChannelRequest.taker).map (·.chan)) w).sum +
          ((jointWidths b.channels ((reqs.map ChannelRequest.taker).map (·.chan)) w).take i).sum := by
  rw [mem_rowCells, List.mem_map]
  have hsum : ∀ j, (((lanesOf w b.channels reqs).take j).map Lane.size).sum =
      ((jointWidths b.channels ((reqs.map ChannelRequest.taker).map (·.chan)) w).take j).sum := by
    intro j
    rw [take_sum_map, lanesOf_widths]
  constructor
  · rintro ⟨j, c, hj, hs, rfl⟩
    rw [lanesOf_getElem?] at hj
    obtain ⟨m, hm, rfl⟩ := Option.map_eq_some_iff.mp hj
    unfold laneAt at hs
    rw [Option.isSome_map, getter_isSome] at hs
    refine ⟨j, (readChans_mem _ _ _).mpr ⟨(List.getElem?_eq_some_iff.mp hm).1, hs⟩, ?_⟩
    rw [hsum, Nat.zero_add]
  · rintro ⟨j, hj, rfl⟩
    obtain ⟨hlt, hc⟩ := (readChans_mem _ _ _).mp hj
    have hm : b.channels[j]? = some b.channels[j] := List.getElem?_eq_getElem hlt
    refine ⟨j, laneAt w reqs j b.channels[j], ?_, ?_, ?_⟩
    · rw [lanesOf_getElem?, hm]; rfl
    · unfold laneAt
      rw [Option.isSome_map, getter_isSome]
      exact hc
    · rw [hsum, Nat.zero_add]

/-- the values that a channel gets are read -/
theorem offered_touched (w : Nat) (b : DataBlock) (ts : List Taker) {j : Nat} (hj : j ∈ b.readChans ts) {p : Nat}
    (hp : p ∈ (b.offered w ts j).take (roomFor ts j)) : p ∈ b.touched w ts := by
  unfold DataBlock.touched
  cases hlay : b.layout with
  | contigious =>
    dsimp only
    exact List.mem_flatMap.mpr ⟨j, hj, hp⟩
  | interleaved =>
    dsimp only
    have hp := List.mem_of_mem_take hp
    unfold DataBlock.offered at hp
    have hlt := ((readChans_mem _ _ _).mp hj)
    rw [List.getElem?_eq_getElem hlt.1, hlay] at hp
    dsimp only at hp
    obtain ⟨r, hr, rfl⟩ := List.mem_map.mp hp
    obtain ⟨k, hk⟩ := List.mem_iff_getElem?.mp hr
    rw [List.getElem?_drop] at hk
    obtain ⟨hk1, hk2⟩ := List.getElem?_eq_some_iff.mp hk
    rw [List.length_range] at hk1
    rw [List.getElem_range] at hk2
    have hle := firstRow_le b ts j hlt.1 hlt.2
    have hrows : b.rowsRead w ts ≤ b.length / (jointWidths b.channels (ts.map (·.chan)) w).sum - b.firstRow ts := by
      unfold DataBlock.rowsRead
      dsimp only
      refine Nat.le_trans (List.takeWhile_sublist _).length_le ?_
      rw [List.length_range']
      exact Nat.le_refl _
    refine List.mem_flatMap.mpr ⟨r, ?_, List.mem_map_of_mem hj⟩
    rw [List.mem_range'_1]
    omega

/-! ## Blocks with and without the rest -/

theorem JointResult.unpad {E : Nat} {f : Bytes} {b : DataBlock} {reqs : List (ChannelRequest α)} {w : Nat}
    {res : Nat × List (RecordEntry α)} (h : JointResult w dec (padTo f E) b reqs res)
    (hin : Inside w f.length (b.touched w (reqs.map ChannelRequest.taker))) : JointResult w dec f b reqs res := by
  refine ⟨h.number, ?_, h.others⟩
  intro j r hr hj
  rw [h.gets j r hr hj]
  congr 1
  apply overlay_congr
  intro p hp
  have hroom : roomFor (reqs.map ChannelRequest.taker) j = r.output.length := by
    rw [roomFor_getter, hr]; rfl
  rw [← hroom] at hp
  have := hin p (offered_touched w b _ ((readChans_mem _ _ _).mpr ⟨hj, by rw [← getter_isSome, hr]; rfl⟩) hp)
  unfold Cell.value
  dsimp only
  rw [padTo_same f E p w this]

theorem jointWidths_lt (chs : List RawDataMeta) (is : List Nat) {w : Nat} (hw : w ≤ 16) (h : chs.length < 2 ^ 59) :
    (jointWidths chs is w).sum < 2 ^ 63 := by
  have hle : ∀ x ∈ jointWidths chs is w, x ≤ 16 := by
    intro x hx
    unfold jointWidths at hx
    obtain ⟨j, hj⟩ := List.mem_iff_getElem?.mp hx
    rw [List.getElem?_mapIdx] at hj
    obtain ⟨m, _, rfl⟩ := Option.map_eq_some_iff.mp hj
    have : m.dataType.size ≤ 16 := by cases m.dataType <;> decide
    split <;> omega
  have hsum : ∀ l : List Nat, (∀ x ∈ l, x ≤ 16) → l.sum ≤ 16 * l.length := by
    intro l
    induction l with
    | nil => intro _; simp
    | cons a as ih =>
      intro h
      have h1 := h a (by simp)
      have h2 := ih (fun x hx => h x (by simp [hx]))
      rw [List.sum_cons, List.length_cons]
      omega
  have := hsum _ hle
  have hl : (jointWidths chs is w).length = chs.length := by simp [jointWidths]
  omega

theorem mulI64_big {a b : Nat} (ha : a < 2 ^ 63) (hb : b < 2 ^ 63) (h : 2 ^ 63 ≤ a * b) :
    mulI64 (toI64 a) (toI64 b) = R.panic .overflow := by
  unfold mulI64 toI64
  rw [if_pos ha, if_pos hb, if_neg]
  rintro ⟨_, h2⟩
  have : ((a * b : Nat) : Int) < 2 ^ 63 := by rw [Int.natCast_mul]; exact h2
  omega

theorem blockSize_exact (κ : Nat → Nat) {cols : List (Lane α)} (h : SizedL S cols) :
    blockSize S (cols.map (Lane.entry κ)) =
      if (cols.map Lane.bytes).sum < 2 ^ 64 then .ok (cols.map Lane.bytes).sum else R.panic .overflow := by
  unfold blockSize
  have : ((cols.map (Lane.entry κ)).map (fun e => e.plan.sizeBytes S * e.length)) = cols.map Lane.bytes := by
    rw [List.map_map]
    apply List.map_congr_left
    intro c hc
    show (Lane.entry κ c).plan.sizeBytes S * c.length = c.length * c.size
    rw [sizeBytes_lanes κ h c hc, Nat.mul_comm]
  rw [this]

theorem lift_error {β γ : Type} {x : R β} {e : Fail} (h : x = .error e) (k : β → Rd γ) (f : Bytes) (p : Nat) :
    (Rd.lift x >>= k) f p = .error e := by
  subst h; rfl

/-- the two readers of a block, after planning -/
theorem DataBlock.planned {b : DataBlock} {reqs : List (ChannelRequest α)} {plan : List (RecordEntry α)}
    (h : buildRecordPlan S b.channels reqs = .ok plan) (f : Bytes) :
    (b.layout = .contigious →
      b.readWithSkip S f reqs = (contigReadSkip S b.byteOrder b.start b.length plan (reqs.map (·.skip)) f 0 >>=
        fun r => pure r.1) ∧
      DataBlock.read S f b reqs = (contigReadFrom S b.byteOrder b.start b.length plan 0 f 0 >>= fun r => pure r.1)) ∧
    (b.layout = .interleaved →
      b.readWithSkip S f reqs = (interRead S b.byteOrder b.start b.length (setSkips (reqs.map (·.skip)) plan) f 0 >>=
        fun r => pure r.1) ∧
      DataBlock.read S f b reqs = (interRead S b.byteOrder b.start b.length plan f 0 >>= fun r => pure r.1)) := by
  unfold DataBlock.readWithSkip DataBlock.read
  rw [h]
  constructor
  · intro hl
    rw [hl]
    exact ⟨rfl, rfl⟩
  · intro hl
    rw [hl]
    exact ⟨rfl, rfl⟩

/-- reading a block for some requests -/
def DataBlock.readAs (S : Storage α) (f : Bytes) (b : DataBlock) (skipping : Bool) (reqs : List (ChannelRequest α)) :
    R (Nat × List (RecordEntry α)) :=
  if skipping = true then b.readWithSkip S f reqs else DataBlock.read S f b reqs

theorem readAs_mismatch {b : DataBlock} {reqs : List (ChannelRequest α)} {e : Fail}
    (h : validateTypes S b.channels reqs = .error e) (f : Bytes) (skipping : Bool) :
    b.readAs S f skipping reqs = .error e := by
  have hp : buildRecordPlan S b.channels reqs = .error e := by
    unfold buildRecordPlan
    rw [h]
    rfl
  unfold DataBlock.readAs DataBlock.readWithSkip DataBlock.read
  rw [hp]
  cases skipping <;> rfl

/-- the entries of the lanes when nothing is skipped -/
theorem lanes_unskipped (w : Nat) (channels : List RawDataMeta) (reqs : List (ChannelRequest α))
    (h0 : ∀ r ∈ reqs, r.skip = 0) :
    (lanesOf w channels reqs).map (Lane.entry (fun _ => 0)) = (lanesOf w channels reqs).map (Lane.entry id) := by
  apply List.map_congr_left
  intro c hc
  obtain ⟨j, hj⟩ := List.mem_iff_getElem?.mp hc
  rw [lanesOf_getElem?] at hj
  obtain ⟨m, _, rfl⟩ := Option.map_eq_some_iff.mp hj
  have hz : skipFor (reqs.map ChannelRequest.taker) j = 0 := by
    unfold skipFor
    cases hk : (reqs.map ChannelRequest.taker)[(List.range j).countP
        (fun j => ((reqs.map ChannelRequest.taker).map (·.chan)).contains j)]? with
    | none => rfl
    | some t =>
      obtain ⟨r, hr, rfl⟩ := List.mem_map.mp (List.mem_of_getElem? hk)
      exact h0 r hr
  unfold Lane.entry laneAt
  simp only [hz]
  rfl

/-- reading a block of interleaved data -/
theorem readAs_inter {b : DataBlock} {reqs : List (ChannelRequest α)}
    (htyped : ∀ r ∈ reqs, ∃ m, b.channels[r.channelIndex]? = some m ∧ m.dataType ∈ S.supported)
    (hlay : b.layout = .interleaved) (skipping : Bool) (hsk : skipping = false → ∀ r ∈ reqs, r.skip = 0) (f : Bytes) :
    b.readAs S f skipping reqs = (interRead S b.byteOrder b.start b.length
      ((lanesOf S.memSize b.channels reqs).map (Lane.entry id)) f 0 >>= fun r => pure r.1) := by
  have hplan := buildRecordPlan_lanes (S := S) b.channels reqs htyped S.memSize
  obtain ⟨h1, h2⟩ := (DataBlock.planned hplan f).2 hlay
  unfold DataBlock.readAs
  cases skipping with
  | true =>
    rw [if_pos rfl, h1]
    obtain ⟨extra, hex⟩ := skips_split S.memSize b.channels reqs
    have := setSkips_lanes id (fun _ => 0) extra (lanesOf S.memSize b.channels reqs)
    rw [List.map_id, ← hex] at this
    rw [this]
  | false =>
    rw [if_neg (by simp), h2, lanes_unskipped _ _ _ (hsk rfl)]

/-- reading a block of contiguous data -/
theorem readAs_contig {b : DataBlock} {reqs : List (ChannelRequest α)}
    (htyped : ∀ r ∈ reqs, ∃ m, b.channels[r.channelIndex]? = some m ∧ m.dataType ∈ S.supported)
    (hlay : b.layout = .contigious) (skipping : Bool) (hsk : skipping = false → ∀ r ∈ reqs, r.skip = 0)
    (hfc : 0 < b.firstCount ∨ skipping = true) :
    ∃ extra, (∀ c, (skipsOf (lanesOf S.memSize b.channels reqs) ++ extra).all (fun s => decide (s / b.firstCount ≤ c)) =
        (reqs.map ChannelRequest.taker).all (fun t => decide (t.skip / b.firstCount ≤ c))) ∧
      (reqs = [] → extra = []) ∧
      ∀ f, b.readAs S f skipping reqs = (contigReadSkip S b.byteOrder b.start b.length
        ((lanesOf S.memSize b.channels reqs).map (Lane.entry (fun _ => 0)))
        (skipsOf (lanesOf S.memSize b.channels reqs) ++ extra) f 0 >>= fun r => pure r.1) := by
  have hplan := buildRecordPlan_lanes (S := S) b.channels reqs htyped S.memSize
  obtain ⟨extra, hex⟩ := skips_split S.memSize b.channels reqs
  unfold DataBlock.readAs
  cases skipping with
  | true =>
    refine ⟨extra, ?_, ?_, ?_⟩
    · intro c
      rw [← hex, List.all_map, List.all_map]; rfl
    · intro h
      rw [h] at hex
      exact (List.append_eq_nil_iff.mp hex.symm).2
    · intro f
      rw [if_pos rfl, ((DataBlock.planned hplan f).1 hlay).1, hex]
  | false =>
    have hpos : 0 < b.firstCount := hfc.resolve_right (by simp)
    obtain ⟨m0, hm0, hm0p⟩ := firstCount_head hpos
    have h0 := hsk rfl
    have hzero : skipsOf (lanesOf S.memSize b.channels reqs) =
        List.replicate (skipsOf (lanesOf S.memSize b.channels reqs)).length 0 := by
      rw [List.eq_replicate_iff]
      refine ⟨rfl, ?_⟩
      intro x hx
      have : x ∈ reqs.map (·.skip) := by rw [hex]; exact List.mem_append_left _ hx
      obtain ⟨r, hr, rfl⟩ := List.mem_map.mp this
      exact h0 r hr
    refine ⟨[], ?_, (fun _ => rfl), ?_⟩
    · intro c
      rw [List.append_nil, hzero, List.all_map]
      rw [Bool.eq_iff_iff, List.all_eq_true, List.all_eq_true]
      constructor
      · intro _ r hr
        simp only [Function.comp, ChannelRequest.taker, h0 r hr, Nat.zero_div, Nat.zero_le, decide_true]
      · intro _ x hx
        rw [List.eq_of_mem_replicate hx, Nat.zero_div]
        simp
    · intro f
      rw [if_neg (by simp), ((DataBlock.planned hplan f).1 hlay).2,
        contigReadFrom_zero b.byteOrder f b.start b.length m0.numberOfValues 0 _ hm0p (by
        apply firstLength_lanes
        refine ⟨laneAt S.memSize reqs 0 m0, ?_, rfl⟩
        rw [List.head?_eq_getElem?, lanesOf_getElem?, ← List.head?_eq_getElem?, hm0]
        rfl), blockSkips_lanes, List.length_map, ← hzero, List.append_nil]

/-- the outcome of a block read, from what it does on a file with the rest of the block -/
theorem outcome_cut {b : DataBlock} {reqs : List (ChannelRequest α)} {f : Bytes} {E : Nat} {ps : List Nat}
    {x : Rd (Nat × List (RecordEntry α))} {res : Nat × List (RecordEntry α)} {q : Nat} {w : Nat}
    (hcut : Cut w f (padTo f E) x 0 ps) (hok : x (padTo f E) 0 = .ok (res, q))
    (hps : ∀ p, p ∈ ps ↔ p ∈ b.touched w (reqs.map ChannelRequest.taker))
    (hres : JointResult w dec (padTo f E) b reqs res) :
    (Inside w f.length (b.touched w (reqs.map ChannelRequest.taker)) →
      ∃ res, (x f 0 >>= fun r => (pure r.1 : R _)) = .ok res ∧ JointResult w dec f b reqs res) ∧
    (¬ Inside w f.length (b.touched w (reqs.map ChannelRequest.taker)) →
      (x f 0 >>= fun r => (pure r.1 : R _)) = .error endOfFile) := by
  have hcut := hcut.congr hps
  constructor
  · intro hin
    refine ⟨res, ?_, hres.unpad hin⟩
    rw [hcut.there hin, hok]
    rfl
  · intro hin
    rw [hcut.short hin]
    rfl

theorem lastDone_none : ∀ (cols : List (Lane α)) (d : Nat), (∀ c ∈ cols, c.out = none) → lastDone d cols = d := by
  intro cols
  induction cols with
  | nil => intro d _; rfl
  | cons c cs ih =>
    intro d h
    unfold lastDone
    rw [h c (by simp)]
    exact ih d (fun c hc => h c (by simp [hc]))

/-- a block that is gone through for no buffer -/
theorem readContig_none (hS : S.Reads dec) {F : Bytes} (hF : F.length < 2 ^ 63) {b : DataBlock}
    (hlay : b.layout = .contigious) (hsmall : ∀ c ∈ lanesOf (α := α) S.memSize b.channels [], c.size < 2 ^ 63)
    (hb0 : 0 < ((lanesOf (α := α) S.memSize b.channels []).map Lane.bytes).sum)
    (hb1 : ((lanesOf (α := α) S.memSize b.channels []).map Lane.bytes).sum < 2 ^ 64)
    (hhead : ∃ c, (lanesOf (α := α) S.memSize b.channels []).head? = some c ∧ c.length = b.firstCount)
    (hFe : b.start + b.length ≤ F.length) :
    ∃ res q, contigReadSkip S b.byteOrder b.start b.length
        ((lanesOf S.memSize b.channels []).map (Lane.entry (fun _ => 0)))
        (skipsOf (lanesOf (α := α) S.memSize b.channels []) ++ []) F 0 = .ok (res, q) ∧
      JointResult S.memSize dec F b [] res := by
  have hnone : ∀ c ∈ lanesOf (α := α) S.memSize b.channels [], c.out = none := by
    intro c hc
    obtain ⟨j, hj⟩ := List.mem_iff_getElem?.mp hc
    rw [lanesOf_getElem?] at hj
    obtain ⟨m, _, rfl⟩ := Option.map_eq_some_iff.mp hj
    rfl
  have hsk : skipsOf (lanesOf (α := α) S.memSize b.channels []) = [] := by
    unfold skipsOf
    rw [List.filterMap_eq_nil_iff]
    intro c hc
    rw [hnone c hc]
    rfl
  have hsized := lanesOf_sized (S := S) b.channels []
  have hbsz := blockSize_lanes (S := S) (fun _ => 0) hsized hb1
  generalize hcols : lanesOf (α := α) S.memSize b.channels [] = cols at *
  generalize hB : (cols.map Lane.bytes).sum = bs at *
  have hle : b.length / bs * bs ≤ b.length := Nat.div_mul_le_self _ _
  obtain ⟨κ', d, h1, h2⟩ := contigSkipLoop_lanes hS b.byteOrder F hF b.start bs b.firstCount [] (b.length / bs) 0 cols 0
    (fun _ => 0) hsized hsmall hB.symm (by rw [Nat.zero_add]; omega)
  rw [Nat.zero_mul, Nat.add_zero, Nat.zero_add] at h1
  have hfed : ∀ (g : Nat → Nat → Nat → List α) c, c ∈ feedL (· * ·) g 0 cols → c.out = none := by
    intro g c hc
    obtain ⟨j, hj⟩ := List.mem_iff_getElem?.mp hc
    rw [feedL_getElem?] at hj
    obtain ⟨c0, hc0, rfl⟩ := Option.map_eq_some_iff.mp hj
    dsimp only
    rw [hnone c0 (List.mem_of_getElem? hc0)]
    rfl
  rw [lastDone_none _ 0 (hfed _), lastDone_none _ 0 hnone] at h2
  have hrun : contigReadSkip S b.byteOrder b.start b.length (cols.map (Lane.entry (fun _ => 0)))
      (skipsOf cols ++ []) F 0 = contigSkipLoop S b.byteOrder bs ((skipsOf cols ++ []).map (· / b.firstCount))
        ((skipsOf cols ++ []).map (· % b.firstCount)) (b.length / bs) 0 (cols.map (Lane.entry (fun _ => 0))) 0 F
        b.start := by
    unfold contigReadSkip
    rw [Rd.bind_ok (show Rd.seek b.start F 0 = .ok ((), b.start) from rfl), lift_bind hbsz,
      lift_bind (show divR b.length bs = .ok (b.length / bs) by unfold divR; rw [if_neg (by omega)]),
      lift_bind (firstLength_lanes _ hhead), hsk,
      lift_bind (show divAll b.firstCount ([] ++ []) = .ok [] from rfl)]
    rfl
  refine ⟨_, _, hrun.trans h1, ?_⟩
  · refine ⟨?_, ?_, ?_⟩
    · dsimp only
      unfold DataBlock.counted
      rw [hlay]
      have : b.readChans (([] : List (ChannelRequest α)).map ChannelRequest.taker) = [] := by
        unfold DataBlock.readChans
        simp
      rw [this]
      dsimp only [List.getLast?_nil]
      omega
    · intro j r hr
      cases hr
    · intro slot _
      apply lookup_none
      intro x hx
      unfold planOutputs at hx
      obtain ⟨en, hen, hx⟩ := List.mem_filterMap.mp hx
      obtain ⟨c, hc, rfl⟩ := List.mem_map.mp hen
      unfold Lane.entry at hx
      rw [hfed _ c hc] at hx
      cases hx

theorem firstRow_small (b : DataBlock) (reqs : List (ChannelRequest α)) (h : ∀ r ∈ reqs, r.skip < 2 ^ 63) :
    b.firstRow (reqs.map ChannelRequest.taker) < 2 ^ 63 := by
  unfold DataBlock.firstRow
  cases hm : ((b.readChans (reqs.map ChannelRequest.taker)).map (skipFor (reqs.map ChannelRequest.taker))).min? with
  | none => exact Nat.two_pow_pos 63
  | some m =>
    have := (List.min?_eq_some_iff.mp hm).1
    obtain ⟨i, _, rfl⟩ := List.mem_map.mp this
    unfold skipFor
    rw [Option.getD_some]
    cases hk : (reqs.map ChannelRequest.taker)[(List.range i).countP
        (fun j => ((reqs.map ChannelRequest.taker).map (·.chan)).contains j)]? with
    | none => exact Nat.two_pow_pos 63
    | some t =>
      obtain ⟨r, hr, rfl⟩ := List.mem_map.mp (List.mem_of_getElem? hk)
      exact h r hr

/-- The outcome of reading one block for all requests. -/
theorem DataBlock.readAs_outcome (hS : S.Reads dec) (hsh : S.Short) (hmem : S.memSize ≤ 16) {f : Bytes}
    (hf : f.length < 2 ^ 63) {b : DataBlock} {reqs : List (ChannelRequest α)}
    (hs : reqs.Pairwise (fun a b => a.slot ≠ b.slot)) (hin : ∀ r ∈ reqs, r.channelIndex < b.channels.length)
    (hend : b.start + b.length < 2 ^ 63) (hchs : b.channels.length < 2 ^ 59)
    (hskip : ∀ r ∈ reqs, r.skip < 2 ^ 63) (skipping : Bool) (hsk : skipping = false → ∀ r ∈ reqs, r.skip = 0) :
    (∀ e, b.jointFault S.supported S.natural S.memSize f.length skipping (reqs.map ChannelRequest.taker) = some e →
      b.readAs S f skipping reqs = .error e) ∧
    (b.jointFault S.supported S.natural S.memSize f.length skipping (reqs.map ChannelRequest.taker) = none →
      ∃ res, b.readAs S f skipping reqs = .ok res ∧ JointResult S.memSize dec f b reqs res) := by
  have hval := validateTypes_exact (S := S) b reqs hin
  unfold DataBlock.jointFault
  cases hmis : (reqs.map ChannelRequest.taker).findSome? (b.mismatch S.supported S.natural) with
  | some e =>
    rw [hmis] at hval
    dsimp only at hval ⊢
    refine ⟨?_, fun h => (by cases h)⟩
    intro e' he
    cases he
    exact readAs_mismatch hval f skipping
  | none =>
    have htyped' := typed_of_none (ts := reqs.map ChannelRequest.taker) (by
      intro t ht
      obtain ⟨r, hr, rfl⟩ := List.mem_map.mp ht
      exact hin r hr) hmis
    have htyped : ∀ r ∈ reqs, ∃ m, b.channels[r.channelIndex]? = some m ∧ m.dataType ∈ S.supported :=
      fun r hr => htyped' _ (List.mem_map_of_mem hr)
    have hF : (padTo f (b.start + b.length)).length < 2 ^ 63 := by rw [length_padTo]; omega
    have hFe : b.start + b.length ≤ (padTo f (b.start + b.length)).length := by rw [length_padTo]; omega
    have hsame := sameBytes_padTo f (b.start + b.length)
    have hsized := lanesOf_sized (S := S) b.channels reqs
    have hbytes := lanesOf_chunks S.memSize b.channels reqs
    have hwidths := lanesOf_widths S.memSize b.channels reqs
    have hsmall : ∀ c ∈ lanesOf S.memSize b.channels reqs, c.size < 2 ^ 63 := by
      intro c hc
      obtain ⟨j, hj⟩ := List.mem_iff_getElem?.mp hc
      rw [lanesOf_getElem?] at hj
      obtain ⟨m, _, rfl⟩ := Option.map_eq_some_iff.mp hj
      unfold laneAt
      dsimp only
      have : m.dataType.size ≤ 16 := by cases m.dataType <;> decide
      split <;> omega
    have hplan := buildRecordPlan_lanes (S := S) b.channels reqs htyped S.memSize
    dsimp only
    cases hlay : b.layout with
    | contigious =>
      dsimp only
      have hpl := fun f => (DataBlock.planned hplan f).1 hlay
      have hbsz := blockSize_exact (S := S) (fun _ => 0) hsized
      rw [hbytes] at hbsz
      generalize hB : (jointChunks b.channels ((reqs.map ChannelRequest.taker).map (·.chan)) S.memSize).sum = bs at *
      by_cases hov : 2 ^ 64 ≤ bs
      · rw [if_pos hov]
        rw [if_neg (by omega)] at hbsz
        refine ⟨?_, fun h => (by cases h)⟩
        intro e he
        cases he
        unfold DataBlock.readAs
        rw [(hpl f).1, (hpl f).2]
        unfold contigReadSkip contigReadFrom
        rw [Rd.bind_ok (show Rd.seek b.start f 0 = .ok ((), b.start) from rfl), lift_error hbsz,
          Rd.bind_ok (show Rd.seek b.start f 0 = .ok ((), b.start) from rfl), lift_error hbsz]
        cases skipping <;> rfl
      rw [if_neg hov]
      rw [if_pos (by omega)] at hbsz
      by_cases h0 : bs = 0
      · rw [if_pos h0]
        refine ⟨?_, fun h => (by cases h)⟩
        intro e he
        cases he
        have hdiv : divR b.length bs = .error (.panic .divByZero) := by
          unfold divR; rw [if_pos h0]
        unfold DataBlock.readAs
        rw [(hpl f).1, (hpl f).2]
        unfold contigReadSkip contigReadFrom
        rw [Rd.bind_ok (show Rd.seek b.start f 0 = .ok ((), b.start) from rfl), lift_bind hbsz, lift_error hdiv,
          Rd.bind_ok (show Rd.seek b.start f 0 = .ok ((), b.start) from rfl), lift_bind hbsz, lift_error hdiv]
        cases skipping <;> rfl
      rw [if_neg h0]
      have hdiv : divR b.length bs = .ok (b.length / bs) := by unfold divR; rw [if_neg h0]
      have hne : b.channels ≠ [] := by
        intro hnil
        rw [hnil] at hB
        exact h0 hB.symm
      obtain ⟨m0, ms, hcons⟩ := List.exists_cons_of_ne_nil hne
      have hfc : b.firstCount = m0.numberOfValues := by
        unfold DataBlock.firstCount
        rw [hcons]
        rfl
      have hhead : ∃ c, (lanesOf S.memSize b.channels reqs).head? = some c ∧ c.length = b.firstCount := by
        refine ⟨laneAt S.memSize reqs 0 m0, ?_, hfc.symm⟩
        rw [List.head?_eq_getElem?, lanesOf_getElem?, hcons]
        rfl
      have hfirst := firstLength_lanes (fun _ => 0) hhead
      by_cases hz : b.firstCount = 0 ∧ ¬ (reqs.map ChannelRequest.taker = [] ∧ skipping = true)
      · rw [if_pos hz]
        refine ⟨?_, fun h => (by cases h)⟩
        intro e he
        cases he
        rw [hz.1] at hfirst
        have hd0 : divR 0 0 = .error (.panic .divByZero) := rfl
        unfold DataBlock.readAs
        rw [(hpl f).1, (hpl f).2]
        unfold contigReadSkip contigReadFrom
        rw [Rd.bind_ok (show Rd.seek b.start f 0 = .ok ((), b.start) from rfl), lift_bind hbsz, lift_bind hdiv,
          lift_bind hfirst, Rd.bind_ok (show Rd.seek b.start f 0 = .ok ((), b.start) from rfl), lift_bind hbsz,
          lift_bind hdiv, lift_bind hfirst, lift_error hd0]
        cases skipping with
        | false => rfl
        | true =>
          rw [if_pos rfl]
          cases hr : reqs with
          | nil => exact absurd ⟨by rw [hr]; rfl, rfl⟩ hz.2
          | cons r rs =>
            have hd : divAll 0 ((r :: rs).map (·.skip)) = .error (.panic .divByZero) := rfl
            rw [lift_error hd]
            rfl
      rw [if_neg hz]
      have hcase : 0 < b.firstCount ∨ skipping = true := by
        by_cases h : b.firstCount = 0
        · right
          refine Classical.byContradiction fun hn => hz ⟨h, fun h2 => hn h2.2⟩
        · left; omega
      obtain ⟨extra, hall, hextra, hread⟩ := readAs_contig htyped hlay skipping hsk hcase
      have hdivall : divAll b.firstCount (skipsOf (lanesOf S.memSize b.channels reqs) ++ extra) =
          .ok ((skipsOf (lanesOf S.memSize b.channels reqs) ++ extra).map (· / b.firstCount)) := by
        by_cases h : b.firstCount = 0
        · have hnil : reqs = [] := by
            have : reqs.map ChannelRequest.taker = [] :=
              Classical.byContradiction fun hn => hz ⟨h, fun h2 => hn h2.1⟩
            exact List.map_eq_nil_iff.mp this
          have : skipsOf (lanesOf S.memSize b.channels reqs) ++ extra = [] := by
            rw [hextra hnil, List.append_nil, skipsOf_lanesOf, hnil]
            simp
          rw [this]
          rfl
        · exact divAll_ok (by omega) _
      have hcut := contigReadSkip_cut hS hsh hsame hF b.byteOrder b.start b.length b.firstCount 0 extra
        (lanesOf S.memSize b.channels reqs) (fun _ => 0) hsized hsmall (by rw [hbytes, hB]; omega)
        (by rw [hbytes, hB]; omega) hdivall hhead hFe
      have hok : ∃ res q, contigReadSkip S b.byteOrder b.start b.length
            ((lanesOf S.memSize b.channels reqs).map (Lane.entry (fun _ => 0)))
            (skipsOf (lanesOf S.memSize b.channels reqs) ++ extra) (padTo f (b.start + b.length)) 0 = .ok (res, q) ∧
          JointResult S.memSize dec (padTo f (b.start + b.length)) b reqs res := by
        by_cases h : b.firstCount = 0
        · have hnil : reqs = [] := by
            have : reqs.map ChannelRequest.taker = [] :=
              Classical.byContradiction fun hn => hz ⟨h, fun h2 => hn h2.1⟩
            exact List.map_eq_nil_iff.mp this
          subst hnil
          rw [hextra rfl]
          exact readContig_none hS hF hlay hsmall (by rw [hbytes, hB]; omega) (by rw [hbytes, hB]; omega) hhead hFe
        · have hserves : b.ServesAll S (padTo f (b.start + b.length)) reqs := by
            refine ⟨⟨htyped', hFe, ?_, ?_⟩, hF⟩
            · intro _
              rw [hB]
              exact ⟨by omega, by omega, by omega⟩
            · intro hl
              rw [hlay] at hl
              cases hl
          exact hserves.readContig hS (by omega) hs hlay _ extra rfl hall
      obtain ⟨res, q, hok, hres⟩ := hok
      obtain ⟨r1, r2⟩ := outcome_cut hcut hok (fun p => by
        rw [hbytes]
        exact laneCells_touched S.memSize b reqs hlay _ hall p) hres
      rw [hread f]
      by_cases hi : Inside S.memSize f.length (b.touched S.memSize (reqs.map ChannelRequest.taker))
      · rw [if_pos hi]
        exact ⟨fun e he => (by cases he), fun _ => r1 hi⟩
      · rw [if_neg hi]
        exact ⟨fun e he => (by cases he; exact r2 hi), fun h => (by cases h)⟩
    | interleaved =>
      dsimp only
      have hread := readAs_inter htyped hlay skipping hsk
      have hfirst : (skipsOf (lanesOf S.memSize b.channels reqs)).min?.getD 0 =
          b.firstRow (reqs.map ChannelRequest.taker) := by
        rw [skipsOf_lanesOf]; rfl
      have hrs := jointWidths_lt b.channels ((reqs.map ChannelRequest.taker).map (·.chan)) hmem hchs
      have hrow := rowSize_lanes (S := S) id hsized
      rw [hwidths] at hrow
      by_cases h0 : (jointWidths b.channels ((reqs.map ChannelRequest.taker).map (·.chan)) S.memSize).sum = 0
      · rw [if_pos h0]
        refine ⟨?_, fun h => (by cases h)⟩
        intro e he
        cases he
        rw [hread f]
        unfold interRead
        rw [Rd.bind_ok (show Rd.seek b.start f 0 = .ok ((), b.start) from rfl), hrow, h0]
        rfl
      rw [if_neg h0]
      by_cases hov : 2 ^ 63 ≤ b.firstRow (reqs.map ChannelRequest.taker) *
          (jointWidths b.channels ((reqs.map ChannelRequest.taker).map (·.chan)) S.memSize).sum
      · rw [if_pos hov]
        refine ⟨?_, fun h => (by cases h)⟩
        intro e he
        cases he
        rw [hread f]
        unfold interRead
        have hbs : blockSkips ((lanesOf S.memSize b.channels reqs).map (Lane.entry id)) =
            skipsOf (lanesOf S.memSize b.channels reqs) := by
          rw [blockSkips_lanes, List.map_id]
        have hpos : b.firstRow (reqs.map ChannelRequest.taker) > 0 := by
          refine Nat.pos_of_ne_zero fun h => ?_
          rw [h, Nat.zero_mul] at hov
          exact absurd hov (by decide)
        rw [Rd.bind_ok (show Rd.seek b.start f 0 = .ok ((), b.start) from rfl), hrow,
          lift_bind (show divR b.length _ = .ok (b.length / _) by unfold divR; rw [if_neg h0])]
        simp only [hbs, minOrZero_min?, hfirst]
        rw [if_pos hpos, lift_error (mulI64_big (firstRow_small b reqs hskip) hrs hov)]
        rfl
      rw [if_neg hov]
      have hread' := interRead_lanes hS b.byteOrder (padTo f (b.start + b.length)) hF b.start b.length 0
        (lanesOf S.memSize b.channels reqs) hsized
        (by rw [hwidths]; omega) hFe (by rw [hwidths, hfirst]; omega)
      rw [hwidths, hfirst] at hread'
      obtain ⟨_, _, T, _, hT, hst1, hst2⟩ := hread'
      have hTeq : b.rowsRead S.memSize (reqs.map ChannelRequest.taker) = T := by
        unfold DataBlock.rowsRead
        dsimp only
        refine takeWhile_length _ _ _ T hT ?_ ?_
        · intro j hj
          rw [← storesRow_lanes S dec (padTo f (b.start + b.length)) b reqs _ rfl]
          exact hst1 j hj
        · intro hlt
          rw [← storesRow_lanes S dec (padTo f (b.start + b.length)) b reqs _ rfl]
          exact hst2 hlt
      have hcut := interRead_cut hS hsh hsame hF b.byteOrder b.start b.length 0 (lanesOf S.memSize b.channels reqs)
        hsized (by rw [hwidths]; omega) hFe (by rw [hwidths, hfirst]; omega) T (by rw [hwidths, hfirst]; exact hT)
        (by rw [hwidths, hfirst]; exact hst1) (by rw [hwidths, hfirst]; exact hst2)
      rw [hwidths, hfirst, ← hTeq] at hcut
      have hserves : b.ServesAll S (padTo f (b.start + b.length)) reqs := by
        refine ⟨⟨htyped', hFe, ?_, ?_⟩, hF⟩
        · intro hl
          rw [hlay] at hl
          cases hl
        · intro _
          exact ⟨by omega, by omega⟩
      obtain ⟨res, q, hok, hres⟩ := hserves.readInter hS hs hlay
      obtain ⟨r1, r2⟩ := outcome_cut hcut hok (fun p => by
        unfold DataBlock.touched
        rw [hlay]
        dsimp only
        rw [List.mem_flatMap, List.mem_flatMap]
        constructor
        · rintro ⟨r, hr, hp⟩
          exact ⟨r, hr, (rowCells_touched S.memSize b reqs r p).mp hp⟩
        · rintro ⟨r, hr, hp⟩
          exact ⟨r, hr, (rowCells_touched S.memSize b reqs r p).mpr hp⟩) hres
      rw [hread f]
      by_cases hi : Inside S.memSize f.length (b.touched S.memSize (reqs.map ChannelRequest.taker))
      · rw [if_pos hi]
        exact ⟨fun e he => (by cases he), fun _ => r1 hi⟩
      · rw [if_neg hi]
        exact ⟨fun e he => (by cases he; exact r2 hi), fun h => (by cases h)⟩

end
end Tedium
