import Verif.Proofs.WrongType
import Verif.Proofs.BlockValues

/-! # The ways to read a data block agree (C75)

`read_from` and `read_single_from` of a data block (`src/raw_data/mod.rs:242-312`) are not used by the file, which goes
through `read` and `read_with_per_channel_skip`. Here they are shown to give the same. -/

namespace Tedium

section
variable {α : Type} {S : Storage α}

theorem setSkips_replicate_le (s : Nat) : ∀ (plan : List (RecordEntry α)) (k : Nat), (blockSkips plan).length ≤ k →
    setSkips (List.replicate k s) plan = mapSkips (fun _ => s) plan := by
  intro plan
  induction plan with
  | nil => intro k _; cases k <;> rfl
  | cons entry rest ih =>
    intro k hk
    obtain ⟨len, p⟩ := entry
    cases p with
    | skip b =>
      have hk' : (blockSkips rest).length ≤ k := hk
      have h2 : mapSkips (fun _ => s) (⟨len, .skip b⟩ :: rest : List (RecordEntry α))
          = ⟨len, .skip b⟩ :: mapSkips (fun _ => s) rest := rfl
      rw [h2, ← ih k hk']
      cases k with
      | zero => rw [List.replicate_zero, setSkips_nil, setSkips_nil]
      | succ k => rfl
    | read slot out t =>
      have hk' : (blockSkips rest).length + 1 ≤ k := hk
      cases k with
      | zero => omega
      | succ k => exact congrArg (_ :: ·) (ih k (by omega))

theorem contigSkipLoop_same (e : Endian) (f : Bytes) (bs a b m : Nat) :
    ∀ (r idx : Nat) (plan : List (RecordEntry α)) (len p : Nat), (blockSkips plan).length ≤ m + 1 →
      contigSkipLoop S e bs (List.replicate (m + 1) a) (List.replicate (m + 1) b) r idx plan len f p =
        contigLoop S e bs a b r idx plan len f p := by
  intro r
  induction r with
  | zero => intro idx plan len p _; rfl
  | succ r ih =>
    intro idx plan len p hm
    unfold contigSkipLoop contigLoop
    have hall : ((List.replicate (m + 1) a).all (fun skip => decide (idx ≥ skip)) = true) ↔ ¬ idx < a := by
      rw [List.all_replicate]
      simp
    have hzip : ((List.replicate (m + 1) a).zip (List.replicate (m + 1) b)).map
        (fun (x : Nat × Nat) => calculateSkip idx x.1 x.2) = List.replicate (m + 1) (calculateSkip idx a b) := by
      rw [List.zip_replicate, Nat.min_self, List.map_replicate]
    have hstep : ∀ y, y = calculateSkip idx a b →
        (do
          let skips := ((List.replicate (m + 1) a).zip (List.replicate (m + 1) b)).map
            (fun (x : Nat × Nat) => calculateSkip idx x.1 x.2)
          let __x ← readSubBlock S e 0 (setSkips skips plan)
          contigSkipLoop S e bs (List.replicate (m + 1) a) (List.replicate (m + 1) b) r (idx + 1) __x.2 (len + __x.1)) f p =
        (do
          let __x ← readSubBlock S e 0 (mapSkips (fun _ => y) plan)
          contigLoop S e bs a b r (idx + 1) __x.2 (len + __x.1)) f p := by
      rintro y rfl
      dsimp only
      rw [hzip, setSkips_replicate_le _ plan _ hm, Rd.bind_eq, Rd.bind_eq]
      cases hrs : readSubBlock S e 0 (mapSkips (fun _ => calculateSkip idx a b) plan) f p with
      | error er => rfl
      | ok x =>
        obtain ⟨⟨n, pl⟩, q⟩ := x
        refine ih _ _ _ _ ?_
        rw [readSubBlock_count e f _ _ _ _ _ _ hrs, length_mapSkips]
        exact hm
    by_cases h1 : idx < a
    · rw [if_pos h1, if_neg (by rw [hall]; exact fun h => h h1)]
      rw [Rd.bind_eq, Rd.bind_eq]
      cases Rd.move (toI64 bs) f p with
      | error er => rfl
      | ok x => exact ih _ _ _ _ hm
    · rw [if_neg h1, if_pos (hall.mpr h1)]
      by_cases h2 : idx = a
      · rw [if_pos h2]
        refine hstep _ ?_
        unfold calculateSkip
        rw [if_pos h2]
      · rw [if_neg h2]
        refine hstep _ ?_
        unfold calculateSkip
        rw [if_neg h2]

theorem divAll_same (sub s : Nat) : ∀ m, divAll sub (List.replicate (m + 1) s)
    = (match divR s sub with | .ok q => .ok (List.replicate (m + 1) q) | .error e => .error e) := by
  intro m
  induction m with
  | zero =>
    show divAll sub [s] = _
    unfold divAll divAll
    cases divR s sub <;> rfl
  | succ m ih =>
    rw [List.replicate_succ]
    unfold divAll
    rw [ih]
    cases divR s sub <;> rfl

theorem setReadable_blockSkips_le : ∀ (reqs : List (ChannelRequest α)) {plan p : List (RecordEntry α)},
    setReadable plan reqs = .ok p → (blockSkips p).length ≤ (blockSkips plan).length + reqs.length := by
  have hset : ∀ (plan : List (RecordEntry α)) (i : Nat) (x : RecordEntry α),
      (blockSkips (plan.set i x)).length ≤ (blockSkips plan).length + 1 := by
    intro plan
    induction plan with
    | nil => intro i x; exact Nat.zero_le _
    | cons y ys ih =>
      have hone : ∀ (z : RecordEntry α) (zs : List (RecordEntry α)), (blockSkips zs).length ≤ (blockSkips (z :: zs)).length ∧
          (blockSkips (z :: zs)).length ≤ (blockSkips zs).length + 1 := by
        rintro ⟨len, pl⟩ zs
        cases pl with
        | skip b => exact ⟨Nat.le_refl _, Nat.le_succ _⟩
        | read s o k => exact ⟨Nat.le_succ _, Nat.le_refl _⟩
      intro i x
      cases i with
      | zero =>
        have h1 := (hone x ys).2
        have h2 := (hone y ys).1
        show (blockSkips (x :: ys)).length ≤ _
        omega
      | succ i =>
        have := ih i x
        obtain ⟨len, pl⟩ := y
        cases pl with
        | skip b => exact this
        | read s o k => exact Nat.succ_le_succ this
  intro reqs
  induction reqs with
  | nil => intro plan p h; cases h; exact Nat.le_refl _
  | cons r rs ih =>
    intro plan p h
    unfold setReadable at h
    cases hp : plan[r.channelIndex]? with
    | none => rw [hp] at h; cases h
    | some en =>
      rw [hp] at h
      have h1 := ih h
      have h2 := hset plan r.channelIndex { en with plan := .read r.slot ⟨[], r.output⟩ 0 }
      rw [List.length_cons]
      omega

theorem setReadable_skip_irrelevant (k : Nat) : ∀ (reqs : List (ChannelRequest α)) (plan : List (RecordEntry α)),
    setReadable plan (reqs.map (fun r => { r with skip := k })) = setReadable plan reqs := by
  intro reqs
  induction reqs with
  | nil => intro plan; rfl
  | cons r rs ih =>
    intro plan
    rw [List.map_cons]
    unfold setReadable
    dsimp only
    cases plan[r.channelIndex]? with
    | none => rfl
    | some en => exact ih _

theorem validateTypes_skip_irrelevant (channels : List RawDataMeta) (k : Nat) : ∀ (reqs : List (ChannelRequest α)),
    validateTypes S channels (reqs.map (fun r => { r with skip := k })) = validateTypes S channels reqs := by
  intro reqs
  induction reqs with
  | nil => rfl
  | cons r rs ih =>
    rw [List.map_cons]
    unfold validateTypes
    dsimp only
    rw [ih]

/-- Reading channels of a block from sample `n` on, with one start for all of them, is reading them with the start `n` for
    each: the same number of values, the same contents of the buffers, the same errors. -/
theorem block_read_from (S : Storage α) (f : Bytes) (b : DataBlock) (reqs : List (ChannelRequest α)) (hreqs : reqs ≠ [])
    (n : Nat) :
    b.readFrom S f reqs n = b.readWithSkip S f (reqs.map (fun r => { r with skip := n })) := by
  unfold DataBlock.readFrom DataBlock.readWithSkip
  have hplan : buildRecordPlan S b.channels (reqs.map (fun r => { r with skip := n })) = buildRecordPlan S b.channels reqs := by
    unfold buildRecordPlan
    rw [validateTypes_skip_irrelevant]
    congr 1
    funext _
    exact setReadable_skip_irrelevant n reqs _
  have hskips : (reqs.map (fun r => { r with skip := n })).map (·.skip) = List.replicate reqs.length n := by
    rw [List.map_map]
    show reqs.map (fun _ => n) = _
    rw [List.map_const']
  rw [hplan, hskips]
  dsimp only [bind, Except.bind]
  cases hb : buildRecordPlan S b.channels reqs with
  | error e => rfl
  | ok plan =>
    dsimp only
    have hcount : (blockSkips plan).length ≤ reqs.length := by
      unfold buildRecordPlan at hb
      obtain ⟨_, _, h⟩ := bind_ok_iff.mp hb
      have := setReadable_blockSkips_le reqs h
      have h0 : blockSkips (baseRecord b.channels : List (RecordEntry α)) = [] := by
        unfold blockSkips baseRecord
        rw [List.filterMap_map, List.filterMap_eq_nil_iff]
        intro _ _
        rfl
      rw [h0, List.length_nil, Nat.zero_add] at this
      exact this
    cases hl : b.layout with
    | interleaved =>
      dsimp only
      rw [setSkips_replicate_le n plan _ hcount]
    | contigious =>
      dsimp only
      obtain ⟨m, hm⟩ : ∃ m, reqs.length = m + 1 := by
        cases reqs with
        | nil => exact absurd rfl hreqs
        | cons r rs => exact ⟨rs.length, rfl⟩
      rw [hm] at hcount ⊢
      have key : contigReadFrom S b.byteOrder b.start b.length plan n f 0
          = contigReadSkip S b.byteOrder b.start b.length plan (List.replicate (m + 1) n) f 0 := by
        unfold contigReadFrom contigReadSkip
        rw [Rd.bind_eq, Rd.bind_eq]
        show (match (.ok ((), b.start) : R (Unit × Nat)) with | _ => _) = _
        dsimp only [Rd.seek]
        simp only [Rd.bind_eq]
        cases Rd.lift (blockSize S plan) f b.start with
        | error e => rfl
        | ok bs =>
          dsimp only
          cases Rd.lift (divR b.length bs.1) f bs.2 with
          | error e => rfl
          | ok total =>
            dsimp only
            cases Rd.lift (firstLength plan) f total.2 with
            | error e => rfl
            | ok sub =>
              dsimp only
              rw [divAll_same]
              cases divR n sub.1 with
              | error e => rfl
              | ok q =>
                dsimp only [Rd.lift]
                rw [List.map_replicate]
                exact (contigSkipLoop_same b.byteOrder f bs.1 q (n % sub.1) m total.1 0 plan 0 sub.2 hcount).symm
      rw [key]

/-- Reading from the first sample on is reading. -/
theorem block_read_from_zero (S : Storage α) (f : Bytes) (b : DataBlock) (reqs : List (ChannelRequest α)) :
    b.readFrom S f reqs 0 = b.read S f reqs := by
  unfold DataBlock.readFrom DataBlock.read
  dsimp only [bind, Except.bind]
  cases hb : buildRecordPlan S b.channels reqs with
  | error e => rfl
  | ok plan =>
    dsimp only
    have hz : mapSkips (fun _ => 0) plan = plan := by
      have h0 : ∀ en ∈ plan, ∀ s o k, en.plan = .read s o k → k = 0 := by
        unfold buildRecordPlan at hb
        obtain ⟨_, _, h⟩ := bind_ok_iff.mp hb
        have hgen : ∀ (reqs : List (ChannelRequest α)) (q p : List (RecordEntry α)), setReadable q reqs = .ok p →
            (∀ en ∈ q, ∀ s o k, en.plan = .read s o k → k = 0) → ∀ en ∈ p, ∀ s o k, en.plan = .read s o k → k = 0 := by
          intro reqs
          induction reqs with
          | nil => intro q p h hq; cases h; exact hq
          | cons r rs ih =>
            intro q p h hq
            unfold setReadable at h
            cases hp : q[r.channelIndex]? with
            | none => rw [hp] at h; cases h
            | some en =>
              rw [hp] at h
              refine ih _ _ h ?_
              intro en' hen s o k hk
              rcases List.mem_or_eq_of_mem_set hen with hen | rfl
              · exact hq en' hen s o k hk
              · cases hk; rfl
        refine hgen _ _ _ h ?_
        intro en hen s o k hk
        unfold baseRecord at hen
        obtain ⟨c, _, rfl⟩ := List.mem_map.mp hen
        cases hk
      unfold mapSkips
      conv => rhs; rw [← List.map_id plan]
      refine List.map_congr_left ?_
      rintro ⟨len, pl⟩ hen
      cases pl with
      | skip b => rfl
      | read s o k =>
        have := h0 _ hen s o k rfl
        subst this
        rfl
    rw [hz]

end

/-- A block of two channels with two chunks of three samples each: from the fifth sample on, of both channels at once, there are
    two values of each, and one cell of each buffer stays. -/
theorem block_read_from_example :
    let b : DataBlock := ⟨0, 12, .contigious, [⟨.u8, 3, none⟩, ⟨.u8, 3, none⟩], .little⟩
    let f : Bytes := [1, 2, 3, 11, 12, 13, 4, 5, 6, 14, 15, 16]
    let S := STy.u8.storage (fun _ => true)
    let reqs : List (ChannelRequest (STy.u8.Val)) := [⟨0, 0, [0#8, 0#8, 0#8], 0⟩, ⟨1, 1, [0#8, 0#8, 0#8], 0⟩]
    (b.readFrom S f reqs 4).map (fun r => (r.1, planOutputs r.2)) = .ok (2, [(0, [5#8, 6#8, 0#8]), (1, [15#8, 16#8, 0#8])]) := by
  decide +kernel

end Tedium
