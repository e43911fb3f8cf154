import Verif.Proofs.BlockRead

/-! # Reading one data block: interleaved data, requests, results -/

namespace Tedium
section
variable {α : Type} {S : Storage α} {dec : Endian → Bytes → α}

/-! ## Interleaved blocks -/

/-- a requested column still has cells -/
def anyCell (cols : List (Col α)) : Bool :=
  cols.any (fun c => match c.out with
    | none => false
    | some x => !x.2.rest.isEmpty)

theorem feed_single (it : OutIter α) (v : α) :
    it.feed [v] = match it.rest with
      | [] => it
      | _ :: cells => ⟨it.done ++ [v], cells⟩ := by
  obtain ⟨d, r⟩ := it
  cases r <;> simp [OutIter.feed]

theorem readRow_eq (hS : S.Reads dec) (e : Endian) (f : Bytes) (hf : f.length < 2 ^ 63) (row base : Nat) :
    ∀ (cols : List (Col α)) (o : Nat) (any : Bool), Sized S cols →
      base + o + (cols.map Col.size).sum ≤ f.length →
      readRow S e row any (cols.map (Col.entry 0)) f (base + o) =
        .ok ((any || anyCell cols,
          (feedCols Col.size (fun o _ => [dec e ((f.drop (base + o)).take S.memSize)]) o cols).map
            (Col.entry 0)), base + o + (cols.map Col.size).sum) := by
  intro cols
  induction cols with
  | nil => intro o any _ _; simp [readRow, anyCell, feedCols]
  | cons c cs ih =>
    intro o any hsz hlen
    simp only [List.map_cons, List.sum_cons] at hlen ⊢
    have hih := fun any => ih (o + c.size) any (fun c hc => hsz c (by simp [hc])) (by omega)
    unfold readRow
    cases ho : c.out with
    | none =>
      have hplan : (Col.entry 0 c).plan = .skip c.size := by simp [Col.entry, ho]
      rw [hplan]
      dsimp only
      rw [Rd.bind_ok (move_nat _ _ _ (by omega)), Nat.add_assoc, Rd.bind_ok (hih any)]
      simp only [Rd.pure_apply]
      congr 2
      · rw [feedCols]
        simp only [ho, Option.map_none, List.map_cons, anyCell, List.any_cons, Bool.false_or]
        have : c = ⟨c.length, c.size, none⟩ := by rw [← ho]
        rw [← this]
      · omega
    | some x =>
      obtain ⟨slot, it⟩ := x
      have hsize := hsz c (by simp) (by rw [ho]; rfl)
      have hplan : (Col.entry 0 c).plan = .read slot it 0 := by simp [Col.entry, ho]
      rw [hplan]
      dsimp only
      rw [Rd.bind_ok (hS.reads e f (base + o) (by omega))]
      have hstep : ∀ it' any', it' = it.feed [dec e ((f.drop (base + o)).take S.memSize)] →
          any' = (any || !it.rest.isEmpty) →
          (do
            let __x ← readRow S e row any' (cs.map (Col.entry 0))
            (Pure.pure (__x.1, { (Col.entry 0 c) with plan := .read slot it' 0 } :: __x.2)
              : Rd (Bool × List (RecordEntry α)))) f (base + o + S.memSize) =
          .ok ((any || anyCell (c :: cs),
            (feedCols Col.size (fun o _ => [dec e ((f.drop (base + o)).take S.memSize)]) o (c :: cs)).map
              (Col.entry 0)), base + o + (c.size + (cs.map Col.size).sum)) := by
        intro it' any' hit hany
        rw [← hsize, Nat.add_assoc, Rd.bind_ok (hih any')]
        simp only [Rd.pure_apply]
        congr 2
        · rw [feedCols]
          simp only [ho, Option.map_some, List.map_cons, anyCell, List.any_cons]
          rw [hany, hit, hsize, Bool.or_assoc]
          rfl
        · omega
      rw [if_pos (by omega)]
      cases hr : it.rest with
      | nil =>
        dsimp only
        exact hstep it any (by rw [feed_single, hr]) (by rw [hr]; simp)
      | cons y ys =>
        dsimp only
        exact hstep _ true (by rw [feed_single, hr]) (by rw [hr]; simp)

theorem anyCell_uni {n L : Nat} {cols : List (Col α)} (h : Uni n L cols) :
    anyCell cols = (anyOut cols && decide (0 < L)) := by
  induction cols with
  | nil => rfl
  | cons c cs ih =>
    have hcs : Uni n L cs := fun c hc => h c (by simp [hc])
    unfold anyCell anyOut at *
    rw [List.any_cons, List.any_cons, ih hcs]
    cases ho : c.out with
    | none => simp
    | some x =>
      have := (h c (by simp) x ho).2
      cases hr : x.2.rest with
      | nil => rw [hr] at this; simp at this; subst this; simp [hr]
      | cons y ys => rw [hr] at this; simp at this; subst this; simp [hr]

theorem feedCols_full {n : Nat} {ext : Col α → Nat} (g : Nat → Col α → List α) {cols : List (Col α)}
    (h : Uni n 0 cols) (o : Nat) : feedCols ext g o cols = cols := by
  induction cols generalizing o with
  | nil => rfl
  | cons c cs ih =>
    unfold feedCols
    rw [ih (fun c hc => h c (by simp [hc]))]
    congr 1
    cases ho : c.out with
    | none => rw [← ho]; cases c; cases ho; rfl
    | some x =>
      have hr := List.eq_nil_of_length_eq_zero (h c (by simp) x ho).2
      have : x.2.feed (g o c) = x.2 := by
        obtain ⟨s, d, r⟩ := x
        simp only at hr
        subst hr
        simp [OutIter.feed]
      cases c
      simp only at ho
      subst ho
      simp only [Option.map_some, this]

theorem uni_noOut {n L : Nat} {cols : List (Col α)} (h : anyOut cols = false) : Uni n L cols := by
  intro c hc x hx
  unfold anyOut at h
  rw [List.any_eq_false] at h
  have := h c hc
  rw [hx] at this
  simp at this

/-- the values of rows `j, …, j + r - 1` at offset `o` -/
def rowVals (S : Storage α) (dec : Endian → Bytes → α) (e : Endian) (f : Bytes) (start rs j r o : Nat) : List α :=
  (List.range' j r).map (fun q => dec e ((f.drop (start + q * rs + o)).take S.memSize))

theorem interLoop_eq (hS : S.Reads dec) (e : Endian) (f : Bytes) (hf : f.length < 2 ^ 63) (start rs n : Nat) :
    ∀ (r j row : Nat) (cols : List (Col α)) (smp L : Nat), Sized S cols →
      rs = (cols.map Col.size).sum → start + (j + r) * rs ≤ f.length → Uni n L cols →
      ∃ q, interLoop S e r row (cols.map (Col.entry 0)) smp f (start + j * rs) =
        .ok ((smp + (if anyOut cols then min r L else 0),
          (feedCols Col.size (fun o _ => rowVals S dec e f start rs j r o) 0 cols).map (Col.entry 0)), q) := by
  intro r
  induction r with
  | zero =>
    intro j row cols smp L _ _ _ _
    refine ⟨start + j * rs, ?_⟩
    have : (fun o (_ : Col α) => rowVals S dec e f start rs j 0 o) = fun _ _ => [] := by
      funext o c; simp [rowVals]
    rw [this, feedCols_nil]
    simp [interLoop]
  | succ r ih =>
    intro j row cols smp L hsz hrs hlen hu
    have hmul : (j + (r + 1)) * rs = j * rs + rs + r * rs := by
      rw [show j + (r + 1) = (j + 1) + r by omega, Nat.add_mul, Nat.add_mul, Nat.one_mul]
    have hrow := readRow_eq hS e f hf row (start + j * rs) cols 0 false hsz (by rw [← hrs]; omega)
    rw [Nat.add_zero] at hrow
    unfold interLoop
    rw [Rd.bind_ok hrow]
    dsimp only
    rw [Bool.false_or, anyCell_uni hu]
    by_cases hc : (anyOut cols && decide (0 < L)) = true
    · rw [if_pos hc]
      simp only [Bool.and_eq_true, decide_eq_true_eq] at hc
      have hu' : Uni n (L - 1) (feedCols Col.size
          (fun o (_ : Col α) => [dec e ((f.drop (start + j * rs + o)).take S.memSize)]) 0 cols) :=
        hu.feed (l := 1) (fun _ _ _ _ => by simp) 0
      obtain ⟨q, hq⟩ := ih (j + 1) (row + 1) _ (smp + 1) (L - 1) (feedCols_sized _ cols 0 hsz)
        (by rw [feedCols_map _ _ shapeN_size]; exact hrs)
        (by rw [show j + 1 + r = j + (r + 1) by omega]; exact hlen) hu'
      refine ⟨q, ?_⟩
      have hnext : start + j * rs + (cols.map Col.size).sum = start + (j + 1) * rs := by
        rw [← hrs, Nat.add_mul, Nat.one_mul]; omega
      rw [hnext, hq, anyOut_feed, if_pos hc.1, if_pos hc.1,
        feedCols_feedCols shapeN_size (fun _ _ _ _ _ => rfl)]
      congr 3
      · omega
    · rw [if_neg hc]
      refine ⟨start + j * rs + (cols.map Col.size).sum, ?_⟩
      simp only [Rd.pure_apply]
      have h0 : Uni n 0 cols ∧ (if anyOut cols then min (r + 1) L else 0) = 0 := by
        by_cases ha : anyOut cols = true
        · have hL : L = 0 := by
            simp only [ha, Bool.true_and, decide_eq_true_eq] at hc; omega
          subst hL
          exact ⟨hu, by rw [if_pos ha]; simp⟩
        · have ha' : anyOut cols = false := by simpa using ha
          exact ⟨uni_noOut ha', by rw [if_neg ha]⟩
      rw [feedCols_full _ h0.1, feedCols_full _ h0.1, h0.2, Nat.add_zero]

theorem minOrZero_replicate (m k : Nat) : minOrZero (List.replicate m k) = if m = 0 then 0 else k := by
  induction m with
  | zero => rfl
  | succ m ih =>
    cases m with
    | zero => rfl
    | succ m =>
      rw [List.replicate_succ, List.replicate_succ]
      unfold minOrZero
      rw [← List.replicate_succ, ih]
      simp

theorem rowVals_drop (e : Endian) (f : Bytes) (start rs t k o : Nat) :
    rowVals S dec e f start rs k (t - k) o = (rowVals S dec e f start rs 0 t o).drop k := by
  unfold rowVals
  rw [← List.map_drop, List.drop_range']
  simp

/-- What the reader of interleaved data does with equally advanced outputs. -/
theorem interRead_eq (hS : S.Reads dec) (e : Endian) (f : Bytes) (hf : f.length < 2 ^ 63)
    (start size k n L p : Nat) (cols : List (Col α)) (hsz : Sized S cols)
    (hrow : 0 < (cols.map Col.size).sum) (hlen : start + size ≤ f.length)
    (hk : k ≤ size / (cols.map Col.size).sum) (hu : Uni n L cols) :
    ∃ q, interRead S e start size (cols.map (Col.entry k)) f p =
      .ok ((if anyOut cols then min (size / (cols.map Col.size).sum - k) L else 0,
        (feedCols Col.size (fun o _ => (rowVals S dec e f start (cols.map Col.size).sum 0
          (size / (cols.map Col.size).sum) o).drop k) 0 cols).map (Col.entry 0)), q) := by
  generalize hR : (cols.map Col.size).sum = rs at *
  have hle : size / rs * rs ≤ size := Nat.div_mul_le_self _ _
  unfold interRead
  rw [Rd.bind_ok (show Rd.seek start f p = .ok ((), start) from rfl), rowSize_entry k cols hsz, hR,
    lift_bind (show divR size rs = .ok (size / rs) by unfold divR; rw [if_neg (by omega)])]
  have hmin : minOrZero (blockSkips (cols.map (Col.entry k))) = if anyOut cols then k else 0 := by
    rw [blockSkips_entry, minOrZero_replicate]
    have hiff := countP_anyOut cols
    by_cases ha : anyOut cols = true
    · rw [if_pos ha, if_neg (by intro h; rw [hiff.mp h] at ha; cases ha)]
    · have ha' : anyOut cols = false := by simpa using ha
      rw [if_pos (hiff.mpr ha'), if_neg ha]
  simp only [hmin]
  by_cases ha : anyOut cols = true
  · simp only [if_pos ha]
    have hmap : mapSkips (fun s => s - k) (cols.map (Col.entry k)) = cols.map (Col.entry 0) := by
      rw [mapSkips_entry, Nat.sub_self]
    rw [hmap]
    have hkrs : k * rs ≤ size / rs * rs := Nat.mul_le_mul_right _ hk
    obtain ⟨q, hq⟩ := interLoop_eq hS e f hf start rs n (size / rs - k) k 0 cols 0 L hsz hR.symm
      (by rw [show k + (size / rs - k) = size / rs by omega]; omega) hu
    refine ⟨q, ?_⟩
    simp only [rowVals_drop, if_pos ha, Nat.zero_add] at hq
    by_cases hk0 : k > 0
    · rw [if_pos hk0]
      have h1 : k ≤ k * rs := Nat.le_mul_of_pos_right _ hrow
      have h2 : rs ≤ k * rs := Nat.le_mul_of_pos_left _ hk0
      rw [lift_bind (mulI64_small (by omega) (by omega) (by omega)),
        Rd.bind_ok (move_nat _ _ _ (by omega))]
      exact hq
    · rw [if_neg hk0]
      have : k = 0 := by omega
      subst this
      rw [Nat.zero_mul, Nat.add_zero] at hq
      exact hq
  · simp only [if_neg ha]
    have ha' : anyOut cols = false := by simpa using ha
    have hmap : mapSkips (fun s => s - 0) (cols.map (Col.entry k)) = cols.map (Col.entry 0) := by
      rw [mapSkips_entry, Nat.sub_zero]
      apply List.map_congr_left
      intro c hc
      have : c.out = none := by
        unfold anyOut at ha'
        rw [List.any_eq_false] at ha'
        simpa using ha' c hc
      simp [Col.entry, this]
    rw [hmap, if_neg (by omega)]
    obtain ⟨q, hq⟩ := interLoop_eq hS e f hf start rs n (size / rs - 0) 0 0 cols 0 L hsz hR.symm
      (by rw [Nat.zero_add, Nat.sub_zero]; omega) hu
    refine ⟨q, ?_⟩
    rw [Nat.zero_mul, Nat.add_zero, if_neg ha] at hq
    rw [feedCols_full _ (uni_noOut (n := n) ha')] at hq ⊢
    exact hq

/-! ## From requests to columns -/

/-- the column of channel `j` -/
def colAt (reqs : List (ChannelRequest α)) (j : Nat) (m : RawDataMeta) : Col α where
  length := m.numberOfValues
  size := m.dataType.size
  out := (reqs.find? (fun r => r.channelIndex == j)).map (fun r => (r.slot, ⟨[], r.output⟩))

/-- the columns of a block -/
def colsOf (channels : List RawDataMeta) (reqs : List (ChannelRequest α)) : List (Col α) :=
  channels.mapIdx (colAt reqs)

theorem setReadable_cols (channels : List RawDataMeta) :
    ∀ (rs done : List (ChannelRequest α)), (done ++ rs).Pairwise (fun a b => a.channelIndex ≠ b.channelIndex) →
      (∀ r ∈ rs, r.channelIndex < channels.length) →
      setReadable ((colsOf channels done).map (Col.entry 0)) rs =
        .ok ((colsOf channels (done ++ rs)).map (Col.entry 0)) := by
  intro rs
  induction rs with
  | nil => intro done _ _; simp [setReadable]
  | cons r rs ih =>
    intro done hd hb
    have hr := hb r (by simp)
    unfold setReadable
    have hget : ((colsOf channels done).map (Col.entry 0))[r.channelIndex]? =
        some (Col.entry 0 (colAt done r.channelIndex channels[r.channelIndex])) := by
      simp [colsOf, hr]
    rw [hget]
    dsimp only
    have hset : ((colsOf channels done).map (Col.entry 0)).set r.channelIndex
          { (Col.entry 0 (colAt done r.channelIndex channels[r.channelIndex])) with
            plan := .read r.slot ⟨[], r.output⟩ 0 }
        = (colsOf channels (done ++ [r])).map (Col.entry 0) := by
      apply List.ext_getElem?
      intro i
      rw [List.getElem?_set]
      have hfind : ∀ j, (done ++ [r]).find? (fun r => r.channelIndex == j) =
          (done.find? (fun r => r.channelIndex == j)).or (if r.channelIndex = j then some r else none) := by
        intro j
        rw [List.find?_append]
        congr 1
        by_cases h : r.channelIndex = j <;> simp [h]
      by_cases hi : r.channelIndex = i
      · subst hi
        rw [if_pos rfl, if_pos (by simpa [colsOf] using hr)]
        have hnone : done.find? (fun x => x.channelIndex == r.channelIndex) = none := by
          rw [List.find?_eq_none]
          intro x hx
          have := List.pairwise_append.mp hd
          simpa using this.2.2 x hx r (by simp)
        simp only [colsOf, List.getElem?_map, List.getElem?_mapIdx, List.getElem?_eq_getElem hr, Option.map_some]
        rw [colAt, colAt, hfind, hnone]
        simp [Col.entry]
      · rw [if_neg hi]
        simp only [colsOf, List.getElem?_map, List.getElem?_mapIdx]
        cases channels[i]? with
        | none => rfl
        | some m =>
          simp only [Option.map_some, colAt]
          rw [hfind, if_neg hi, Option.or_none]
    rw [hset, ih (done ++ [r]) (by simpa using hd) (fun x hx => hb x (by simp [hx]))]
    simp

theorem baseRecord_cols (channels : List RawDataMeta) :
    baseRecord channels = (colsOf channels ([] : List (ChannelRequest α))).map (Col.entry 0) := by
  unfold baseRecord colsOf
  apply List.ext_getElem?
  intro i
  simp only [List.getElem?_map, List.getElem?_mapIdx]
  cases channels[i]? <;> rfl

theorem validateTypes_ok (channels : List RawDataMeta) : ∀ (reqs : List (ChannelRequest α)),
    (∀ r ∈ reqs, ∃ m, channels[r.channelIndex]? = some m ∧ m.dataType ∈ S.supported) →
    validateTypes S channels reqs = .ok () := by
  intro reqs
  induction reqs with
  | nil => intro _; rfl
  | cons r rs ih =>
    intro h
    obtain ⟨m, hm, hs⟩ := h r (by simp)
    unfold validateTypes
    rw [hm]
    dsimp only
    rw [if_pos (by simpa using hs)]
    exact ih (fun x hx => h x (by simp [hx]))

theorem buildRecordPlan_eq (channels : List RawDataMeta) (reqs : List (ChannelRequest α))
    (hd : reqs.Pairwise (fun a b => a.channelIndex ≠ b.channelIndex))
    (h : ∀ r ∈ reqs, ∃ m, channels[r.channelIndex]? = some m ∧ m.dataType ∈ S.supported) :
    buildRecordPlan S channels reqs = .ok ((colsOf channels reqs).map (Col.entry 0)) := by
  unfold buildRecordPlan
  rw [validateTypes_ok channels reqs h, baseRecord_cols (α := α)]
  have := setReadable_cols channels reqs [] (by simpa using hd) (by
    intro r hr
    obtain ⟨m, hm, _⟩ := h r hr
    exact (List.getElem?_eq_some_iff.mp hm).1)
  rw [List.nil_append] at this
  exact this

theorem find_req {reqs : List (ChannelRequest α)}
    (hd : reqs.Pairwise (fun a b => a.channelIndex ≠ b.channelIndex)) {r : ChannelRequest α} (hr : r ∈ reqs) :
    reqs.find? (fun x => x.channelIndex == r.channelIndex) = some r := by
  induction reqs with
  | nil => cases hr
  | cons a as ih =>
    have hp := List.pairwise_cons.mp hd
    rcases List.mem_cons.mp hr with h | h
    · subst h; simp
    · rw [List.find?_cons_of_neg (by simpa using hp.1 r h)]
      exact ih hp.2 h

theorem colsOf_mem {channels : List RawDataMeta} {reqs : List (ChannelRequest α)} {c : Col α}
    (h : c ∈ colsOf channels reqs) : ∃ j m, channels[j]? = some m ∧ c = colAt reqs j m := by
  obtain ⟨i, hi⟩ := List.mem_iff_getElem?.mp h
  unfold colsOf at hi
  rw [List.getElem?_mapIdx] at hi
  cases hm : channels[i]? with
  | none => rw [hm] at hi; cases hi
  | some m =>
    rw [hm] at hi
    simp only [Option.map_some, Option.some.injEq] at hi
    exact ⟨i, m, hm, hi.symm⟩

theorem colAt_out {reqs : List (ChannelRequest α)} {j : Nat} {m : RawDataMeta} {x : Nat × OutIter α}
    (h : (colAt reqs j m).out = some x) :
    ∃ r ∈ reqs, r.channelIndex = j ∧ x = (r.slot, ⟨[], r.output⟩) := by
  unfold colAt at h
  simp only [Option.map_eq_some_iff] at h
  obtain ⟨r, hf, hx⟩ := h
  refine ⟨r, List.mem_of_find?_eq_some hf, ?_, hx.symm⟩
  simpa using List.find?_some hf

theorem anyOut_colsOf {channels : List RawDataMeta} {reqs : List (ChannelRequest α)}
    (hi : ∀ r ∈ reqs, ∃ m, channels[r.channelIndex]? = some m)
    (hd : reqs.Pairwise (fun a b => a.channelIndex ≠ b.channelIndex)) :
    anyOut (colsOf channels reqs) = !reqs.isEmpty := by
  cases reqs with
  | nil =>
    unfold anyOut
    rw [List.isEmpty_nil, Bool.not_true, List.any_eq_false]
    intro c hc
    obtain ⟨j, m, _, rfl⟩ := colsOf_mem hc
    simp [colAt]
  | cons r rs =>
    unfold anyOut
    rw [List.isEmpty_cons, Bool.not_false, List.any_eq_true]
    obtain ⟨m, hm⟩ := hi r (by simp)
    refine ⟨colAt (r :: rs) r.channelIndex m, ?_, ?_⟩
    · rw [List.mem_iff_getElem?]
      exact ⟨r.channelIndex, by simp [colsOf, hm]⟩
    · simp [colAt]

theorem countP_colsOf {channels : List RawDataMeta} {reqs : List (ChannelRequest α)}
    (hi : ∀ r ∈ reqs, ∃ m, channels[r.channelIndex]? = some m)
    (hd : reqs.Pairwise (fun a b => a.channelIndex ≠ b.channelIndex)) :
    (colsOf channels reqs).countP (fun c => c.out.isSome) = reqs.length := by
  suffices h : ∀ (rs done : List (ChannelRequest α)),
      (done ++ rs).Pairwise (fun a b => a.channelIndex ≠ b.channelIndex) →
      (∀ r ∈ rs, ∃ m, channels[r.channelIndex]? = some m) →
      (colsOf channels (done ++ rs)).countP (fun c => c.out.isSome) =
        (colsOf channels done).countP (fun c => c.out.isSome) + rs.length by
    have := h reqs [] (by simpa using hd) hi
    rw [List.nil_append] at this
    rw [this]
    have h0 : (colsOf channels ([] : List (ChannelRequest α))).countP (fun c => c.out.isSome) = 0 := by
      rw [List.countP_eq_zero]
      intro c hc
      obtain ⟨j, m, _, rfl⟩ := colsOf_mem hc
      simp [colAt]
    omega
  intro rs
  induction rs with
  | nil => intro done _ _; simp
  | cons r rs ih =>
    intro done hd hi
    have hstep := ih (done ++ [r]) (by simpa using hd) (fun x hx => hi x (by simp [hx]))
    rw [List.append_assoc, List.singleton_append] at hstep
    rw [hstep]
    suffices (colsOf channels (done ++ [r])).countP (fun c => c.out.isSome)
        = (colsOf channels done).countP (fun c => c.out.isSome) + 1 by
      rw [this, List.length_cons]; omega
    obtain ⟨m, hm⟩ := hi r (by simp)
    obtain ⟨hlt, hmeq⟩ := List.getElem?_eq_some_iff.mp hm
    have hset : colsOf channels (done ++ [r]) =
        (colsOf channels done).set r.channelIndex (colAt (done ++ [r]) r.channelIndex m) := by
      apply List.ext_getElem?
      intro i
      rw [List.getElem?_set]
      by_cases h : r.channelIndex = i
      · subst h
        rw [if_pos rfl, if_pos (by simpa [colsOf] using hlt)]
        simp [colsOf, hm]
      · rw [if_neg h]
        simp only [colsOf, List.getElem?_mapIdx]
        cases channels[i]? with
        | none => rfl
        | some m' =>
          simp only [Option.map_some, colAt, List.find?_append]
          have : [r].find? (fun r => r.channelIndex == i) = none := by simp [h]
          rw [this, Option.or_none]
    have hlen : r.channelIndex < (colsOf channels done).length := by simpa [colsOf] using hlt
    rw [hset, List.countP_set hlen]
    have hnone : done.find? (fun x => x.channelIndex == r.channelIndex) = none := by
      rw [List.find?_eq_none]
      intro x hx
      have := List.pairwise_append.mp hd
      simpa using this.2.2 x hx r (by simp)
    have h1 : ((colsOf channels done)[r.channelIndex]).out.isSome = false := by
      simp [colsOf, colAt, hnone]
    have h2 : (colAt (done ++ [r]) r.channelIndex m).out.isSome = true := by
      simp [colAt, List.find?_append, hnone]
    rw [h1, h2]
    simp


/-! ## The outputs of a plan -/

theorem feedCols_getElem? {ext : Col α → Nat} (g : Nat → Col α → List α) (cols : List (Col α)) (o i : Nat) :
    (feedCols ext g o cols)[i]? = cols[i]?.map (fun c =>
      { c with out := c.out.map (fun (s, it) => (s, it.feed (g (o + ((cols.take i).map ext).sum) c))) }) := by
  induction cols generalizing o i with
  | nil => simp [feedCols]
  | cons c cs ih =>
    unfold feedCols
    cases i with
    | zero => simp
    | succ i =>
      rw [List.getElem?_cons_succ, ih, List.getElem?_cons_succ, List.take_succ_cons, List.map_cons, List.sum_cons,
        Nat.add_assoc]

theorem lookup_of_mem {β : Type} {l : List (Nat × β)} {s : Nat} {v : β} (h : (s, v) ∈ l)
    (hu : ∀ v', (s, v') ∈ l → v' = v) : l.lookup s = some v := by
  induction l with
  | nil => cases h
  | cons x xs ih =>
    obtain ⟨a, w⟩ := x
    rw [List.lookup_cons]
    by_cases ha : s = a
    · subst ha
      rw [show (s == s) = true by simp]
      simp only [hu w (by simp)]
    · rw [show (s == a) = false by simpa using ha]
      refine ih ?_ (fun v' hv' => hu v' (by simp [hv']))
      rcases List.mem_cons.mp h with h | h
      · simp only [Prod.mk.injEq] at h
        exact absurd h.1 ha
      · exact h

theorem lookup_none {β : Type} {l : List (Nat × β)} {s : Nat} (h : ∀ x ∈ l, x.1 ≠ s) : l.lookup s = none := by
  induction l with
  | nil => rfl
  | cons x xs ih =>
    obtain ⟨a, w⟩ := x
    rw [List.lookup_cons]
    have := h (a, w) (by simp)
    rw [show (s == a) = false by simpa using fun h => this h.symm]
    exact ih (fun x hx => h x (by simp [hx]))

theorem planOutputs_entry (k : Nat) (cols : List (Col α)) :
    planOutputs (cols.map (Col.entry k)) =
      cols.filterMap (fun c => c.out.map (fun x => (x.1, x.2.done ++ x.2.rest))) := by
  unfold planOutputs
  rw [List.filterMap_map]
  congr 1
  funext c
  simp only [Function.comp, Col.entry]
  cases c.out <;> rfl

theorem planOutputs_colsOf {channels : List RawDataMeta} {reqs : List (ChannelRequest α)}
    (hd : reqs.Pairwise (fun a b => a.channelIndex ≠ b.channelIndex))
    (hs : reqs.Pairwise (fun a b => a.slot ≠ b.slot))
    (ext : Col α → Nat) (g : Nat → Col α → List α) (k : Nat) :
    (∀ r ∈ reqs, ∀ m, channels[r.channelIndex]? = some m →
      (planOutputs ((feedCols ext g 0 (colsOf channels reqs)).map (Col.entry k))).lookup r.slot =
        some (overlay r.output
          (g (((colsOf channels reqs).take r.channelIndex).map ext).sum (colAt reqs r.channelIndex m)))) ∧
    (∀ slot, (∀ r ∈ reqs, r.slot ≠ slot) →
      (planOutputs ((feedCols ext g 0 (colsOf channels reqs)).map (Col.entry k))).lookup slot = none) := by
  rw [planOutputs_entry]
  have hmem : ∀ x, x ∈ (feedCols ext g 0 (colsOf channels reqs)).filterMap
        (fun c => c.out.map (fun x => (x.1, x.2.done ++ x.2.rest))) ↔
      ∃ r ∈ reqs, ∃ m, channels[r.channelIndex]? = some m ∧
        x = (r.slot, overlay r.output
          (g (((colsOf channels reqs).take r.channelIndex).map ext).sum (colAt reqs r.channelIndex m))) := by
    intro x
    rw [List.mem_filterMap]
    constructor
    · rintro ⟨c, hc, hx⟩
      obtain ⟨i, hi⟩ := List.mem_iff_getElem?.mp hc
      rw [feedCols_getElem?] at hi
      cases hci : (colsOf channels reqs)[i]? with
      | none => rw [hci] at hi; cases hi
      | some c0 =>
        rw [hci] at hi
        simp only [Option.map_some, Option.some.injEq] at hi
        subst hi
        simp only [Option.map_map, Option.map_eq_some_iff] at hx
        obtain ⟨y, hy, hx⟩ := hx
        unfold colsOf at hci
        rw [List.getElem?_mapIdx] at hci
        cases hm : channels[i]? with
        | none => rw [hm] at hci; cases hci
        | some m =>
          rw [hm] at hci
          simp only [Option.map_some, Option.some.injEq] at hci
          subst hci
          obtain ⟨r, hr, hri, rfl⟩ := colAt_out hy
          subst hri
          refine ⟨r, hr, m, hm, ?_⟩
          rw [← hx]
          simp only [Function.comp, OutIter.feed_overlay, Nat.zero_add]
    · rintro ⟨r, hr, m, hm, rfl⟩
      have hget := feedCols_getElem? (ext := ext) g (colsOf channels reqs) 0 r.channelIndex
      have hc : (colsOf channels reqs)[r.channelIndex]? = some (colAt reqs r.channelIndex m) := by
        simp only [colsOf, List.getElem?_mapIdx, hm, Option.map_some]
      rw [hc, Option.map_some] at hget
      refine ⟨_, List.mem_iff_getElem?.mpr ⟨r.channelIndex, hget⟩, ?_⟩
      simp only [Nat.zero_add]
      generalize g (((colsOf channels reqs).take r.channelIndex).map ext).sum (colAt reqs r.channelIndex m) = vs
      simp only [colAt, find_req hd hr, Option.map_some, OutIter.feed_overlay]
  constructor
  · intro r hr m hm
    apply lookup_of_mem
    · rw [hmem]; exact ⟨r, hr, m, hm, rfl⟩
    · intro v' hv'
      rw [hmem] at hv'
      obtain ⟨r', hr', m', hm', heq⟩ := hv'
      simp only [Prod.mk.injEq] at heq
      have : r = r' := by
        refine Classical.byContradiction fun hne => ?_
        have hp : ∀ a b, a ∈ reqs → b ∈ reqs → a ≠ b → a.slot ≠ b.slot := by
          intro a b ha hb hab
          obtain ⟨i, hi⟩ := List.mem_iff_getElem?.mp ha
          obtain ⟨j, hj⟩ := List.mem_iff_getElem?.mp hb
          obtain ⟨hi1, hi2⟩ := List.getElem?_eq_some_iff.mp hi
          obtain ⟨hj1, hj2⟩ := List.getElem?_eq_some_iff.mp hj
          have hpw := List.pairwise_iff_getElem.mp hs
          rcases Nat.lt_trichotomy i j with h | h | h
          · have := hpw i j hi1 hj1 h; rw [hi2, hj2] at this; exact this
          · subst h; rw [hi2] at hj2; exact absurd hj2 hab
          · have := hpw j i hj1 hi1 h; rw [hi2, hj2] at this; exact fun h => this h.symm
        exact hp r r' hr hr' hne heq.1
      subst this
      rw [hm] at hm'
      cases hm'
      exact heq.2
  · intro slot hslot
    apply lookup_none
    intro x hx
    rw [hmem] at hx
    obtain ⟨r, hr, m, _, rfl⟩ := hx
    exact hslot r hr

/-! ## One block -/

/-- A block that can be read with a skip of `k` for channels with `n` values per chunk and `count`
    samples in the block. -/
structure DataBlock.Ready (f : Bytes) (b : DataBlock) (k n count : Nat) : Prop where
  inside : b.start + b.length ≤ f.length
  fileSize : f.length < 2 ^ 63
  ordinary : ∀ m ∈ b.channels, Format.ordinary m.dataType = true
  counted : count = n * (b.length / chunkBytesOf b.channels)
  skip : k < count
  contig : b.layout = .contigious → ∃ m0, b.channels.head? = some m0 ∧ 0 < m0.numberOfValues ∧
    (k = 0 ∨ m0.numberOfValues = n)
  inter : b.layout = .interleaved → b.length / rowBytesOf b.channels = count

/-- The result of a block read. -/
structure BlockResult (dec : Endian → Bytes → α) (f : Bytes) (b : DataBlock) (reqs : List (ChannelRequest α))
    (k L count : Nat) (res : Nat × List (RecordEntry α)) : Prop where
  number : res.1 = if reqs.isEmpty then 0 else min (count - k) L
  outputs : ∀ r ∈ reqs, ∀ m, b.channels[r.channelIndex]? = some m →
    (planOutputs res.2).lookup r.slot =
      some (overlay r.output ((b.samples dec f r.channelIndex m count).drop k))
  others : ∀ slot, (∀ r ∈ reqs, r.slot ≠ slot) → (planOutputs res.2).lookup slot = none

theorem colsOf_bytes {channels : List RawDataMeta} (reqs : List (ChannelRequest α))
    (h : ∀ m ∈ channels, Format.ordinary m.dataType = true) :
    (colsOf channels reqs).map Col.bytes = channels.map (fun m => m.numberOfValues * Format.bytesOf m.dataType) ∧
    (colsOf channels reqs).map Col.size = channels.map (fun m => Format.bytesOf m.dataType) := by
  constructor
  · apply List.ext_getElem?
    intro i
    simp only [colsOf, List.getElem?_map, List.getElem?_mapIdx]
    cases hm : channels[i]? with
    | none => rfl
    | some m =>
      have := Format.bytesOf_ordinary (h m (List.mem_of_getElem? hm))
      simp [Col.bytes, colAt, this]
  · apply List.ext_getElem?
    intro i
    simp only [colsOf, List.getElem?_map, List.getElem?_mapIdx]
    cases hm : channels[i]? with
    | none => rfl
    | some m =>
      have := Format.bytesOf_ordinary (h m (List.mem_of_getElem? hm))
      simp [colAt, this]

theorem size_small (dt : DataType) : dt.size < 2 ^ 63 := by cases dt <;> decide

theorem DataBlock.Ready.read (hS : S.Fixed dec) {f : Bytes} {b : DataBlock} {k n count L : Nat}
    (hb : b.Ready f k n count) {reqs : List (ChannelRequest α)}
    (hd : reqs.Pairwise (fun a b => a.channelIndex ≠ b.channelIndex))
    (hsl : reqs.Pairwise (fun a b => a.slot ≠ b.slot))
    (hreq : ∀ r ∈ reqs, r.skip = k ∧ r.output.length = L ∧ ∃ m, b.channels[r.channelIndex]? = some m ∧
      m.dataType ∈ S.supported ∧ m.numberOfValues = n) :
    (∃ res, b.readWithSkip S f reqs = .ok res ∧ BlockResult dec f b reqs k L count res) ∧
    (k = 0 → ∃ res, b.read S f reqs = .ok res ∧ BlockResult dec f b reqs k L count res) := by
  obtain ⟨hin, hf, hord, hcount, hk, hcon, hint⟩ := hb
  have hidx : ∀ r ∈ reqs, ∃ m, b.channels[r.channelIndex]? = some m := fun r hr => by
    obtain ⟨_, _, m, hm, _⟩ := hreq r hr; exact ⟨m, hm⟩
  have hplan := buildRecordPlan_eq (S := S) b.channels reqs hd (fun r hr => by
    obtain ⟨_, _, m, hm, hs, _⟩ := hreq r hr; exact ⟨m, hm, hs⟩)
  have hskips : reqs.map (·.skip) = List.replicate ((colsOf b.channels reqs).countP (fun c => c.out.isSome)) k := by
    rw [countP_colsOf hidx hd]
    apply List.eq_replicate_iff.mpr
    refine ⟨by simp, ?_⟩
    intro x hx
    obtain ⟨r, hr, rfl⟩ := List.mem_map.mp hx
    exact (hreq r hr).1
  have hany := anyOut_colsOf hidx hd
  obtain ⟨hbytes, hsizes⟩ := colsOf_bytes reqs hord
  have hcb : ((colsOf b.channels reqs).map Col.bytes).sum = chunkBytesOf b.channels := by rw [hbytes]; rfl
  have hrb : ((colsOf b.channels reqs).map Col.size).sum = rowBytesOf b.channels := by rw [hsizes]; rfl
  have hsz : Sized S (colsOf b.channels reqs) := by
    intro c hc hs
    obtain ⟨j, m, hm, rfl⟩ := colsOf_mem hc
    obtain ⟨x, hx⟩ := Option.isSome_iff_exists.mp hs
    obtain ⟨r, hr, hrj, _⟩ := colAt_out hx
    obtain ⟨_, _, m', hm', hs', _⟩ := hreq r hr
    rw [hrj, hm] at hm'
    cases hm'
    exact (hS.sizes _ hs').1
  have hpos : ∀ c ∈ colsOf b.channels reqs, c.size < 2 ^ 63 := by
    intro c hc
    obtain ⟨j, m, hm, rfl⟩ := colsOf_mem hc
    exact size_small _
  have huni : Uni n L (colsOf b.channels reqs) := by
    intro c hc x hx
    obtain ⟨j, m, hm, rfl⟩ := colsOf_mem hc
    obtain ⟨r, hr, hrj, rfl⟩ := colAt_out hx
    obtain ⟨_, hL, m', hm', _, hn⟩ := hreq r hr
    rw [hrj, hm] at hm'
    cases hm'
    exact ⟨hn, hL⟩
  have hmem : ∀ r ∈ reqs, ∀ m, b.channels[r.channelIndex]? = some m →
      S.memSize = Format.bytesOf m.dataType ∧ m.numberOfValues = n := by
    intro r hr m hm
    obtain ⟨_, _, m', hm', hs', hn⟩ := hreq r hr
    rw [hm] at hm'
    cases hm'
    obtain ⟨h1, h2⟩ := hS.sizes _ hs'
    exact ⟨by rw [Format.bytesOf_ordinary h2, h1], hn⟩
  have hchunk : 0 < chunkBytesOf b.channels ∧ chunkBytesOf b.channels ≤ b.length := by
    have : b.length / chunkBytesOf b.channels ≠ 0 := by
      intro h0; rw [h0, Nat.mul_zero] at hcount; omega
    constructor
    · rcases Nat.eq_zero_or_pos (chunkBytesOf b.channels) with h | h
      · rw [h, Nat.div_zero] at this; exact absurd rfl this
      · exact h
    · refine Nat.le_of_not_lt fun h => this (Nat.div_eq_of_lt h)
  have htakeB : ∀ i, (((colsOf b.channels reqs).take i).map Col.bytes).sum = chunkBytesOf (b.channels.take i) := by
    intro i
    rw [List.map_take, hbytes, ← List.map_take]
    rfl
  have htakeS : ∀ i, (((colsOf b.channels reqs).take i).map Col.size).sum = rowBytesOf (b.channels.take i) := by
    intro i
    rw [List.map_take, hsizes, ← List.map_take]
    rfl
  unfold DataBlock.readWithSkip DataBlock.read
  dsimp only
  rw [hplan, hskips]
  cases hlay : b.layout with
  | contigious =>
    obtain ⟨m0, hm0, hm0pos, hm0k⟩ := hcon hlay
    have hfirst : (colsOf b.channels reqs).head?.map (·.length) = some m0.numberOfValues := by
      cases hch : b.channels with
      | nil => rw [hch] at hm0; cases hm0
      | cons a as =>
        rw [hch] at hm0
        cases hm0
        simp [colsOf, List.mapIdx_cons, colAt]
    have main : ∀ s, (s = if anyOut (colsOf b.channels reqs) then k else 0) →
        ∃ res q, contigReadFrom S b.byteOrder b.start b.length ((colsOf b.channels reqs).map (Col.entry 0)) s f 0
          = .ok (res, q) ∧ BlockResult dec f b reqs k L count res := by
      intro s hs
      have hs' : s = 0 ∨ n = m0.numberOfValues := by
        rw [hs]
        rcases hm0k with h | h
        · left; rw [h]; split <;> rfl
        · right; exact h.symm
      obtain ⟨k', q, hres⟩ := contigReadFrom_eq hS.toReads b.byteOrder f hf b.start b.length 0 s n L 0 m0.numberOfValues
        (colsOf b.channels reqs) hsz hpos hfirst hm0pos hin (by rw [hcb]; omega) (by rw [hcb]; omega) huni hs'
      refine ⟨_, q, hres, ?_, ?_, ?_⟩
      · simp only
        rw [hany, hcb, ← hcount]
        cases hre : reqs.isEmpty with
        | true => rfl
        | false => simp [hs, hany, hre]
      · intro r hr m hm
        have hne : anyOut (colsOf b.channels reqs) = true := by
          rw [hany]; cases reqs with
          | nil => cases hr
          | cons => rfl
        rw [if_pos hne] at hs
        subst hs
        simp only
        rw [(planOutputs_colsOf hd hsl _ _ _).1 r hr m hm, htakeB, hcb]
        obtain ⟨hms, hmn⟩ := hmem r hr m hm
        congr 3
        unfold flatVals DataBlock.samples
        have hlen : (colAt reqs r.channelIndex m).length = n := hmn
        rw [hlen, ← hcount]
        apply List.map_congr_left
        intro j _
        unfold DataBlock.sampleBytes DataBlock.samplePos
        rw [hlay]
        simp only [hms, hmn]
      · intro slot hslot
        exact (planOutputs_colsOf hd hsl _ _ _).2 slot hslot
    constructor
    · dsimp only
      obtain ⟨res, q, h1, h2⟩ := main _ rfl
      rw [← contigReadSkip_uniform (S := S) b.byteOrder f b.start b.length 0 k 0 m0.numberOfValues
        (colsOf b.channels reqs) hfirst hm0pos] at h1
      refine ⟨res, ?_, h2⟩
      show (do let r ← contigReadSkip S b.byteOrder b.start b.length _ _ f 0; pure r.1) = _
      rw [h1]
      rfl
    · intro hk0
      obtain ⟨res, q, h1, h2⟩ := main 0 (by rw [hk0]; split <;> rfl)
      refine ⟨res, ?_, h2⟩
      show (do let r ← contigReadFrom S b.byteOrder b.start b.length _ 0 f 0; pure r.1) = _
      rw [h1]
      rfl
  | interleaved =>
    have hrows := hint hlay
    have hrpos : 0 < rowBytesOf b.channels := by
      rcases Nat.eq_zero_or_pos (rowBytesOf b.channels) with h | h
      · rw [h, Nat.div_zero] at hrows; omega
      · exact h
    obtain ⟨q, hres⟩ := interRead_eq hS.toReads b.byteOrder f hf b.start b.length k n L 0 (colsOf b.channels reqs) hsz
      (by rw [hrb]; exact hrpos) hin (by rw [hrb, hrows]; omega) huni
    have hgood : BlockResult dec f b reqs k L count
        ((if anyOut (colsOf b.channels reqs) then
            min (b.length / ((colsOf b.channels reqs).map Col.size).sum - k) L else 0,
          (feedCols Col.size (fun o _ => (rowVals S dec b.byteOrder f b.start
            ((colsOf b.channels reqs).map Col.size).sum 0
            (b.length / ((colsOf b.channels reqs).map Col.size).sum) o).drop k) 0
            (colsOf b.channels reqs)).map (Col.entry 0))) := by
      refine ⟨?_, ?_, ?_⟩
      · simp only
        rw [hany, hrb, hrows]
        cases reqs.isEmpty <;> rfl
      · intro r hr m hm
        simp only
        rw [(planOutputs_colsOf hd hsl _ _ _).1 r hr m hm, htakeS, hrb, hrows]
        obtain ⟨hms, hmn⟩ := hmem r hr m hm
        congr 3
        unfold rowVals DataBlock.samples
        rw [List.range_eq_range']
        apply List.map_congr_left
        intro j _
        unfold DataBlock.sampleBytes DataBlock.samplePos
        rw [hlay]
        simp only [hms]
      · intro slot hslot
        exact (planOutputs_colsOf hd hsl _ _ _).2 slot hslot
    constructor
    · refine ⟨_, ?_, hgood⟩
      have hset : setSkips (List.replicate ((colsOf b.channels reqs).countP (fun c => c.out.isSome)) k)
          ((colsOf b.channels reqs).map (Col.entry 0)) = (colsOf b.channels reqs).map (Col.entry k) := by
        have := setSkips_replicate k ((colsOf b.channels reqs).map (Col.entry 0))
        rw [blockSkips_entry, List.length_replicate, mapSkips_entry] at this
        exact this
      show (do let r ← interRead S b.byteOrder b.start b.length (setSkips _ _) f 0; pure r.1) = _
      rw [hset, hres]
      rfl
    · intro hk0
      refine ⟨_, ?_, hgood⟩
      rw [hk0] at hres ⊢
      show (do let r ← interRead S b.byteOrder b.start b.length _ f 0; pure r.1) = _
      rw [hres]
      rfl

end
end Tedium
