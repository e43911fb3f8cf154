import Verif.Proofs.Lanes

/-! # What a read of several channels gets from one data block -/

namespace Tedium

section
variable {α : Type} {S : Storage α} {dec : Endian → Bytes → α}

/-- the part of a request in reading a block -/
def ChannelRequest.taker (r : ChannelRequest α) : Taker := ⟨r.channelIndex, r.skip, r.output.length⟩

/-- the request that gets the values of channel number `j` -/
def getter (reqs : List (ChannelRequest α)) (j : Nat) : Option (ChannelRequest α) :=
  reqs.reverse.find? (fun r => r.channelIndex == j)

theorem getter_mem {reqs : List (ChannelRequest α)} {j : Nat} {r : ChannelRequest α} (h : getter reqs j = some r) :
    r ∈ reqs ∧ r.channelIndex = j := by
  unfold getter at h
  exact ⟨List.mem_reverse.mp (List.mem_of_find?_eq_some h), by simpa using List.find?_some h⟩

theorem getter_isSome (reqs : List (ChannelRequest α)) (j : Nat) :
    (getter reqs j).isSome = ((reqs.map ChannelRequest.taker).map (·.chan)).contains j := by
  unfold getter
  rw [Bool.eq_iff_iff, List.find?_isSome, List.contains_iff_mem, List.map_map, List.mem_map]
  constructor
  · rintro ⟨r, hr, hj⟩
    exact ⟨r, List.mem_reverse.mp hr, by simpa [ChannelRequest.taker] using hj⟩
  · rintro ⟨r, hr, hj⟩
    exact ⟨r, List.mem_reverse.mpr hr, by simpa [ChannelRequest.taker] using hj⟩

theorem roomFor_getter (reqs : List (ChannelRequest α)) (j : Nat) :
    roomFor (reqs.map ChannelRequest.taker) j = ((getter reqs j).map (·.output.length)).getD 0 := by
  unfold roomFor getter
  rw [← List.map_reverse, List.find?_map]
  simp only [Option.map_map]
  rfl

/-- the lane of channel number `j` -/
def laneAt (w : Nat) (reqs : List (ChannelRequest α)) (j : Nat) (m : RawDataMeta) : Lane α where
  length := m.numberOfValues
  size := if ((reqs.map ChannelRequest.taker).map (·.chan)).contains j then w else m.dataType.size
  out := (getter reqs j).map (fun r => (r.slot, ⟨[], r.output⟩))
  skip := skipFor (reqs.map ChannelRequest.taker) j

/-- the lanes of a block -/
def lanesOf (w : Nat) (channels : List RawDataMeta) (reqs : List (ChannelRequest α)) : List (Lane α) :=
  channels.mapIdx (laneAt w reqs)

theorem lanesOf_getElem? (w : Nat) (channels : List RawDataMeta) (reqs : List (ChannelRequest α)) (j : Nat) :
    (lanesOf w channels reqs)[j]? = channels[j]?.map (laneAt w reqs j) := by
  unfold lanesOf
  rw [List.getElem?_mapIdx]

/-! ## The plan -/

/-- the plan entry of channel number `j` -/
def entryAt (reqs : List (ChannelRequest α)) (j : Nat) (m : RawDataMeta) : RecordEntry α where
  length := m.numberOfValues
  plan := match getter reqs j with
    | none => .skip m.dataType.size
    | some r => .read r.slot ⟨[], r.output⟩ 0

theorem lanesOf_entry (w : Nat) (channels : List RawDataMeta) (reqs : List (ChannelRequest α)) :
    (lanesOf w channels reqs).map (Lane.entry (fun _ => 0)) = channels.mapIdx (entryAt reqs) := by
  apply List.ext_getElem?
  intro j
  rw [List.getElem?_map, lanesOf_getElem?, List.getElem?_mapIdx]
  cases channels[j]? with
  | none => rfl
  | some m =>
    simp only [Option.map_some, Option.some.injEq]
    unfold Lane.entry laneAt entryAt
    have := getter_isSome reqs j
    cases hg : getter reqs j with
    | none =>
      rw [hg] at this
      simp only [Option.map_none]
      rw [← this]
      simp
    | some r => rfl

theorem setReadable_last (channels : List RawDataMeta) :
    ∀ (rs done : List (ChannelRequest α)), (∀ r ∈ rs, r.channelIndex < channels.length) →
      setReadable (channels.mapIdx (entryAt done)) rs = .ok (channels.mapIdx (entryAt (done ++ rs))) := by
  intro rs
  induction rs with
  | nil => intro done _; simp [setReadable]
  | cons r rs ih =>
    intro done hb
    have hr := hb r (by simp)
    unfold setReadable
    have hget : (channels.mapIdx (entryAt done))[r.channelIndex]? =
        some (entryAt done r.channelIndex channels[r.channelIndex]) := by
      simp [hr]
    rw [hget]
    dsimp only
    have hset : (channels.mapIdx (entryAt done)).set r.channelIndex
          { (entryAt done r.channelIndex channels[r.channelIndex]) with plan := .read r.slot ⟨[], r.output⟩ 0 }
        = channels.mapIdx (entryAt (done ++ [r])) := by
      apply List.ext_getElem?
      intro i
      rw [List.getElem?_set]
      have hfind : ∀ j, getter (done ++ [r]) j = if r.channelIndex = j then some r else getter done j := by
        intro j
        unfold getter
        rw [List.reverse_append, List.reverse_singleton, List.singleton_append, List.find?_cons]
        by_cases h : r.channelIndex = j
        · simp [h]
        · rw [if_neg h, show (r.channelIndex == j) = false by simpa using h]
      by_cases hi : r.channelIndex = i
      · subst hi
        rw [if_pos rfl, if_pos (by simpa using hr), List.getElem?_mapIdx, List.getElem?_eq_getElem hr, Option.map_some]
        unfold entryAt
        rw [hfind, if_pos rfl]
      · rw [if_neg hi, List.getElem?_mapIdx, List.getElem?_mapIdx]
        cases channels[i]? with
        | none => rfl
        | some m =>
          simp only [Option.map_some]
          unfold entryAt
          rw [hfind, if_neg hi]
    rw [hset, ih (done ++ [r]) (fun x hx => hb x (by simp [hx]))]
    simp

theorem buildRecordPlan_lanes (channels : List RawDataMeta) (reqs : List (ChannelRequest α))
    (h : ∀ r ∈ reqs, ∃ m, channels[r.channelIndex]? = some m ∧ m.dataType ∈ S.supported) (w : Nat) :
    buildRecordPlan S channels reqs = .ok ((lanesOf w channels reqs).map (Lane.entry (fun _ => 0))) := by
  unfold buildRecordPlan
  rw [validateTypes_ok channels reqs h]
  have hbase : (baseRecord channels : List (RecordEntry α)) = channels.mapIdx (entryAt []) := by
    unfold baseRecord
    apply List.ext_getElem?
    intro i
    rw [List.getElem?_map, List.getElem?_mapIdx]
    cases channels[i]? <;> rfl
  rw [hbase, lanesOf_entry]
  have := setReadable_last channels reqs [] (by
    intro r hr
    obtain ⟨m, hm, _⟩ := h r hr
    exact (List.getElem?_eq_some_iff.mp hm).1)
  rw [List.nil_append] at this
  exact this

/-! ## The skips -/

theorem length_filter_contains (l : List Nat) (n : Nat) :
    ((List.range n).filter (fun j => l.contains j)).length ≤ l.length := by
  rw [← List.countP_eq_length_filter]
  induction l with
  | nil =>
    rw [List.countP_eq_zero.mpr (fun a _ => by simp)]
    exact Nat.zero_le _
  | cons a as ih =>
    have h1 : ∀ m, (List.range m).countP (fun j => j == a) ≤ 1 := by
      intro m
      rw [← List.count_eq_countP]
      have := List.nodup_iff_count.mp (List.nodup_range (n := m)) a
      exact this
    have h2 : (List.range n).countP (fun j => (a :: as).contains j) ≤
        (List.range n).countP (fun j => j == a) + (List.range n).countP (fun j => as.contains j) := by
      generalize List.range n = r
      induction r with
      | nil => simp
      | cons x xs ih2 =>
        rw [List.countP_cons, List.countP_cons, List.countP_cons, List.contains_cons]
        cases hx : (x == a) <;> cases hy : as.contains x <;>
          simp only [Bool.false_or, Bool.true_or, if_true, Bool.false_eq_true, if_false] <;> omega
    have := h1 n
    rw [List.length_cons]
    omega

theorem readSkips_eq (ts : List Taker) (n : Nat) :
    ((List.range n).filter (fun j => (ts.map (·.chan)).contains j)).map (skipFor ts) =
      (ts.map (·.skip)).take ((List.range n).filter (fun j => (ts.map (·.chan)).contains j)).length := by
  induction n with
  | zero => simp
  | succ n ih =>
    rw [List.range_succ, List.filter_append]
    cases hn : (ts.map (·.chan)).contains n with
    | false =>
      have : [n].filter (fun j => (ts.map (·.chan)).contains j) = [] := by simp only [List.filter_cons, hn]; rfl
      rw [this, List.append_nil, ih]
    | true =>
      have h1 : [n].filter (fun j => (ts.map (·.chan)).contains j) = [n] := by simp only [List.filter_cons, hn]; rfl
      rw [h1, List.map_append, ih, List.length_append, List.length_singleton, List.take_add_one]
      congr 1
      have hlt : ((List.range n).filter (fun j => (ts.map (·.chan)).contains j)).length < ts.length := by
        have := length_filter_contains (ts.map (·.chan)) (n + 1)
        rw [List.range_succ, List.filter_append, h1, List.length_append, List.length_singleton, List.length_map] at this
        omega
      rw [List.map_singleton]
      unfold skipFor
      rw [List.countP_eq_length_filter, List.getElem?_map, List.getElem?_eq_getElem hlt]
      rfl

theorem skipsOf_lanesOf (w : Nat) (channels : List RawDataMeta) (reqs : List (ChannelRequest α)) :
    skipsOf (lanesOf w channels reqs) =
      ((List.range channels.length).filter
        (fun j => ((reqs.map ChannelRequest.taker).map (·.chan)).contains j)).map
        (skipFor (reqs.map ChannelRequest.taker)) := by
  suffices h : ∀ n, n ≤ channels.length → skipsOf ((lanesOf w channels reqs).take n) =
      ((List.range n).filter (fun j => ((reqs.map ChannelRequest.taker).map (·.chan)).contains j)).map
        (skipFor (reqs.map ChannelRequest.taker)) by
    have := h channels.length (Nat.le_refl _)
    rw [List.take_of_length_le (by simp [lanesOf])] at this
    exact this
  intro n
  induction n with
  | zero => intro _; rfl
  | succ n ih =>
    intro hn
    have hlt : n < channels.length := hn
    rw [List.take_add_one, lanesOf_getElem?, List.getElem?_eq_getElem hlt, List.range_succ, List.filter_append,
      List.map_append, ← ih (by omega)]
    unfold skipsOf
    rw [List.filterMap_append]
    congr 1
    simp only [Option.map_some, Option.toList_some, List.filterMap_cons, List.filterMap_nil, List.filter_cons,
      List.filter_nil]
    rw [← getter_isSome reqs n]
    unfold laneAt
    cases getter reqs n with
    | none => rfl
    | some r => rfl

theorem skips_split (w : Nat) (channels : List RawDataMeta) (reqs : List (ChannelRequest α)) :
    ∃ extra, reqs.map (·.skip) = skipsOf (lanesOf w channels reqs) ++ extra := by
  rw [skipsOf_lanesOf, readSkips_eq]
  have : (reqs.map ChannelRequest.taker).map (·.skip) = reqs.map (·.skip) := by
    rw [List.map_map]; rfl
  rw [this]
  exact ⟨_, (List.take_append_drop _ _).symm⟩

/-! ## Counting -/

theorem lastDone_append (d : Nat) (cs : List (Lane α)) (c : Lane α) :
    lastDone d (cs ++ [c]) = match c.out with
      | none => lastDone d cs
      | some x => x.2.done.length := by
  induction cs generalizing d with
  | nil => rfl
  | cons a as ih =>
    rw [List.cons_append]
    unfold lastDone
    cases a.out with
    | none => exact ih d
    | some x => exact ih _

theorem lastDone_eq (cs : List (Lane α)) (P : Nat → Bool) (D : Nat → Nat)
    (h : ∀ (j : Nat) (c : Lane α), cs[j]? = some c → c.out.isSome = P j ∧ ∀ x, c.out = some x → x.2.done.length = D j) :
    lastDone 0 cs = match ((List.range cs.length).filter P).getLast? with
      | none => 0
      | some i => D i := by
  suffices hn : ∀ n, n ≤ cs.length → lastDone 0 (cs.take n) = match ((List.range n).filter P).getLast? with
      | none => 0
      | some i => D i by
    have := hn cs.length (Nat.le_refl _)
    rw [List.take_length] at this
    exact this
  intro n
  induction n with
  | zero => intro _; rfl
  | succ n ih =>
    intro hlen
    obtain ⟨h1, h2⟩ := h n cs[n] (List.getElem?_eq_getElem hlen)
    rw [List.take_add_one, List.getElem?_eq_getElem hlen, Option.toList_some, lastDone_append, List.range_succ,
      List.filter_append]
    cases ho : cs[n].out with
    | none =>
      rw [ho] at h1
      have : [n].filter P = [] := by simp [← h1]
      rw [this, List.append_nil]
      exact ih (by omega)
    | some x =>
      rw [ho] at h1
      have : [n].filter P = [n] := by simp [← h1]
      rw [this, List.getLast?_append]
      exact h2 x ho

/-! ## Rows -/

theorem rows_from {β : Type} (g : Nat → β) (m k : Nat) (hk : m ≤ k) : ∀ T,
    (List.range' m T).flatMap (fun q => if k ≤ q then [g q] else []) = ((List.range (m + T)).drop k).map g := by
  intro T
  induction T with
  | zero =>
    rw [List.drop_eq_nil_of_le (by simpa using hk)]
    rfl
  | succ T ih =>
    rw [List.range'_1_concat, List.flatMap_append, ih, ← Nat.add_assoc, List.range_succ, List.drop_append,
      List.map_append]
    congr 1
    simp only [List.flatMap_cons, List.flatMap_nil, List.append_nil, List.length_range]
    by_cases h : k ≤ m + T
    · rw [if_pos h, Nat.sub_eq_zero_of_le h]; rfl
    · rw [if_neg h, List.drop_eq_nil_of_le (by simp; omega)]; rfl

theorem takeWhile_length (p : Nat → Bool) (m : Nat) : ∀ (r T : Nat), T ≤ r → (∀ j < T, p (m + j) = true) →
    (T < r → p (m + T) = false) → ((List.range' m r).takeWhile p).length = T := by
  intro r
  induction r generalizing m with
  | zero => intro T hT _ _; simp; omega
  | succ r ih =>
    intro T hT h1 h2
    rw [List.range'_succ, List.takeWhile_cons]
    cases T with
    | zero =>
      have := h2 (by omega)
      rw [Nat.add_zero] at this
      rw [this]; rfl
    | succ T =>
      have := h1 0 (by omega)
      rw [Nat.add_zero] at this
      rw [this]
      simp only [if_true, List.length_cons]
      rw [ih (m + 1) T (by omega) (fun j hj => by
        have := h1 (j + 1) (by omega)
        rw [show m + 1 + j = m + (j + 1) by omega]; exact this) (fun h => by
        have := h2 (by omega)
        rw [show m + 1 + T = m + (T + 1) by omega]; exact this)]

/-! ## One block -/

theorem lanesOf_sized (channels : List RawDataMeta) (reqs : List (ChannelRequest α)) :
    SizedL S (lanesOf S.memSize channels reqs) := by
  intro c hc hs
  obtain ⟨j, hj⟩ := List.mem_iff_getElem?.mp hc
  rw [lanesOf_getElem?] at hj
  obtain ⟨m, _, rfl⟩ := Option.map_eq_some_iff.mp hj
  unfold laneAt at hs ⊢
  dsimp only at hs ⊢
  rw [Option.isSome_map, getter_isSome] at hs
  rw [if_pos hs]

theorem lanesOf_widths (w : Nat) (channels : List RawDataMeta) (reqs : List (ChannelRequest α)) :
    (lanesOf w channels reqs).map Lane.size =
      jointWidths channels ((reqs.map ChannelRequest.taker).map (·.chan)) w := by
  unfold lanesOf jointWidths
  apply List.ext_getElem?
  intro j
  simp only [List.getElem?_map, List.getElem?_mapIdx, Option.map_map]
  rfl

theorem lanesOf_chunks (w : Nat) (channels : List RawDataMeta) (reqs : List (ChannelRequest α)) :
    (lanesOf w channels reqs).map Lane.bytes =
      jointChunks channels ((reqs.map ChannelRequest.taker).map (·.chan)) w := by
  unfold lanesOf jointChunks
  apply List.ext_getElem?
  intro j
  simp only [List.getElem?_map, List.getElem?_mapIdx, Option.map_map]
  rfl

/-- A block that can be read for some requests. -/
structure DataBlock.ServesAll (S : Storage α) (f : Bytes) (b : DataBlock) (reqs : List (ChannelRequest α)) : Prop where
  serves : b.ServesTakers S.supported S.memSize f (reqs.map ChannelRequest.taker)
  fileSize : f.length < 2 ^ 63

theorem DataBlock.ServesAll.typed {f : Bytes} {b : DataBlock} {reqs : List (ChannelRequest α)}
    (h : b.ServesAll S f reqs) :
    ∀ r ∈ reqs, ∃ m, b.channels[r.channelIndex]? = some m ∧ m.dataType ∈ S.supported :=
  fun _ hr => h.serves.typed _ (List.mem_map_of_mem hr)

theorem firstCount_head {b : DataBlock} (h : 0 < b.firstCount) :
    ∃ m0, b.channels.head? = some m0 ∧ 0 < m0.numberOfValues := by
  unfold DataBlock.firstCount at h
  cases hb : b.channels with
  | nil => rw [hb] at h; simp at h
  | cons x xs => rw [hb] at h; exact ⟨x, rfl, by simpa using h⟩

/-- The result of a block read. -/
structure JointResult (w : Nat) (dec : Endian → Bytes → α) (f : Bytes) (b : DataBlock) (reqs : List (ChannelRequest α))
    (res : Nat × List (RecordEntry α)) : Prop where
  number : res.1 = b.counted w (reqs.map ChannelRequest.taker)
  gets : ∀ j r, getter reqs j = some r → j < b.channels.length → (planOutputs res.2).lookup r.slot =
    some (overlay r.output ((b.offered w (reqs.map ChannelRequest.taker) j).map
      (fun p => Cell.value dec w f (b.byteOrder, p))))
  others : ∀ slot, (∀ j r, getter reqs j = some r → r.slot ≠ slot) → (planOutputs res.2).lookup slot = none

/-- the outputs of lanes -/
theorem outputs_lanes {channels : List RawDataMeta} {reqs : List (ChannelRequest α)}
    (hs : reqs.Pairwise (fun a b => a.slot ≠ b.slot)) (w : Nat)
    (ext : Nat → Nat → Nat) (g : Nat → Nat → Nat → List α) (κ : Nat → Nat) (V : Nat → List α)
    (hV : ∀ (j : Nat) (m : RawDataMeta) (r : ChannelRequest α), channels[j]? = some m → getter reqs j = some r →
      g (((lanesOf w channels reqs).take j).map (fun c => ext c.length c.size)).sum m.numberOfValues
        (skipFor (reqs.map ChannelRequest.taker) j) = V j) :
    (∀ j r, getter reqs j = some r → j < channels.length →
      (planOutputs ((feedL ext g 0 (lanesOf w channels reqs)).map (Lane.entry κ))).lookup r.slot =
        some (overlay r.output (V j))) ∧
    (∀ slot, (∀ j r, getter reqs j = some r → r.slot ≠ slot) →
      (planOutputs ((feedL ext g 0 (lanesOf w channels reqs)).map (Lane.entry κ))).lookup slot = none) := by
  have hplan : planOutputs ((feedL ext g 0 (lanesOf w channels reqs)).map (Lane.entry κ)) =
      (feedL ext g 0 (lanesOf w channels reqs)).filterMap (fun c => c.out.map (fun x => (x.1, x.2.done ++ x.2.rest))) := by
    unfold planOutputs
    rw [List.filterMap_map]
    congr 1
    funext c
    simp only [Function.comp, Lane.entry]
    cases c.out <;> rfl
  rw [hplan]
  have hmem : ∀ x, x ∈ (feedL ext g 0 (lanesOf w channels reqs)).filterMap
        (fun c => c.out.map (fun x => (x.1, x.2.done ++ x.2.rest))) ↔
      ∃ j r, getter reqs j = some r ∧ j < channels.length ∧ x = (r.slot, overlay r.output (V j)) := by
    intro x
    rw [List.mem_filterMap]
    constructor
    · rintro ⟨c, hc, hx⟩
      obtain ⟨i, hi⟩ := List.mem_iff_getElem?.mp hc
      rw [feedL_getElem?, lanesOf_getElem?] at hi
      cases hm : channels[i]? with
      | none => rw [hm] at hi; cases hi
      | some m =>
        rw [hm] at hi
        simp only [Option.map_some, Option.some.injEq] at hi
        subst hi
        unfold laneAt at hx
        simp only [Option.map_map, Option.map_eq_some_iff] at hx
        obtain ⟨r, hr, hx⟩ := hx
        refine ⟨i, r, hr, (List.getElem?_eq_some_iff.mp hm).1, ?_⟩
        rw [← hx]
        simp only [Function.comp, OutIter.feed_overlay, Nat.zero_add]
        rw [← hV i m r hm hr]
    · rintro ⟨j, r, hr, hj, rfl⟩
      have hm : channels[j]? = some channels[j] := List.getElem?_eq_getElem hj
      have hget := feedL_getElem? ext g (lanesOf w channels reqs) 0 j
      rw [lanesOf_getElem?, hm, Option.map_some, Option.map_some] at hget
      refine ⟨_, List.mem_iff_getElem?.mpr ⟨j, hget⟩, ?_⟩
      unfold laneAt
      simp only [hr, Option.map_some, OutIter.feed_overlay, Nat.zero_add]
      rw [← hV j _ r hm hr]
  have hslot : ∀ a b, a ∈ reqs → b ∈ reqs → a.slot = b.slot → a = b := by
    intro a b ha hb hab
    refine Classical.byContradiction fun hne => ?_
    obtain ⟨i, hi⟩ := List.mem_iff_getElem?.mp ha
    obtain ⟨j, hj⟩ := List.mem_iff_getElem?.mp hb
    obtain ⟨hi1, hi2⟩ := List.getElem?_eq_some_iff.mp hi
    obtain ⟨hj1, hj2⟩ := List.getElem?_eq_some_iff.mp hj
    have hpw := List.pairwise_iff_getElem.mp hs
    rcases Nat.lt_trichotomy i j with h | h | h
    · have := hpw i j hi1 hj1 h; rw [hi2, hj2] at this; exact this hab
    · subst h; rw [hi2] at hj2; exact hne hj2
    · have := hpw j i hj1 hi1 h; rw [hi2, hj2] at this; exact this hab.symm
  constructor
  · intro j r hr hj
    apply lookup_of_mem
    · rw [hmem]; exact ⟨j, r, hr, hj, rfl⟩
    · intro v' hv'
      rw [hmem] at hv'
      obtain ⟨j', r', hr', hj', heq⟩ := hv'
      simp only [Prod.mk.injEq] at heq
      have := hslot r r' (getter_mem hr).1 (getter_mem hr').1 heq.1
      subst this
      have e1 := (getter_mem hr).2
      have e2 := (getter_mem hr').2
      rw [e1] at e2
      subst e2
      exact heq.2
  · intro slot hslot
    apply lookup_none
    intro x hx
    rw [hmem] at hx
    obtain ⟨j, r, hr, _, rfl⟩ := hx
    exact hslot j r hr

theorem take_sum_map {β : Type} (l : List β) (g : β → Nat) (i : Nat) : ((l.take i).map g).sum = ((l.map g).take i).sum := by
  rw [List.map_take]

theorem DataBlock.ServesAll.readContig (hS : S.Reads dec) (hmem : S.memSize < 2 ^ 63) {f : Bytes} {b : DataBlock}
    {reqs : List (ChannelRequest α)} (h : b.ServesAll S f reqs) (hs : reqs.Pairwise (fun a b => a.slot ≠ b.slot))
    (hlay : b.layout = .contigious) (skips extra : List Nat)
    (hex : skips = skipsOf (lanesOf S.memSize b.channels reqs) ++ extra)
    (hall : ∀ c, skips.all (fun s => decide (s / b.firstCount ≤ c)) =
      (reqs.map ChannelRequest.taker).all (fun t => decide (t.skip / b.firstCount ≤ c))) :
    ∃ res q, contigReadSkip S b.byteOrder b.start b.length
        ((lanesOf S.memSize b.channels reqs).map (Lane.entry (fun _ => 0))) skips f 0 = .ok (res, q) ∧
      JointResult S.memSize dec f b reqs res := by
  obtain ⟨hfc0, hc1, hc2⟩ := h.serves.contiguous hlay
  obtain ⟨m0, hm0, hm0p⟩ := firstCount_head hfc0
  have hbytes := lanesOf_chunks S.memSize b.channels reqs
  have hfc : b.firstCount = m0.numberOfValues := by
    unfold DataBlock.firstCount
    cases hb : b.channels with
    | nil => rw [hb] at hm0; cases hm0
    | cons x xs => rw [hb] at hm0; cases hm0; rfl
  have hread := contigReadSkip_lanes hS b.byteOrder f h.fileSize b.start b.length b.firstCount 0 extra
    (lanesOf S.memSize b.channels reqs) (fun _ => 0) (lanesOf_sized b.channels reqs)
    (by
      intro c hc
      obtain ⟨j, hj⟩ := List.mem_iff_getElem?.mp hc
      rw [lanesOf_getElem?] at hj
      obtain ⟨m, _, rfl⟩ := Option.map_eq_some_iff.mp hj
      unfold laneAt
      dsimp only
      split
      · exact hmem
      · have : m.dataType.size ≤ 16 := by cases m.dataType <;> decide
        omega)
    (by rw [hbytes]; exact hc1) (by rw [hbytes]; exact hc2) (by omega)
    (by
      refine ⟨laneAt S.memSize reqs 0 m0, ?_, hfc.symm⟩
      rw [List.head?_eq_getElem?, lanesOf_getElem?, ← List.head?_eq_getElem?, hm0]
      rfl)
    h.serves.inside
  rw [hbytes, ← hex] at hread
  obtain ⟨κ, d, q, hr, hd⟩ := hread
  refine ⟨_, q, hr, ?_⟩
  -- the values of a channel
  have hV : ∀ (j : Nat) (m : RawDataMeta) (r : ChannelRequest α), b.channels[j]? = some m → getter reqs j = some r →
      laneVals S dec b.byteOrder f b.start
        (jointChunks b.channels ((reqs.map ChannelRequest.taker).map (·.chan)) S.memSize).sum b.firstCount
        skips 0
        (b.length / (jointChunks b.channels ((reqs.map ChannelRequest.taker).map (·.chan)) S.memSize).sum)
        (((lanesOf S.memSize b.channels reqs).take j).map (fun c => c.length * c.size)).sum m.numberOfValues
        (skipFor (reqs.map ChannelRequest.taker) j) =
      (b.offered S.memSize (reqs.map ChannelRequest.taker) j).map
        (fun p => Cell.value dec S.memSize f (b.byteOrder, p)) := by
    intro j m r hm hr
    unfold laneVals DataBlock.offered
    rw [hm, hlay]
    dsimp only
    rw [List.map_flatMap, ← List.range_eq_range', List.flatMap_def, List.flatMap_def]
    congr 1
    apply List.map_congr_left
    intro c _
    rw [hall c]
    split
    · unfold valsAt
      rw [← List.map_drop, List.map_map (l := (List.range m.numberOfValues).drop _)]
      apply List.map_congr_left
      intro s _
      simp only [Function.comp, Cell.value]
      have hb2 := take_sum_map (lanesOf S.memSize b.channels reqs) Lane.bytes j
      rw [hbytes] at hb2
      unfold Lane.bytes at hb2
      rw [hb2]
    · rfl
  obtain ⟨o1, o2⟩ := outputs_lanes hs S.memSize (· * ·) _ κ _ hV
  refine ⟨?_, o1, o2⟩
  -- the count
  have h0 : lastDone 0 (lanesOf S.memSize b.channels reqs) = 0 := by
    rw [lastDone_eq _ (fun j => ((reqs.map ChannelRequest.taker).map (·.chan)).contains j) (fun _ => 0)]
    · split <;> rfl
    · intro j c hc
      rw [lanesOf_getElem?] at hc
      obtain ⟨m, _, rfl⟩ := Option.map_eq_some_iff.mp hc
      unfold laneAt
      dsimp only
      rw [Option.isSome_map, getter_isSome]
      refine ⟨rfl, ?_⟩
      intro x hx
      obtain ⟨r, _, rfl⟩ := Option.map_eq_some_iff.mp hx
      rfl
  rw [h0, Nat.zero_add] at hd
  show d = _
  rw [← hd]
  unfold DataBlock.counted
  rw [hlay]
  dsimp only
  rw [lastDone_eq _ (fun j => ((reqs.map ChannelRequest.taker).map (·.chan)).contains j)
    (fun i => min (b.offered S.memSize (reqs.map ChannelRequest.taker) i).length
      (roomFor (reqs.map ChannelRequest.taker) i))]
  · have hlen : (feedL (· * ·) (laneVals S dec b.byteOrder f b.start
        (jointChunks b.channels ((reqs.map ChannelRequest.taker).map (·.chan)) S.memSize).sum b.firstCount skips 0
        (b.length / (jointChunks b.channels ((reqs.map ChannelRequest.taker).map (·.chan)) S.memSize).sum)) 0
          (lanesOf S.memSize b.channels reqs)).length = b.channels.length := by
      have := congrArg List.length (feedL_map (· * ·) (laneVals S dec b.byteOrder f b.start
        (jointChunks b.channels ((reqs.map ChannelRequest.taker).map (·.chan)) S.memSize).sum b.firstCount skips 0
        (b.length / (jointChunks b.channels ((reqs.map ChannelRequest.taker).map (·.chan)) S.memSize).sum)) (fun _ => ())
          (fun _ _ _ _ => rfl) (lanesOf S.memSize b.channels reqs) 0)
      simp only [List.length_map] at this
      rw [this]
      simp [lanesOf]
    rw [hlen]
    rfl
  · intro j c hc
    rw [feedL_getElem?, lanesOf_getElem?] at hc
    obtain ⟨c0, hc0, rfl⟩ := Option.map_eq_some_iff.mp hc
    obtain ⟨m, hm, rfl⟩ := Option.map_eq_some_iff.mp hc0
    constructor
    · unfold laneAt
      simp only [Option.isSome_map, getter_isSome]
    · intro x hx
      unfold laneAt at hx
      simp only [Option.map_map, Option.map_eq_some_iff] at hx
      obtain ⟨r, hr, rfl⟩ := hx
      simp only [Function.comp, Nat.zero_add]
      have := hV j m r hm hr
      unfold OutIter.feed
      simp only [List.nil_append, List.length_take]
      show min r.output.length (laneVals _ _ _ _ _ _ _ _ _ _ (((lanesOf S.memSize b.channels reqs).take j).map (fun c => c.length * c.size)).sum m.numberOfValues
        (skipFor (reqs.map ChannelRequest.taker) j)).length = _
      rw [this, List.length_map, roomFor_getter, hr, Nat.min_comm]
      rfl

theorem firstRow_le (b : DataBlock) (ts : List Taker) (j : Nat) (hj : j < b.channels.length)
    (hc : (ts.map (·.chan)).contains j = true) : b.firstRow ts ≤ skipFor ts j := by
  have hmem : skipFor ts j ∈ (b.readChans ts).map (skipFor ts) := by
    refine List.mem_map_of_mem ?_
    unfold DataBlock.readChans
    rw [List.mem_filter]
    exact ⟨List.mem_range.mpr hj, hc⟩
  unfold DataBlock.firstRow
  cases hm : ((b.readChans ts).map (skipFor ts)).min? with
  | none => exact Nat.zero_le _
  | some m => exact (List.min?_eq_some_iff.mp hm).2 _ hmem

/-- whether something of a row is stored -/
theorem storesRow_lanes (S : Storage α) (dec : Endian → Bytes → α) (f : Bytes) (b : DataBlock)
    (reqs : List (ChannelRequest α)) (ts : List Taker)
    (hts : reqs.map ChannelRequest.taker = ts) (rs j : Nat) :
    storesRow id (b.firstRow ts + j)
      (feedL (fun _ s => s) (fun o _ k => rowValsL S dec b.byteOrder f b.start rs id (b.firstRow ts) j o k) 0
        (lanesOf S.memSize b.channels reqs)) =
      (b.readChans ts).any (fun i => decide (skipFor ts i ≤ b.firstRow ts + j ∧
        b.firstRow ts + j < skipFor ts i + roomFor ts i)) := by
  unfold storesRow
  rw [Bool.eq_iff_iff, List.any_eq_true, List.any_eq_true]
  have hval : ∀ (i : Nat) (m : RawDataMeta) (r : ChannelRequest α), b.channels[i]? = some m → getter reqs i = some r →
      ∀ o, (rowValsL S dec b.byteOrder f b.start rs id
        (b.firstRow ts) j o (skipFor ts i)).length = b.firstRow ts + j - skipFor ts i := by
    intro i m r hm hg o
    have hc : (ts.map (·.chan)).contains i = true := by
      rw [← hts, ← getter_isSome, hg]; rfl
    unfold rowValsL
    simp only [id]
    rw [rows_from _ _ _ (firstRow_le b ts i (List.getElem?_eq_some_iff.mp hm).1 hc)]
    simp
  constructor
  · rintro ⟨c, hc, hx⟩
    obtain ⟨i, hi⟩ := List.mem_iff_getElem?.mp hc
    rw [feedL_getElem?, lanesOf_getElem?] at hi
    obtain ⟨c0, hc0, rfl⟩ := Option.map_eq_some_iff.mp hi
    obtain ⟨m, hm, rfl⟩ := Option.map_eq_some_iff.mp hc0
    unfold laneAt at hx
    simp only [Option.map_map] at hx
    cases hg : getter reqs i with
    | none => rw [hg] at hx; cases hx
    | some r =>
      rw [hg] at hx
      simp only [Option.map_some, Function.comp, Bool.and_eq_true, decide_eq_true_eq, Bool.not_eq_true', hts] at hx
      obtain ⟨h1, h2⟩ := hx
      refine ⟨i, ?_, ?_⟩
      · unfold DataBlock.readChans
        rw [List.mem_filter]
        refine ⟨List.mem_range.mpr (List.getElem?_eq_some_iff.mp hm).1, ?_⟩
        rw [← hts, ← getter_isSome, hg]; rfl
      · rw [decide_eq_true_eq]
        refine ⟨h1, ?_⟩
        unfold OutIter.feed at h2
        simp only [Nat.zero_add] at h2
        rw [List.isEmpty_eq_false_iff_exists_mem] at h2
        obtain ⟨v, hv⟩ := h2
        have := List.length_pos_of_mem hv
        rw [List.length_drop, hval i m r hm hg] at this
        rw [← hts, roomFor_getter, hts, hg]
        simp only [Option.map_some, Option.getD_some]
        simp only [id] at h1
        omega
  · rintro ⟨i, hi, hx⟩
    rw [decide_eq_true_eq] at hx
    unfold DataBlock.readChans at hi
    rw [List.mem_filter] at hi
    obtain ⟨hi1, hi2⟩ := hi
    have hlt := List.mem_range.mp hi1
    rw [← hts, ← getter_isSome] at hi2
    obtain ⟨r, hg⟩ := Option.isSome_iff_exists.mp hi2
    have hm : b.channels[i]? = some b.channels[i] := List.getElem?_eq_getElem hlt
    have hget := feedL_getElem? (fun _ s => s) (fun o _ k => rowValsL S dec b.byteOrder f b.start
      rs id (b.firstRow ts) j o k)
      (lanesOf S.memSize b.channels reqs) 0 i
    rw [lanesOf_getElem?, hm, Option.map_some, Option.map_some] at hget
    refine ⟨_, List.mem_iff_getElem?.mpr ⟨i, hget⟩, ?_⟩
    unfold laneAt
    simp only [hg, Option.map_some, Bool.and_eq_true, decide_eq_true_eq, Bool.not_eq_true', hts]
    refine ⟨hx.1, ?_⟩
    unfold OutIter.feed
    simp only [Nat.zero_add]
    rw [← hts, roomFor_getter, hts, hg] at hx
    simp only [Option.map_some, Option.getD_some] at hx
    rw [List.isEmpty_eq_false_iff, ← List.length_pos_iff, List.length_drop, hval i _ r hm hg]
    omega

/-- the values of the rows for a channel -/
theorem rowVals_offered (S : Storage α) (dec : Endian → Bytes → α) (f : Bytes) (b : DataBlock)
    (reqs : List (ChannelRequest α)) (ts : List Taker)
    (hts : reqs.map ChannelRequest.taker = ts) (hlay : b.layout = .interleaved)
    (j : Nat) (m : RawDataMeta) (r : ChannelRequest α) (hm : b.channels[j]? = some m) (hg : getter reqs j = some r) :
    rowValsL S dec b.byteOrder f b.start (jointWidths b.channels (ts.map (·.chan)) S.memSize).sum id (b.firstRow ts)
      (b.rowsRead S.memSize ts)
      (((lanesOf S.memSize b.channels reqs).take j).map (fun c => c.size)).sum (skipFor ts j) =
    (b.offered S.memSize ts j).map (fun p => Cell.value dec S.memSize f (b.byteOrder, p)) := by
  have hbytes := lanesOf_widths S.memSize b.channels reqs
  rw [hts] at hbytes
  have hc : (ts.map (·.chan)).contains j = true := by
    rw [← hts, ← getter_isSome, hg]; rfl
  unfold rowValsL DataBlock.offered
  rw [hm, hlay]
  dsimp only
  simp only [id]
  rw [rows_from _ _ _ (firstRow_le b ts j (List.getElem?_eq_some_iff.mp hm).1 hc), List.map_map]
  apply List.map_congr_left
  intro q _
  have hb2 := take_sum_map (lanesOf S.memSize b.channels reqs) Lane.size j
  rw [hbytes] at hb2
  simp only [Function.comp, Cell.value]
  rw [← hb2]

theorem DataBlock.ServesAll.readInter (hS : S.Reads dec) {f : Bytes} {b : DataBlock}
    {reqs : List (ChannelRequest α)} (h : b.ServesAll S f reqs) (hs : reqs.Pairwise (fun a b => a.slot ≠ b.slot))
    (hlay : b.layout = .interleaved) :
    ∃ res q, interRead S b.byteOrder b.start b.length
        ((lanesOf S.memSize b.channels reqs).map (Lane.entry id)) f 0 = .ok (res, q) ∧
      JointResult S.memSize dec f b reqs res := by
  obtain ⟨hw1, hw2⟩ := h.serves.interleaved hlay
  have hbytes := lanesOf_widths S.memSize b.channels reqs
  have hfirst : (skipsOf (lanesOf S.memSize b.channels reqs)).min?.getD 0 =
      b.firstRow (reqs.map ChannelRequest.taker) := by
    rw [skipsOf_lanesOf]; rfl
  have hread := interRead_lanes hS b.byteOrder f h.fileSize b.start b.length 0
    (lanesOf S.memSize b.channels reqs) (lanesOf_sized b.channels reqs)
    (by rw [hbytes]; exact hw1) h.serves.inside (by rw [hbytes, hfirst]; exact hw2)
  rw [hbytes, hfirst] at hread
  obtain ⟨κ, q, T, hr, hT, hst1, hst2⟩ := hread
  have hTeq : b.rowsRead S.memSize (reqs.map ChannelRequest.taker) = T := by
    unfold DataBlock.rowsRead
    dsimp only
    refine takeWhile_length _ _ _ T hT ?_ ?_
    · intro j hj
      rw [← storesRow_lanes S dec f b reqs _ rfl]
      exact hst1 j hj
    · intro hlt
      rw [← storesRow_lanes S dec f b reqs _ rfl]
      exact hst2 hlt
  rw [← hTeq] at hr
  clear hst1 hst2 hT hw1 hw2
  obtain ⟨o1, o2⟩ := outputs_lanes (channels := b.channels) hs S.memSize (fun _ s => s)
    (fun o _ k => rowValsL S dec b.byteOrder f b.start (jointWidths b.channels ((reqs.map ChannelRequest.taker).map (·.chan)) S.memSize).sum id
      (b.firstRow (reqs.map ChannelRequest.taker)) (b.rowsRead S.memSize (reqs.map ChannelRequest.taker)) o k) κ
    (fun j => (b.offered S.memSize (reqs.map ChannelRequest.taker) j).map
      (fun p => Cell.value dec S.memSize f (b.byteOrder, p)))
    (by intro j m r hm hg; exact rowVals_offered S dec f b reqs (reqs.map ChannelRequest.taker) rfl hlay j m r hm hg)
  have hnum : b.rowsRead S.memSize (reqs.map ChannelRequest.taker) =
      b.counted S.memSize (reqs.map ChannelRequest.taker) := by
    unfold DataBlock.counted
    rw [hlay]
  exact ⟨_, q, hr, JointResult.mk hnum o1 o2⟩

/-- Reading one block for all requests. -/
theorem DataBlock.ServesAll.read (hS : S.Reads dec) (hmem : S.memSize < 2 ^ 63) {f : Bytes} {b : DataBlock}
    {reqs : List (ChannelRequest α)} (h : b.ServesAll S f reqs) (hs : reqs.Pairwise (fun a b => a.slot ≠ b.slot)) :
    (∃ res, b.readWithSkip S f reqs = .ok res ∧ JointResult S.memSize dec f b reqs res) ∧
    ((∀ r ∈ reqs, r.skip = 0) →
      ∃ res, DataBlock.read S f b reqs = .ok res ∧ JointResult S.memSize dec f b reqs res) := by
  have hplan := buildRecordPlan_lanes (S := S) b.channels reqs h.typed S.memSize
  obtain ⟨extra, hex⟩ := skips_split S.memSize b.channels reqs
  have hset : setSkips (reqs.map (·.skip)) ((lanesOf S.memSize b.channels reqs).map (Lane.entry (fun _ => 0))) =
      (lanesOf S.memSize b.channels reqs).map (Lane.entry id) := by
    have := setSkips_lanes id (fun _ => 0) extra (lanesOf S.memSize b.channels reqs)
    rw [List.map_id, ← hex] at this
    exact this
  cases hlay : b.layout with
  | contigious =>
    constructor
    · obtain ⟨res, q, h1, h2⟩ := h.readContig hS hmem hs hlay (reqs.map (·.skip)) extra hex (by
        intro c
        rw [List.all_map, List.all_map]; rfl)
      refine ⟨_, ?_, h2⟩
      unfold DataBlock.readWithSkip
      rw [hplan, hlay]
      show (contigReadSkip S b.byteOrder b.start b.length _ (reqs.map (·.skip)) f 0 >>= fun r => pure r.1) = _
      rw [h1]
      rfl
    · intro h0
      obtain ⟨m0, hm0, hm0p⟩ := firstCount_head (h.serves.contiguous hlay).1
      have hzero : skipsOf (lanesOf S.memSize b.channels reqs) =
          List.replicate (skipsOf (lanesOf S.memSize b.channels reqs)).length 0 := by
        rw [List.eq_replicate_iff]
        refine ⟨rfl, ?_⟩
        intro x hx
        have : x ∈ reqs.map (·.skip) := by rw [hex]; exact List.mem_append_left _ hx
        obtain ⟨r, hr, rfl⟩ := List.mem_map.mp this
        exact h0 r hr
      obtain ⟨res, q, h1, h2⟩ := h.readContig hS hmem hs hlay (skipsOf (lanesOf S.memSize b.channels reqs)) []
        (by rw [List.append_nil]) (by
          intro c
          rw [hzero, List.all_map]
          rw [Bool.eq_iff_iff, List.all_eq_true, List.all_eq_true]
          constructor
          · intro _ r hr
            simp only [Function.comp, ChannelRequest.taker, h0 r hr, Nat.zero_div, Nat.zero_le, decide_true]
          · intro _ x hx
            rw [List.eq_of_mem_replicate hx, Nat.zero_div]
            simp)
      refine ⟨res, ?_, h2⟩
      unfold DataBlock.read
      rw [hplan, hlay]
      show (contigReadFrom S b.byteOrder b.start b.length _ 0 f 0 >>= fun r => pure r.1) = _
      rw [contigReadFrom_zero b.byteOrder f b.start b.length m0.numberOfValues 0 _ hm0p (by
        apply firstLength_lanes
        refine ⟨laneAt S.memSize reqs 0 m0, ?_, rfl⟩
        rw [List.head?_eq_getElem?, lanesOf_getElem?, ← List.head?_eq_getElem?, hm0]
        rfl), blockSkips_lanes, List.length_map, ← hzero, h1]
      rfl
  | interleaved =>
    obtain ⟨res, q, h1, h2⟩ := h.readInter hS hs hlay
    constructor
    · refine ⟨res, ?_, h2⟩
      unfold DataBlock.readWithSkip
      rw [hplan, hlay]
      show (interRead S b.byteOrder b.start b.length (setSkips (reqs.map (·.skip)) _) f 0 >>= fun r => pure r.1) = _
      rw [hset, h1]
      rfl
    · intro h0
      refine ⟨res, ?_, h2⟩
      unfold DataBlock.read
      rw [hplan, hlay]
      show (interRead S b.byteOrder b.start b.length _ f 0 >>= fun r => pure r.1) = _
      have : (lanesOf S.memSize b.channels reqs).map (Lane.entry (fun _ => 0)) =
          (lanesOf S.memSize b.channels reqs).map (Lane.entry id) := by
        apply List.map_congr_left
        intro c hc
        obtain ⟨j, hj⟩ := List.mem_iff_getElem?.mp hc
        rw [lanesOf_getElem?] at hj
        obtain ⟨m, _, rfl⟩ := Option.map_eq_some_iff.mp hj
        have hz : skipFor (reqs.map ChannelRequest.taker) j = 0 := by
          unfold skipFor
          cases hk : (reqs.map ChannelRequest.taker)[(List.range j).countP
              (fun j => ((reqs.map ChannelRequest.taker).map (·.chan)).contains j)]? with
          | none => rfl
          | some t =>
            obtain ⟨r, hr, rfl⟩ := List.mem_map.mp (List.mem_of_getElem? hk)
            exact h0 r hr
        unfold Lane.entry laneAt
        simp only [hz]
        rfl
      rw [this, h1]
      rfl

end
end Tedium
