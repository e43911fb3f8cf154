import Verif.Proofs.Jointly
import Verif.Proofs.DeliveredFile

/-! # What a read of several channels of a file stores -/

namespace Tedium
open PlanSpec SegSpec

section
variable {α : Type} {S : Storage α} {dec : Endian → Bytes → α}

/-! ## Plans and requests -/

theorem visit_wanted {segs : List Segment} {B : Nat} {pre : List Segment} (hB : (dataPrefixes segs)[B]? = some pre)
    (start : Nat) (p : Text) : visit start B (locations segs p) =
      if wanted pre start p then some ⟨((active pre).idxOf? p).getD 0, start - sampleCount pre.dropLast p⟩ else none := by
  cases hv : visit start B (locations segs p) with
  | none =>
    rw [if_neg]
    intro hw
    obtain ⟨h1, h2⟩ := of_decide_eq_true hw
    obtain ⟨pl, hpl⟩ := visit_of_segs hB h1 h2
    rw [hv] at hpl
    cases hpl
  | some pl =>
    obtain ⟨pre', l, hpre, _, _, _, hidx, _, _, _, hsk, hpos, _, hst⟩ := visit_segs hv
    rw [hB] at hpre
    cases hpre
    rw [if_pos (show wanted pre start p = true from decide_eq_true ⟨hpos, hst⟩), hidx]
    obtain ⟨a, c⟩ := pl
    dsimp only at hsk
    rw [hsk]
    rfl

/-- the request of a buffer that takes part -/
def requestFor (p : Progress α) (slot : Nat) (t : Taker) : ChannelRequest α where
  channelIndex := t.chan
  slot := slot
  output := p.output.drop p.samplesRead
  skip := t.skip

/-- the part of a buffer -/
def partOf (pre : List Segment) (start : Nat) (x : Text × Progress α) : Option Taker :=
  takerOf pre start ((x.1, x.2.output.length), x.2.samplesRead)

/-- the requests of the buffers -/
def requestsOf (τ : Text × Progress α → Option Taker) (i : Nat) (st : List (Text × Progress α)) :
    List (ChannelRequest α) :=
  (st.zipIdx i).filterMap fun y => (τ y.1).map (requestFor y.1.2 y.2)

theorem requestsOf_cons (τ : Text × Progress α → Option Taker) (i : Nat) (x : Text × Progress α)
    (st : List (Text × Progress α)) :
    requestsOf τ i (x :: st) = ((τ x).map (requestFor x.2 i)).toList ++ requestsOf τ (i + 1) st := by
  unfold requestsOf
  rw [List.zipIdx_cons, List.filterMap_cons]
  cases τ x <;> rfl

theorem blockRequests_wanted {segs : List Segment} {B : Nat} {pre : List Segment}
    (hB : (dataPrefixes segs)[B]? = some pre) (start : Nat) (st : List (Text × Progress α)) : ∀ i,
    blockRequests i (st.map fun x => visit start B (locations segs x.1)) (st.map (·.2)) =
      requestsOf (partOf pre start) i st := by
  induction st with
  | nil => intro i; rfl
  | cons x xs ih =>
    intro i
    rw [List.map_cons, List.map_cons, requestsOf_cons, visit_wanted hB]
    unfold partOf takerOf
    cases hw : wanted pre start x.1 with
    | false => exact ih (i + 1)
    | true =>
      rw [if_pos rfl]
      unfold blockRequests Progress.isComplete
      by_cases hc : x.2.samplesRead < x.2.output.length
      · rw [if_neg (by simpa using hc), if_pos (by simpa using hc), ih]
        rfl
      · rw [if_pos (by simpa using hc), if_neg (by simpa using hc), ih]
        rfl

theorem takers_requestsOf {τ : Text × Progress α → Option Taker}
    (hτ : ∀ x t, τ x = some t → t.room = x.2.output.length - x.2.samplesRead) (st : List (Text × Progress α)) : ∀ i,
    (requestsOf τ i st).map ChannelRequest.taker = (st.map τ).filterMap id := by
  induction st with
  | nil => intro i; rfl
  | cons x xs ih =>
    intro i
    rw [requestsOf_cons, List.map_append, ih, List.map_cons, List.filterMap_cons]
    cases hx : τ x with
    | none => rfl
    | some t =>
      show ChannelRequest.taker (requestFor x.2 i t) :: _ = t :: _
      congr 1
      have := hτ x t hx
      obtain ⟨a, b, c⟩ := t
      unfold ChannelRequest.taker requestFor
      rw [List.length_drop, ← this]

theorem requestsOf_slots (τ : Text × Progress α → Option Taker) (st : List (Text × Progress α)) : ∀ i,
    (∀ r ∈ requestsOf τ i st, i ≤ r.slot) ∧ (requestsOf τ i st).Pairwise (fun a b => a.slot ≠ b.slot) := by
  induction st with
  | nil => intro i; exact ⟨fun r hr => (by cases hr), List.Pairwise.nil⟩
  | cons x xs ih =>
    intro i
    obtain ⟨h1, h2⟩ := ih (i + 1)
    rw [requestsOf_cons]
    cases hx : τ x with
    | none => exact ⟨fun r hr => by have := h1 r hr; omega, h2⟩
    | some t =>
      constructor
      · intro r hr
        rcases List.mem_cons.mp hr with rfl | hr
        · exact Nat.le_refl _
        · have := h1 r hr; omega
      · refine List.Pairwise.cons ?_ h2
        intro r hr
        have := h1 r hr
        show i ≠ r.slot
        omega

theorem getter_cons (r : ChannelRequest α) (rs : List (ChannelRequest α)) (j : Nat) :
    getter (r :: rs) j = (getter rs j).or (if r.channelIndex == j then some r else none) := by
  unfold getter
  rw [List.reverse_cons, List.find?_append]
  congr 1
  rw [List.find?_cons]
  cases h : (r.channelIndex == j) <;> rfl

theorem getter_none_iff (τ : Text × Progress α → Option Taker) (st : List (Text × Progress α)) (j : Nat) : ∀ i,
    getter (requestsOf τ i st) j = none ↔ ∀ x ∈ st, (τ x).map (·.chan) ≠ some j := by
  induction st with
  | nil => intro i; exact ⟨fun _ x hx => (by cases hx), fun _ => rfl⟩
  | cons x xs ih =>
    intro i
    rw [requestsOf_cons, List.forall_mem_cons]
    cases hx : τ x with
    | none =>
      show getter (requestsOf τ (i + 1) xs) j = none ↔ _
      rw [ih]; simp
    | some t =>
      show getter (requestFor x.2 i t :: requestsOf τ (i + 1) xs) j = none ↔ _
      rw [getter_cons, Option.or_eq_none_iff, ih]
      show _ ∧ (if t.chan == j then _ else none) = none ↔ _
      by_cases hj : t.chan = j <;> simp [hj]

theorem getter_last (τ : Text × Progress α → Option Taker) (st : List (Text × Progress α)) :
    ∀ (i k : Nat) (x : Text × Progress α) (t : Taker), st[k]? = some x → τ x = some t →
      (∀ y ∈ st.drop (k + 1), (τ y).map (·.chan) ≠ some t.chan) →
      getter (requestsOf τ i st) t.chan = some (requestFor x.2 (i + k) t) := by
  induction st with
  | nil => intro i k x t h; cases h
  | cons y ys ih =>
    intro i k x t hk ht hl
    rw [requestsOf_cons]
    cases k with
    | zero =>
      cases hk
      rw [ht]
      show getter (requestFor y.2 i t :: requestsOf τ (i + 1) ys) t.chan = _
      rw [getter_cons, (getter_none_iff τ ys t.chan (i + 1)).mpr hl]
      show (if t.chan == t.chan then _ else none) = _
      simp
    | succ k =>
      have := ih (i + 1) k x t hk ht hl
      rw [show i + 1 + k = i + (k + 1) by omega] at this
      cases hy : τ y with
      | none => exact this
      | some t' =>
        show getter (requestFor y.2 i t' :: requestsOf τ (i + 1) ys) t.chan = _
        rw [getter_cons, this]
        rfl

/-- the getter of a channel is the last buffer that takes it -/
theorem getter_slot (τ : Text × Progress α → Option Taker) (st : List (Text × Progress α)) (j : Nat) :
    ∀ (i : Nat) (r : ChannelRequest α), getter (requestsOf τ i st) j = some r →
      ∃ k x t, st[k]? = some x ∧ τ x = some t ∧ t.chan = j ∧ r.slot = i + k ∧
        ∀ y ∈ st.drop (k + 1), (τ y).map (·.chan) ≠ some j := by
  induction st with
  | nil => intro i r h; cases h
  | cons x xs ih =>
    intro i r h
    rw [requestsOf_cons] at h
    have up : getter (requestsOf τ (i + 1) xs) j = some r → ∃ k y t, (x :: xs)[k]? = some y ∧ τ y = some t ∧
        t.chan = j ∧ r.slot = i + k ∧ ∀ y ∈ (x :: xs).drop (k + 1), (τ y).map (·.chan) ≠ some j := by
      intro h
      obtain ⟨k, y, t, h1, h2, h3, h4, h5⟩ := ih (i + 1) r h
      exact ⟨k + 1, y, t, h1, h2, h3, by omega, h5⟩
    cases hx : τ x with
    | none => rw [hx] at h; exact up h
    | some t =>
      rw [hx] at h
      replace h : getter (requestFor x.2 i t :: requestsOf τ (i + 1) xs) j = some r := h
      rw [getter_cons] at h
      cases hg : getter (requestsOf τ (i + 1) xs) j with
      | some r' => rw [hg] at h; cases h; exact up hg
      | none =>
        rw [hg] at h
        replace h : (if t.chan == j then some (requestFor x.2 i t) else none) = some r := h
        by_cases hj : t.chan = j
        · rw [if_pos (by simpa using hj)] at h
          cases h
          exact ⟨0, x, t, rfl, hx, hj, rfl, (getter_none_iff τ xs j (i + 1)).mp hg⟩
        · rw [if_neg (by simpa using hj)] at h
          cases h

/-! ## Storing -/

theorem length_storeAll (value : Cell → α) (as : List (Nat × Cell)) : ∀ out : List α,
    (storeAll value out as).length = out.length := by
  induction as with
  | nil => intro out; rfl
  | cons a as ih =>
    intro out
    show (storeAll value (out.set a.1 (value a.2)) as).length = _
    rw [ih, List.length_set]

theorem storeAll_append (value : Cell → α) (out : List α) (as bs : List (Nat × Cell)) :
    storeAll value out (as ++ bs) = storeAll value (storeAll value out as) bs := by
  unfold storeAll
  rw [List.foldl_append]

theorem overlay_cons_cons (o : α) (os : List α) (x : α) (xs : List α) :
    overlay (o :: os) (x :: xs) = x :: overlay os xs := by
  unfold overlay
  simp

theorem overlay_nil_left (xs : List α) : overlay [] xs = [] := by
  unfold overlay
  simp

/-- storing values in consecutive cells -/
theorem storeAll_run (value : Cell → α) (e : Endian) (ps : List Nat) : ∀ (p : Nat) (out : List α),
    storeAll value out ((ps.take (out.length - p)).mapIdx fun k q => (p + k, e, q)) =
      out.take p ++ overlay (out.drop p) (ps.map fun q => value (e, q)) := by
  induction ps with
  | nil =>
    intro p out
    show storeAll value out (([].take _).mapIdx _) = _
    rw [List.take_nil, List.map_nil, overlay_nil, List.take_append_drop]
    rfl
  | cons q qs ih =>
    intro p out
    by_cases hp : p < out.length
    · obtain ⟨n, hn⟩ : ∃ n, out.length - p = n + 1 := ⟨out.length - p - 1, by omega⟩
      rw [hn, List.take_succ_cons, List.mapIdx_cons, List.map_cons]
      show storeAll value (out.set (p + 0) (value (e, q))) _ = _
      have hlen : (out.set p (value (e, q))).length = out.length := List.length_set
      have := ih (p + 1) (out.set p (value (e, q)))
      rw [hlen, show out.length - (p + 1) = n by omega] at this
      rw [show (fun (k q : Nat) => (p + (k + 1), e, q)) = fun k q => (p + 1 + k, e, q) by
        funext k q; congr 1; omega]
      rw [Nat.add_zero, this]
      rw [List.drop_eq_getElem_cons hp, overlay_cons_cons]
      rw [List.drop_set_of_lt (by omega), List.take_add_one, List.getElem?_set_self hp,
        List.take_set_of_le (by omega)]
      simp
    · rw [show out.length - p = 0 by omega, List.take_zero, List.drop_of_length_le (by omega), List.take_of_length_le (by omega)]
      show out = out ++ overlay [] _
      rw [overlay_nil_left]
      simp

theorem zipWith_storeAll (value : Cell → α) : ∀ (outs : List (List α)) (as bs : List (List (Nat × Cell))),
    List.zipWith (storeAll value) (List.zipWith (storeAll value) outs as) bs =
      List.zipWith (storeAll value) outs (List.zipWith (· ++ ·) as bs)
  | [], _, _ => by simp
  | _ :: _, [], _ => by simp
  | _ :: _, _ :: _, [] => by simp
  | o :: os, a :: as, b :: bs => by
    simp only [List.zipWith_cons_cons, zipWith_storeAll value os as bs, storeAll_append]

/-! ## A block -/

/-- the file's value in a cell -/
abbrev fileValue (S : Storage α) (dec : Endian → Bytes → α) (f : Bytes) (c : Cell) : α :=
  Cell.value dec S.memSize f c

/-- the state after a block -/
def afterBlock (value : Cell → α) (w : Nat) (pre : List Segment) (b : DataBlock) (start : Nat)
    (st : List (Text × Progress α)) : List (Text × Progress α) :=
  st.mapIdx fun i x => (x.1,
    { output := storeAll value x.2.output (storedIn b w (st.map (partOf pre start)) (st.map (·.2.samplesRead)) i)
      samplesRead := if wanted pre start x.1 then x.2.samplesRead + b.counted w ((st.map (partOf pre start)).filterMap id)
        else x.2.samplesRead })

theorem partOf_room {pre : List Segment} {start : Nat} {x : Text × Progress α} {t : Taker}
    (h : partOf pre start x = some t) : t.room = x.2.output.length - x.2.samplesRead := by
  unfold partOf takerOf at h
  dsimp only at h
  split at h
  · cases h; rfl
  · cases h

theorem partOf_skip {pre : List Segment} {start : Nat} {x : Text × Progress α} {t : Taker}
    (h : partOf pre start x = some t) : t.skip = start - sampleCount pre.dropLast x.1 := by
  unfold partOf takerOf at h
  dsimp only at h
  split at h
  · cases h; rfl
  · cases h

theorem partOf_wanted {pre : List Segment} {start : Nat} {x : Text × Progress α} {t : Taker}
    (h : partOf pre start x = some t) : wanted pre start x.1 = true := by
  unfold partOf takerOf at h
  dsimp only at h
  split at h
  · rename_i hc; exact (Bool.and_eq_true_iff.mp hc).1
  · cases h

/-- samples are to be skipped for a buffer -/
def anySkips (pre : List Segment) (start : Nat) (st : List (Text × Progress α)) : Bool :=
  st.any fun x => wanted pre start x.1 && decide (sampleCount pre.dropLast x.1 < start)

/-- the read of a block -/
theorem executeBlock_read {segs : List Segment} {t : TdmsFile} {B : Nat} {pre : List Segment}
    (hB : (dataPrefixes segs)[B]? = some pre) {b : DataBlock} (hb : t.index.getDataBlock B = some b) (start : Nat)
    (st : List (Text × Progress α)) :
    executeBlock S t ⟨B, st.map fun x => visit start B (locations segs x.1)⟩ (st.map (·.2)) =
      match (if anySkips pre start st then b.readWithSkip S t.bytes (requestsOf (partOf pre start) 0 st)
        else DataBlock.read S t.bytes b (requestsOf (partOf pre start) 0 st)) with
      | .error e => .error e
      | .ok (n, plan) => .ok (addSamples n (st.map fun x => visit start B (locations segs x.1))
          (storeOutputs (planOutputs plan) 0 (st.map (·.2)))) := by
  unfold executeBlock
  dsimp only
  rw [hb]
  dsimp only
  rw [blockRequests_wanted hB]
  generalize hg : List.any _ _ = c
  have : c = anySkips pre start st := by
    rw [← hg]
    unfold anySkips
    rw [List.any_map]
    congr 1
    funext x
    show (match visit start B (locations segs x.1) with | some p => decide (p.samplesToSkip > 0) | none => false) = _
    rw [visit_wanted hB]
    cases wanted pre start x.1 with
    | false => rfl
    | true =>
      show decide (start - sampleCount pre.dropLast x.1 > 0) = (true && _)
      rw [Bool.true_and]
      exact decide_eq_decide.mpr (by omega)
  rw [this]
  generalize (if anySkips pre start st = true then b.readWithSkip S t.bytes (requestsOf (partOf pre start) 0 st)
    else DataBlock.read S t.bytes b (requestsOf (partOf pre start) 0 st)) = r
  cases r with
  | error e => rfl
  | ok r => rfl

/-- what a block that has been read leaves -/
theorem executeBlock_result {segs : List Segment} {t : TdmsFile} {B : Nat} {pre : List Segment}
    (hB : (dataPrefixes segs)[B]? = some pre) {b : DataBlock} (hb : t.index.getDataBlock B = some b) (start : Nat)
    (st : List (Text × Progress α)) (hin : ∀ x ∈ st, ∀ u, partOf pre start x = some u → u.chan < b.channels.length)
    {res : Nat × List (RecordEntry α)}
    (hres : (if anySkips pre start st then b.readWithSkip S t.bytes (requestsOf (partOf pre start) 0 st)
        else DataBlock.read S t.bytes b (requestsOf (partOf pre start) 0 st)) = .ok res)
    (hjr : JointResult S.memSize dec t.bytes b (requestsOf (partOf pre start) 0 st) res) :
    executeBlock S t ⟨B, st.map fun x => visit start B (locations segs x.1)⟩ (st.map (·.2)) =
      .ok ((afterBlock (Cell.value dec S.memSize t.bytes) S.memSize pre b start st).map (·.2)) := by
  have htk := takers_requestsOf (τ := partOf pre start) (fun x t h => partOf_room h) st 0
  rw [executeBlock_read hB hb]
  obtain ⟨n, plan⟩ := res
  rw [hres]
  dsimp only
  congr 1
  rw [storeOutputs_map (planOutputs plan) (·.2) st 0]
  have hv : (st.map fun x => visit start B (locations segs x.1)) =
      ((st.zipIdx 0).map fun y => visit start B (locations segs y.1.1)) := by
    apply List.ext_getElem?
    intro k
    simp only [List.getElem?_map, List.getElem?_zipIdx]
    cases st[k]? <;> rfl
  rw [hv, addSamples_map]
  unfold afterBlock
  apply List.ext_getElem?
  intro k
  simp only [List.getElem?_map, List.getElem?_zipIdx, List.getElem?_mapIdx, Nat.zero_add]
  cases hk : st[k]? with
  | none => rfl
  | some x =>
    simp only [Option.map_some]
    congr 1
    rw [visit_wanted hB]
    have hn : n = b.counted S.memSize ((st.map (partOf pre start)).filterMap id) := by
      rw [← htk]; exact hjr.number
    have hout : (planOutputs plan).lookup k = none ∧
          storedIn b S.memSize (st.map (partOf pre start)) (st.map (·.2.samplesRead)) k = [] ∨
        ∃ tail, (planOutputs plan).lookup k = some tail ∧ x.2.output.take x.2.samplesRead ++ tail =
          storeAll (Cell.value dec S.memSize t.bytes) x.2.output
            (storedIn b S.memSize (st.map (partOf pre start)) (st.map (·.2.samplesRead)) k) := by
      unfold storedIn
      rw [List.getElem?_map, hk, Option.map_some]
      cases hx : partOf pre start x with
      | none =>
        left
        refine ⟨hjr.others k ?_, rfl⟩
        intro j r hr hs
        obtain ⟨k', x', t', h1, h2, _, h4, _⟩ := getter_slot _ st j 0 r hr
        have : k' = k := by omega
        subst this
        rw [hk] at h1; cases h1
        rw [hx] at h2; cases h2
      | some u =>
        dsimp only
        by_cases hl : ((st.map (partOf pre start)).drop (k + 1)).any
            (fun t' => (t'.map (·.chan)) == some u.chan) = true
        · left
          rw [if_pos hl]
          refine ⟨hjr.others k ?_, rfl⟩
          intro j r hr hs
          obtain ⟨k', x', t', h1, h2, h3, h4, h5⟩ := getter_slot _ st j 0 r hr
          have : k' = k := by omega
          subst this
          rw [hk] at h1; cases h1
          rw [hx] at h2; cases h2
          rw [← List.map_drop, List.any_map, List.any_eq_true] at hl
          obtain ⟨y, hy, hyc⟩ := hl
          exact h5 y hy (by rw [← h3]; simpa using hyc)
        · right
          rw [if_neg hl]
          have hget := getter_last (partOf pre start) st 0 k x u hk hx (by
            intro y hy hc
            apply hl
            rw [← List.map_drop, List.any_map, List.any_eq_true]
            exact ⟨y, hy, by simpa using hc⟩)
          rw [Nat.zero_add] at hget
          refine ⟨_, hjr.gets _ _ hget (hin x (List.mem_of_getElem? hk) u hx), ?_⟩
          rw [htk]
          show _ ++ overlay (x.2.output.drop x.2.samplesRead) _ = _
          rw [partOf_room hx, List.getD_eq_getElem?_getD, List.getElem?_map, hk]
          show _ = storeAll _ x.2.output (List.mapIdx (fun k p => (x.2.samplesRead + k, b.byteOrder, p)) _)
          rw [storeAll_run]
    rcases hout with ⟨h1, h2⟩ | ⟨tail, h1, h2⟩
    · rw [h1, h2, ← hn]
      cases wanted pre start x.1 <;> rfl
    · rw [h1, ← h2, ← hn]
      cases wanted pre start x.1 <;> rfl

/-- without skips no request has one -/
theorem unskipped {pre : List Segment} {start : Nat} {st : List (Text × Progress α)} (h : anySkips pre start st = false) :
    ∀ r ∈ requestsOf (partOf pre start) 0 st, r.skip = 0 := by
  intro r hr
  obtain ⟨y, hy, hyr⟩ := List.mem_filterMap.mp hr
  obtain ⟨u, hu, rfl⟩ := Option.map_eq_some_iff.mp hyr
  have hmemst := List.mem_of_getElem? (zipIdx_mem hy).2
  show u.skip = 0
  rw [partOf_skip hu]
  have hw := partOf_wanted hu
  refine Classical.byContradiction fun hne => ?_
  have := List.any_eq_false.mp h _ hmemst
  rw [hw, Bool.true_and, decide_eq_true_eq] at this
  omega

theorem executeBlock_jointly (hS : S.Reads dec) (hmem : S.memSize < 2 ^ 63) {segs : List Segment} {t : TdmsFile}
    (hf : t.bytes.length < 2 ^ 63) {B : Nat} {pre : List Segment} (hB : (dataPrefixes segs)[B]? = some pre)
    {b : DataBlock} (hb : t.index.getDataBlock B = some b) (start : Nat) (st : List (Text × Progress α))
    (hserves : b.ServesTakers S.supported S.memSize t.bytes ((st.map (partOf pre start)).filterMap id)) :
    executeBlock S t ⟨B, st.map fun x => visit start B (locations segs x.1)⟩ (st.map (·.2)) =
      .ok ((afterBlock (Cell.value dec S.memSize t.bytes) S.memSize pre b start st).map (·.2)) := by
  have htk := takers_requestsOf (τ := partOf pre start) (fun x t h => partOf_room h) st 0
  obtain ⟨_, hslots⟩ := requestsOf_slots (partOf pre start) st 0
  have hall : b.ServesAll S t.bytes (requestsOf (partOf pre start) 0 st) := ⟨by rw [htk]; exact hserves, hf⟩
  obtain ⟨h1, h2⟩ := hall.read (dec := dec) hS hmem hslots
  have hin : ∀ x ∈ st, ∀ u, partOf pre start x = some u → u.chan < b.channels.length := by
    intro x hx u hu
    obtain ⟨m, hm, _⟩ := hserves.typed u (List.mem_filterMap.mpr
      ⟨some u, by rw [← hu]; exact List.mem_map_of_mem hx, rfl⟩)
    exact (List.getElem?_eq_some_iff.mp hm).1
  have hread : ∃ res, (if anySkips pre start st then b.readWithSkip S t.bytes (requestsOf (partOf pre start) 0 st)
      else DataBlock.read S t.bytes b (requestsOf (partOf pre start) 0 st)) = .ok res ∧
      JointResult S.memSize dec t.bytes b (requestsOf (partOf pre start) 0 st) res := by
    split
    · exact h1
    · rename_i hany
      exact h2 (unskipped (by simpa using hany))
  obtain ⟨res, hres, hjr⟩ := hread
  exact executeBlock_result hB hb start st hin hres hjr

/-! ## A file -/

theorem afterBlock_bufs (value : Cell → α) (w : Nat) (pre : List Segment) (b : DataBlock) (start : Nat)
    (st : List (Text × Progress α)) :
    (afterBlock value w pre b start st).map (fun x => ((x.1, x.2.output.length) : Buffer)) =
      st.map (fun x => (x.1, x.2.output.length)) := by
  unfold afterBlock
  apply List.ext_getElem?
  intro k
  simp only [List.getElem?_map, List.getElem?_mapIdx, Option.map_map]
  cases st[k]? with
  | none => rfl
  | some x => simp [length_storeAll]

theorem takers_parts (pre : List Segment) (start : Nat) (st : List (Text × Progress α)) :
    takers pre start (st.map fun x => (x.1, x.2.output.length)) (st.map (·.2.samplesRead)) =
      st.map (partOf pre start) := by
  unfold takers
  rw [List.zip_map', List.map_map]
  rfl

theorem afterBlock_prog (value : Cell → α) (w : Nat) (pre : List Segment) (b : DataBlock) (start : Nat)
    (st : List (Text × Progress α)) :
    (afterBlock value w pre b start st).map (·.2.samplesRead) =
      progressed pre start (st.map fun x => (x.1, x.2.output.length)) (st.map (·.2.samplesRead))
        (b.counted w ((st.map (partOf pre start)).filterMap id)) := by
  unfold afterBlock progressed
  rw [List.zip_map', List.map_map]
  apply List.ext_getElem?
  intro k
  simp only [List.getElem?_map, List.getElem?_mapIdx, Option.map_map]
  cases st[k]? <;> rfl

theorem executePlan_jointly (hS : S.Reads dec) (hmem : S.memSize < 2 ^ 63) {segs : List Segment} {t : TdmsFile}
    (h : replay Index.new segs = .ok t.index) (hf : t.bytes.length < 2 ^ 63) (start : Nat) :
    ∀ (d B : Nat) (st : List (Text × Progress α)), B + d = (dataPrefixes segs).length →
      (∀ x ∈ readBlocks S.memSize start (st.map fun x => (x.1, x.2.output.length)) ((dataPrefixes segs).drop B)
        (st.map (·.2.samplesRead)), x.1.ServesTakers S.supported S.memSize t.bytes x.2) →
      ∃ ps, executePlan S t ((List.range' B d).filterMap fun B => visitAll start B (st.map fun x => locations segs x.1))
          (st.map (·.2)) = .ok ps ∧
        ps.map (·.output) = List.zipWith (storeAll (Cell.value dec S.memSize t.bytes)) (st.map (·.2.output))
          (stored S.memSize start (st.map fun x => (x.1, x.2.output.length)) ((dataPrefixes segs).drop B)
            (st.map (·.2.samplesRead))) := by
  have hr := replay_refines h
  intro d
  induction d with
  | zero =>
    intro B st hB hserves
    refine ⟨st.map (·.2), rfl, ?_⟩
    rw [List.drop_of_length_le (by omega)]
    unfold stored
    rw [List.map_map, List.map_map, List.zipWith_map, List.zipWith_self]
    rfl
  | succ d ih =>
    intro B st hB hserves
    have hlt : B < (dataPrefixes segs).length := by omega
    have hpre : (dataPrefixes segs)[B]? = some (dataPrefixes segs)[B] := List.getElem?_eq_getElem hlt
    generalize (dataPrefixes segs)[B] = pre at hpre
    have hdrop : (dataPrefixes segs).drop B = pre :: (dataPrefixes segs).drop (B + 1) := by
      rw [List.drop_eq_getElem_cons hlt]
      congr 1
      exact (List.getElem?_eq_some_iff.mp hpre).2
    obtain ⟨b, hb, hgb⟩ := hr.block hpre
    rw [hdrop] at hserves ⊢
    rw [List.range'_succ, List.filterMap_cons]
    unfold readBlocks at hserves
    unfold stored
    rw [hb] at hserves ⊢
    dsimp only at hserves ⊢
    rw [takers_parts] at hserves ⊢
    have hany : ((st.map fun x => locations segs x.1).map (visit start B)).any Option.isSome =
        (st.map fun x => ((x.1, x.2.output.length) : Buffer)).any (fun x => wanted pre start x.1) := by
      rw [List.map_map, List.any_map, List.any_map]
      congr 1
      funext x
      show (visit start B (locations segs x.1)).isSome = wanted pre start x.1
      rw [visit_wanted hpre]
      cases wanted pre start x.1 <;> rfl
    have hva : visitAll start B (st.map fun x => locations segs x.1) =
        if (st.map fun x => ((x.1, x.2.output.length) : Buffer)).any (fun x => wanted pre start x.1) then
          some ⟨B, st.map fun x => visit start B (locations segs x.1)⟩ else none := by
      unfold visitAll
      rw [hany, List.map_map]
      rfl
    rw [hva]
    cases hw : (st.map fun x => ((x.1, x.2.output.length) : Buffer)).any (fun x => wanted pre start x.1) with
    | false =>
      rw [hw] at hserves
      exact ih (B + 1) st (by omega) hserves
    | true =>
      rw [hw] at hserves
      rw [if_pos rfl, if_pos rfl]
      rw [if_pos rfl] at hserves
      dsimp only
      have hex := executeBlock_jointly (dec := dec) hS hmem hf hpre hgb start st
        (hserves _ List.mem_cons_self)
      unfold executePlan
      rw [hex]
      dsimp only
      have hbufs := afterBlock_bufs (Cell.value dec S.memSize t.bytes) S.memSize pre b start st
      have hprog := afterBlock_prog (Cell.value dec S.memSize t.bytes) S.memSize pre b start st
      have hlocs : st.map (fun x => locations segs x.1) =
          (afterBlock (Cell.value dec S.memSize t.bytes) S.memSize pre b start st).map
            (fun x => locations segs x.1) := by
        have := congrArg (List.map (fun x : Buffer => locations segs x.1)) hbufs
        rw [List.map_map, List.map_map] at this
        exact this.symm
      have hdone : ((afterBlock (Cell.value dec S.memSize t.bytes) S.memSize pre b start st).map (·.2)).all
          Progress.isComplete = ((st.map fun x => ((x.1, x.2.output.length) : Buffer)).zip
            (progressed pre start (st.map fun x => (x.1, x.2.output.length)) (st.map (·.2.samplesRead))
              (b.counted S.memSize ((st.map (partOf pre start)).filterMap id)))).all
            (fun x => decide (x.1.2 ≤ x.2)) := by
        rw [← hprog, ← hbufs, List.zip_map', List.all_map, List.all_map]
        rfl
      have hnow : (afterBlock (Cell.value dec S.memSize t.bytes) S.memSize pre b start st).map (·.2.output) =
          List.zipWith (storeAll (Cell.value dec S.memSize t.bytes)) (st.map (·.2.output))
            ((List.range (st.map fun x => ((x.1, x.2.output.length) : Buffer)).length).map
              (storedIn b S.memSize (st.map (partOf pre start)) (st.map (·.2.samplesRead)))) := by
        unfold afterBlock
        apply List.ext_getElem?
        intro k
        simp only [List.getElem?_map, List.getElem?_mapIdx, List.getElem?_zipWith, List.length_map]
        by_cases hk : k < st.length
        · rw [List.getElem?_range hk, List.getElem?_eq_getElem hk]
          rfl
        · rw [List.getElem?_eq_none (by omega)]
          rfl
      rw [hdone]
      split
      · refine ⟨_, rfl, ?_⟩
        rw [List.map_map]
        exact hnow
      · rename_i hd
        obtain ⟨ps, hps, hout⟩ := ih (B + 1) (afterBlock (Cell.value dec S.memSize t.bytes) S.memSize pre b start st)
          (by omega) (by
            rw [hbufs, hprog]
            intro x hx
            exact hserves x (List.mem_cons_of_mem _ (by rw [if_neg hd]; exact hx)))
        rw [hlocs]
        refine ⟨ps, hps, ?_⟩
        rw [hout, hnow, hbufs, hprog]
        exact zipWith_storeAll _ _ _ _

/-- What `read_channels_from` leaves in the buffers, for every layout of the segments. -/
theorem readChannelsFrom_stored (hS : S.Reads dec) (hmem : S.memSize < 2 ^ 63)
    {segs : List Segment} {t : TdmsFile} (h : replay Index.new segs = .ok t.index)
    (hf : t.bytes.length < 2 ^ 63) (cs : List ChannelPath) (hl : ∀ c ∈ cs, Listed (entries segs) c.path) (start : Nat)
    (outs : List (List α)) (hlen : outs.length = cs.length)
    (hserved : JointlyServed S.supported S.memSize t.bytes segs
      ((cs.map ChannelPath.path).zip (outs.map List.length)) start) :
    t.readChannelsFrom S cs start outs = .ok (List.zipWith (storeAll (Cell.value dec S.memSize t.bytes)) outs
      (storedFrom S.memSize segs ((cs.map ChannelPath.path).zip (outs.map List.length)) start)) := by
  have hr := replay_refines h
  have hlook := lookupPositions_eq (t := t) (cs := cs) (locs := fun c => locations segs c.path)
    (fun c hc => hr.positions (hl c hc))
  have hinc : ∀ ls ∈ cs.map (fun c => locations segs c.path), Increasing ls := by
    intro ls hls
    obtain ⟨c, hc, rfl⟩ := List.mem_map.mp hls
    obtain ⟨o, ho, hlo⟩ := Option.map_eq_some_iff.mp (hr.positions (hl c hc))
    rw [← hlo]; exact hr.inv.incr _ _ ho
  have hlt : ∀ ls ∈ cs.map (fun c => locations segs c.path), ∀ l ∈ ls, l.dataBlock < t.index.dataBlocks.length := by
    intro ls hls
    obtain ⟨c, hc, rfl⟩ := List.mem_map.mp hls
    obtain ⟨o, ho, hlo⟩ := Option.map_eq_some_iff.mp (hr.positions (hl c hc))
    intro l hl
    rw [← hlo] at hl
    obtain ⟨b, _, _, hb, _⟩ := hr.inv.valid _ _ ho l hl
    exact (List.getElem?_eq_some_iff.mp hb).1
  have hcount : t.index.dataBlocks.length = (dataPrefixes segs).length := by
    have := congrArg List.length hr.blocks
    simpa using this
  let st : List (Text × Progress α) := (cs.zip outs).map fun x => (x.1.path, ⟨x.2, 0⟩)
  have hbufs : st.map (fun x => ((x.1, x.2.output.length) : Buffer)) =
      (cs.map ChannelPath.path).zip (outs.map List.length) := by
    show ((cs.zip outs).map _).map _ = _
    rw [List.map_map, List.zip_map]
    rfl
  have hprog : st.map (·.2.samplesRead) =
      ((cs.map ChannelPath.path).zip (outs.map List.length)).map fun _ => 0 := by
    rw [← hbufs]
    show ((cs.zip outs).map _).map _ = (((cs.zip outs).map _).map _).map _
    rw [List.map_map, List.map_map, List.map_map]
    rfl
  have hst2 : st.map (·.2) = outs.map fun o => (⟨o, 0⟩ : Progress α) := by
    show ((cs.zip outs).map _).map _ = _
    rw [List.map_map]
    conv => rhs; rw [← List.map_snd_zip (show outs.length ≤ cs.length by omega)]
    rw [List.map_map]
    rfl
  have hout : st.map (·.2.output) = outs := by
    show ((cs.zip outs).map _).map _ = _
    rw [List.map_map]
    exact List.map_snd_zip (show outs.length ≤ cs.length by omega)
  have hlocs : st.map (fun x => locations segs x.1) = cs.map fun c => locations segs c.path := by
    show ((cs.zip outs).map _).map _ = _
    rw [List.map_map]
    conv => rhs; rw [← List.map_fst_zip (show cs.length ≤ outs.length by omega)]
    rw [List.map_map]
    rfl
  obtain ⟨ps, hps, hres⟩ := executePlan_jointly (dec := dec) hS hmem h hf start (dataPrefixes segs).length 0 st
    (Nat.zero_add _) (by rw [List.drop_zero, hbufs, hprog]; exact hserved)
  unfold TdmsFile.readChannelsFrom
  rw [hlook]
  show (readPlan (cs.map fun c => locations segs c.path) start >>= fun plan =>
      executePlan S t plan (outs.map fun o => ⟨o, 0⟩) >>= fun ps => pure (ps.map (·.output))) = _
  rw [readPlan_eq start t.index.dataBlocks.length _ hinc hlt]
  show (executePlan S t (plan start t.index.dataBlocks.length (cs.map fun c => locations segs c.path))
    (outs.map fun o => ⟨o, 0⟩) >>= _) = _
  unfold plan
  rw [List.range_eq_range', hcount, ← hlocs, ← hst2, hps]
  show Except.ok (ps.map (·.output)) = _
  rw [hres, hout, List.drop_zero, hbufs, hprog]
  rfl

end
end Tedium
