import Verif.Proofs.JointlyFile
import Verif.Props.Delivered

/-! # The cells that a read of several channels visits -/

namespace Tedium
open PlanSpec SegSpec

theorem storeAll_getElem? {α : Type} (value : Cell → α) (k : Nat) (as : List (Nat × Cell)) : ∀ (out : List α),
    k < out.length → (storeAll value out as)[k]? = ((lastAt as k).map value).or out[k]? := by
  induction as with
  | nil => intro out _; rfl
  | cons a as ih =>
    intro out hk
    show (storeAll value (out.set a.1 (value a.2)) as)[k]? = _
    rw [ih _ (by rw [List.length_set]; exact hk)]
    unfold lastAt
    rw [List.reverse_cons, List.find?_append]
    cases hf : as.reverse.find? (fun a => a.1 == k) with
    | some z => rfl
    | none =>
      rw [Option.map_none, Option.map_none, Option.none_or, Option.none_or, List.find?_cons]
      by_cases ha : a.1 = k
      · rw [ha, List.getElem?_set_self hk, show (k == k) = true by simp]
        rfl
      · rw [List.getElem?_set_ne ha, show (a.1 == k) = false by simpa using ha]
        rfl

theorem lastAt_mem {as : List (Nat × Cell)} {k : Nat} {c : Cell} (h : lastAt as k = some c) : (k, c) ∈ as := by
  unfold lastAt at h
  obtain ⟨a, ha, rfl⟩ := Option.map_eq_some_iff.mp h
  have h1 := List.mem_reverse.mp (List.mem_of_find?_eq_some ha)
  have h2 : a.1 = k := by simpa using List.find?_some ha
  rw [← h2]
  exact h1

theorem stored_length (w start : Nat) (bufs : List Buffer) : ∀ (pres : List (List Segment)) (prog : List Nat),
    (stored w start bufs pres prog).length = bufs.length := by
  intro pres
  induction pres with
  | nil => intro prog; unfold stored; rw [List.length_map]
  | cons pre pres ih =>
    intro prog
    unfold stored
    cases blockOf pre with
    | none => exact ih prog
    | some b =>
      dsimp only
      split
      · split
        · rw [List.length_map, List.length_range]
        · rw [List.length_zipWith, ih, List.length_map, List.length_range, Nat.min_self]
      · exact ih prog

/-- Where the values in the buffers come from. -/
structure Origin (w start : Nat) (bufs : List Buffer) (pres : List (List Segment)) (prog : List Nat) (s : Nat)
    (a : Nat × Cell) (x : Buffer) (pre : List Segment) (b : DataBlock) (ts : List Taker) (t : Taker) (p : Nat) : Prop where
  pre_mem : pre ∈ pres
  block : blockOf pre = some b
  read : (b, ts) ∈ readBlocks w start bufs pres prog
  buffer : bufs[s]? = some x
  wanted : wanted pre start x.1 = true
  taker : t ∈ ts
  chan : t.chan = ((active pre).idxOf? x.1).getD 0
  cell : a.2 = (b.byteOrder, p)
  offered : p ∈ b.offered w ts t.chan
  room : a.1 < x.2

theorem stored_origin {w start : Nat} {bufs : List Buffer} : ∀ (pres : List (List Segment)) (prog : List Nat) (s : Nat)
    (as : List (Nat × Cell)) (a : Nat × Cell), (stored w start bufs pres prog)[s]? = some as → a ∈ as →
    ∃ x pre b ts t p, Origin w start bufs pres prog s a x pre b ts t p := by
  intro pres
  induction pres with
  | nil =>
    intro prog s as a h ha
    unfold stored at h
    rw [List.getElem?_map] at h
    obtain ⟨_, _, rfl⟩ := Option.map_eq_some_iff.mp h
    cases ha
  | cons pre pres ih =>
    intro prog s as a h ha
    unfold stored at h
    cases hb : blockOf pre with
    | none =>
      rw [hb] at h
      obtain ⟨x, pre', b, ts, t, p, ho⟩ := ih prog s as a h ha
      refine ⟨x, pre', b, ts, t, p, { ho with pre_mem := List.mem_cons_of_mem _ ho.pre_mem, read := ?_ }⟩
      unfold readBlocks
      rw [hb]
      exact ho.read
    | some b =>
      rw [hb] at h
      dsimp only at h
      by_cases hw : (bufs.any (fun x => wanted pre start x.1)) = true
      · rw [if_pos hw] at h
        have hnow : ∀ as, ((List.range bufs.length).map (storedIn b w (takers pre start bufs prog) prog))[s]? = some as →
            a ∈ as → ∃ x pre' b ts t p, Origin w start bufs (pre :: pres) prog s a x pre' b ts t p := by
          intro as h ha
          rw [List.getElem?_map] at h
          obtain ⟨s', hs', rfl⟩ := Option.map_eq_some_iff.mp h
          have hss : s' = s := by
            rcases Nat.lt_or_ge s bufs.length with hlt | hge
            · rw [List.getElem?_range hlt] at hs'; exact (Option.some.inj hs').symm
            · rw [List.getElem?_eq_none (by rw [List.length_range]; exact hge)] at hs'; cases hs'
          subst hss
          unfold storedIn at ha
          cases htk : (takers pre start bufs prog)[s']? with
          | none => rw [htk] at ha; cases ha
          | some ot =>
            cases ot with
            | none => rw [htk] at ha; cases ha
            | some t =>
              rw [htk] at ha
              dsimp only at ha
              split at ha
              · cases ha
              · obtain ⟨k, hk⟩ := List.mem_iff_getElem?.mp ha
                rw [List.getElem?_mapIdx] at hk
                obtain ⟨p, hp, rfl⟩ := Option.map_eq_some_iff.mp hk
                have hkroom : k < t.room := by
                  have := (List.getElem?_eq_some_iff.mp hp).1
                  rw [List.length_take] at this
                  omega
                have hz := htk
                unfold takers at hz
                rw [List.getElem?_map] at hz
                obtain ⟨⟨x, q⟩, hxq, htake⟩ := Option.map_eq_some_iff.mp hz
                have hx : bufs[s']? = some x := (List.getElem?_zip_eq_some.mp hxq).1
                have hq : prog[s']? = some q := (List.getElem?_zip_eq_some.mp hxq).2
                unfold takerOf at htake
                split at htake
                · rename_i hcond
                  obtain ⟨hc1, hc2⟩ := Bool.and_eq_true_iff.mp hcond
                  have hc2 := of_decide_eq_true hc2
                  have htm : t ∈ (takers pre start bufs prog).filterMap id :=
                    List.mem_filterMap.mpr ⟨some t, List.mem_of_getElem? htk, rfl⟩
                  cases htake
                  refine ⟨x, pre, b, _, _, p, List.mem_cons_self, hb, ?_, hx, hc1, htm, rfl, rfl,
                    List.mem_of_mem_take (List.mem_of_getElem? hp), ?_⟩
                  · unfold readBlocks
                    rw [hb]
                    dsimp only
                    rw [if_pos hw]
                    exact List.mem_cons_self
                  · dsimp only at hkroom hc2 ⊢
                    rw [List.getD_eq_getElem?_getD, hq, Option.getD_some]
                    omega
                · cases htake
        split at h
        · exact hnow as h ha
        · rename_i hd
          rw [List.getElem?_zipWith] at h
          cases h1 : ((List.range bufs.length).map (storedIn b w (takers pre start bufs prog) prog))[s]? with
          | none => rw [h1] at h; cases h
          | some as1 =>
            rw [h1] at h
            cases h2 : (stored w start bufs pres (progressed pre start bufs prog
                (b.counted w ((takers pre start bufs prog).filterMap id))))[s]? with
            | none => rw [h2] at h; cases h
            | some as2 =>
              rw [h2] at h
              cases h
              rcases List.mem_append.mp ha with ha | ha
              · exact hnow as1 h1 ha
              · obtain ⟨x, pre', b', ts, t, p, ho⟩ := ih _ s as2 a h2 ha
                refine ⟨x, pre', b', ts, t, p,
                  { pre_mem := List.mem_cons_of_mem _ ho.pre_mem, block := ho.block, read := ?_, buffer := ho.buffer,
                    wanted := ho.wanted, taker := ho.taker, chan := ho.chan, cell := ho.cell, offered := ho.offered,
                    room := ho.room }⟩
                unfold readBlocks
                rw [hb]
                dsimp only
                rw [if_pos hw, if_neg hd]
                exact List.mem_cons_of_mem _ ho.read
      · rw [if_neg hw] at h
        obtain ⟨x, pre', b', ts, t, p, ho⟩ := ih prog s as a h ha
        refine ⟨x, pre', b', ts, t, p, { ho with pre_mem := List.mem_cons_of_mem _ ho.pre_mem, read := ?_ }⟩
        unfold readBlocks
        rw [hb]
        dsimp only
        rw [if_neg hw]
        exact ho.read

theorem rowsRead_le (b : DataBlock) (w : Nat) (ts : List Taker) :
    b.rowsRead w ts ≤ b.length / (jointWidths b.channels (ts.map (·.chan)) w).sum - b.firstRow ts := by
  unfold DataBlock.rowsRead
  dsimp only
  refine Nat.le_trans (List.takeWhile_prefix _).length_le ?_
  rw [List.length_range']
  exact Nat.le_refl _

/-- Cells that are offered lie in the raw data. -/
theorem DataBlock.offered_inside {b : DataBlock} {i w p : Nat} {ts : List Taker}
    (hc : (ts.map (·.chan)).contains i = true) (hp : p ∈ b.offered w ts i) :
    b.start ≤ p ∧ p + w ≤ b.start + b.length := by
  unfold DataBlock.offered at hp
  cases hm : b.channels[i]? with
  | none => rw [hm] at hp; cases hp
  | some m =>
    rw [hm] at hp
    dsimp only at hp
    cases hlay : b.layout with
    | interleaved =>
      rw [hlay] at hp
      dsimp only at hp
      obtain ⟨r, hr, rfl⟩ := List.mem_map.mp hp
      have hdrop : skipFor ts i ≤ r ∧ r < b.firstRow ts + b.rowsRead w ts := by
        obtain ⟨k, hk⟩ := List.mem_iff_getElem?.mp hr
        rw [List.getElem?_drop] at hk
        have h1 := (List.getElem?_eq_some_iff.mp hk).1
        rw [List.length_range] at h1
        rw [List.getElem?_range h1] at hk
        cases hk
        omega
      have hle := firstRow_le b ts i (List.getElem?_eq_some_iff.mp hm).1 hc
      have hrows := rowsRead_le b w ts
      have hi : (jointWidths b.channels (ts.map (·.chan)) w)[i]? = some w := by
        unfold jointWidths
        rw [List.getElem?_mapIdx, hm, Option.map_some, if_pos hc]
      have h1 := sum_take_add_le hi
      generalize (jointWidths b.channels (ts.map (·.chan)) w).sum = row at *
      have h2 : (r + 1) * row ≤ b.length :=
        Nat.le_trans (Nat.mul_le_mul_right _ (by omega : r + 1 ≤ b.length / row)) (Nat.div_mul_le_self _ _)
      rw [Nat.add_mul, Nat.one_mul] at h2
      omega
    | contigious =>
      rw [hlay] at hp
      dsimp only at hp
      obtain ⟨c, hcr, hp⟩ := List.mem_flatMap.mp hp
      have hcr := List.mem_range.mp hcr
      split at hp
      · obtain ⟨s, hs, rfl⟩ := List.mem_map.mp hp
        have hs := List.mem_range.mp (List.mem_of_mem_drop hs)
        have hi : (jointChunks b.channels (ts.map (·.chan)) w)[i]? = some (m.numberOfValues * w) := by
          unfold jointChunks
          rw [List.getElem?_mapIdx, hm, Option.map_some, if_pos hc]
        have h1 := sum_take_add_le hi
        generalize (jointChunks b.channels (ts.map (·.chan)) w).sum = chunk at *
        have h2 : (c + 1) * chunk ≤ b.length :=
          Nat.le_trans (Nat.mul_le_mul_right _ hcr) (Nat.div_mul_le_self _ _)
        have h4 : (s + 1) * w ≤ m.numberOfValues * w := Nat.mul_le_mul_right _ hs
        rw [Nat.add_mul, Nat.one_mul] at h2 h4
        omega
      · cases hp

end Tedium
