import Verif.Spec.Watcher
import Verif.Proofs.Crashes
import Verif.Proofs.Steady
import Verif.Props.Watch

/-! # Helper lemmas: a program that watches a file -/

namespace Tedium
open SegSpec WriteSpec PlanSpec Faults ReadSpec

namespace Library

section
variable {al : Alloc} {ops : List Op}

theorem Sound.recording (h : Sound al ops) : Recording al ops :=
  ⟨h.compatible, h.described, fun op hop => by
    cases op with
    | props => trivial
    | write e ty chs vals layout => exact (compatible_table _ _ h.compatible e ty chs vals layout hop).distinct, h.fits, h.size⟩

theorem Askable.take {q : Query} (h : Askable ops q) (i : Nat) : Askable (ops.take i) q := by
  have hm : ∀ op ∈ ops.take i, op ∈ ops := fun op => List.mem_of_mem_take
  cases q with
  | groups => exact fun op hop => h op (hm op hop)
  | channels g => exact fun op hop => h op (hm op hop)
  | readMany ty cs start =>
    have ht : Together ops cs := h
    refine ⟨ht.ordinary, ht.distinct, fun c hc d hd ⟨op, hop, hn⟩ => ht.buffers c hc d hd ⟨op, hm op hop, hn⟩, ?_⟩
    intro c hc d hd pre op post hsplit
    refine ht.level c hc d hd pre op (post ++ ops.drop i) ?_
    rw [← List.cons_append, ← List.append_assoc, ← hsplit, List.take_append_drop]
  | _ => trivial

theorem bytes_take (al : Alloc) (ops : List Op) {i j : Nat} (h : i ≤ j) :
    (runOps al ⟨Index.new, []⟩ (ops.take i)).bytes <+: (runOps al ⟨Index.new, []⟩ (ops.take j)).bytes := by
  have : ops.take j = ops.take i ++ (ops.take j).drop i := by
    conv => lhs; rw [← List.take_append_drop i (ops.take j)]
    rw [List.take_take, Nat.min_eq_left h]
  rw [this, runOps_append]
  exact runOps_bytes al _ _

theorem bytesAfter_mono (al : Alloc) (ops : List Op) {i j : Nat} (h : i ≤ j) : bytesAfter al ops i ≤ bytesAfter al ops j :=
  (bytes_take al ops h).length_le

/-- A read of one channel, of a file that is not complete. -/
theorem read_of_part {ix : Index} {disk full : Bytes} (hd : disk <+: full) (q : Query) (hq : q.Reads) :
    q.run al ⟨ix, disk⟩ = R.err (.ioError .unexpectedEof) ∨ q.run al ⟨ix, disk⟩ = q.run al ⟨ix, full⟩ := by
  obtain ⟨more, rfl⟩ := hd
  cases q with
  | read ty c start out =>
    by_cases h : TdmsFile.readChannelFrom (ty.storage al) ⟨ix, disk⟩ c start out = tooShort
    · left
      unfold Query.run
      dsimp only
      rw [h]
      rfl
    · right
      unfold Query.run
      dsimp only
      rw [readChannelFrom_steady (STy.steady al ty) ix disk more c start out h]
  | readMany ty cs start =>
    by_cases h : TdmsFile.readChannelsFrom (ty.storage al) ⟨ix, disk⟩ (cs.map (·.1)) start (cs.map (·.2)) = tooShort
    · left
      unfold Query.run
      dsimp only
      rw [h]
      rfl
    · right
      unfold Query.run
      dsimp only
      rw [readChannelsFrom_steady (STy.steady al ty) ix disk more _ start _ h]
  | _ => exact hq.elim

/-- A question to a file that grows is answered from the contents at the end. -/
theorem Query.runGrowing_eq (capacity : Nat) {ix : Index} (hix : Obtained al ix) {g : Growing} (hlen : g.total < 2 ^ 64)
    (hr : g.Reliable) (q : Query) :
    ∃ g', q.runGrowing al capacity ix g = (q.run al ⟨ix, g'.contents⟩, g') ∧ g.Later g' ∧ g'.Reliable := by
  cases q with
  | read ty c start out =>
    obtain ⟨r, b, g', used, h1, h2, h3, h4⟩ := read_while_growing al capacity hix g hlen ty c start out
    have hno : NoFailure used := fun o ho => hr o (by rw [h3]; exact List.mem_append_left _ ho)
    refine ⟨g', ?_, h2, fun o ho => hr o (by rw [h3]; exact List.mem_append_right _ ho)⟩
    rcases h4 with ⟨_, h4⟩ | ⟨c, _, hc, _⟩
    · obtain ⟨i1, i2⟩ := read_into_agrees al ty ⟨ix, g'.contents⟩ c start out
      unfold Query.runGrowing Query.run
      dsimp only
      rw [h1]
      dsimp only
      rw [show r = _ from congrArg Prod.fst h4, show b = _ from congrArg Prod.snd h4, i1]
      cases hread : TdmsFile.readChannelFrom (ty.storage al) ⟨ix, g'.contents⟩ c start out with
      | error e => rfl
      | ok o => rw [i2 o hread]; rfl
    · exact absurd hno hc.failure
  | readMany ty cs start =>
    obtain ⟨r, b, g', used, h1, h2, h3, h4⟩ := read_many_while_growing al capacity hix g hlen ty (cs.map (·.1)) start (cs.map (·.2))
    have hno : NoFailure used := fun o ho => hr o (by rw [h3]; exact List.mem_append_left _ ho)
    refine ⟨g', ?_, h2, fun o ho => hr o (by rw [h3]; exact List.mem_append_right _ ho)⟩
    rcases h4 with ⟨_, h4⟩ | ⟨c, _, _, hc, _⟩
    · obtain ⟨i1, i2⟩ := read_many_into_agrees al ty ⟨ix, g'.contents⟩ (cs.map (·.1)) start (cs.map (·.2))
      unfold Query.runGrowing Query.run
      dsimp only
      rw [h1]
      dsimp only
      rw [show r = _ from congrArg Prod.fst h4, show b = _ from congrArg Prod.snd h4, i1]
      cases hread : TdmsFile.readChannelsFrom (ty.storage al) ⟨ix, g'.contents⟩ (cs.map (·.1)) start (cs.map (·.2)) with
      | error e => rfl
      | ok o => rw [i2 o hread]; rfl
    · exact absurd hno hc.failure
  | property path n => exact ⟨g, rfl, .refl g, hr⟩
  | properties path => exact ⟨g, rfl, .refl g, hr⟩
  | length c => exact ⟨g, rfl, .refl g, hr⟩
  | groups => exact ⟨g, rfl, .refl g, hr⟩
  | channels n => exact ⟨g, rfl, .refl g, hr⟩

/-- The answer with the index of the first `i` calls. -/
theorem Sound.glance (h : Sound al ops) {i : Nat} {disk : Bytes} (hd : disk <+: (runOps al ⟨Index.new, []⟩ ops).bytes) (q : Query)
    (hq : Askable ops q) :
    (storeOf (ops.take i)).Answers al q (q.run al ⟨(runOps al ⟨Index.new, []⟩ (ops.take i)).index, disk⟩) ∨
      (q.Reads ∧ disk.length < bytesAfter al ops i ∧
        q.run al ⟨(runOps al ⟨Index.new, []⟩ (ops.take i)).index, disk⟩ = R.err (.ioError .unexpectedEof)) := by
  have hfull : (runOps al ⟨Index.new, []⟩ (ops.take i)).bytes <+: (runOps al ⟨Index.new, []⟩ ops).bytes := by
    conv => rhs; rw [← List.take_append_drop i ops, runOps_append]
    exact runOps_bytes al _ _
  have hans : (storeOf (ops.take i)).Answers al q
      (q.run al ⟨(runOps al ⟨Index.new, []⟩ (ops.take i)).index, (runOps al ⟨Index.new, []⟩ ops).bytes⟩) :=
    (h.take i).answers (t := ⟨_, (runOps al ⟨Index.new, []⟩ ops).bytes⟩) rfl hfull h.size q (hq.take i)
  by_cases hc : bytesAfter al ops i ≤ disk.length
  · exact Or.inl ((h.take i).answers (t := ⟨_, disk⟩) rfl (prefix_of_le hfull hd hc)
      (Nat.lt_of_le_of_lt hd.length_le h.size) q (hq.take i))
  · by_cases hr : q.Reads
    · rcases read_of_part (al := al) (ix := (runOps al ⟨Index.new, []⟩ (ops.take i)).index) hd q hr with he | he
      · exact Or.inr ⟨hr, Nat.lt_of_not_le hc, he⟩
      · rw [he]
        exact Or.inl hans
    · left
      cases q with
      | read => exact absurd trivial hr
      | readMany => exact absurd trivial hr
      | property => exact hans
      | properties => exact hans
      | length => exact hans
      | groups => exact hans
      | channels => exact hans

/-- What opening finds. -/
theorem Sound.finds (hal : Generous al) (h : Sound al ops) {disk : Bytes} (hd : disk <+: (runOps al ⟨Index.new, []⟩ ops).bytes) :
    ∃ k, k ≤ ops.length ∧ (∀ j, j ≤ ops.length → (bytesAfter al ops j ≤ disk.length ↔ j ≤ k)) ∧
      (∀ op, ops[k]? = some op → bytesAfter al ops k + 28 ≤ foundFrom al ops k op) ∧
      Tedium.buildIndex al disk = match found al ops disk.length k with
        | some i => .ok (runOps al ⟨Index.new, []⟩ (ops.take i)).index
        | none => R.err (.ioError .unexpectedEof) := by
  have hrec := h.recording
  have hsize := hrec.size
  obtain ⟨k, hk, hiff, hall, hex⟩ := crash_outcome_exact al hal [] (fun _ h => by cases h) (t := ⟨Index.new, []⟩) rfl ops
    hrec.succeeds hrec.distinct hrec.fits hrec.described (by omega) disk List.nil_prefix hd
  have hfull : ∀ j, (runOps al ⟨Index.new, []⟩ (ops.take j)).bytes <+: (runOps al ⟨Index.new, []⟩ ops).bytes := by
    intro j
    conv => rhs; rw [← List.take_append_drop j ops, runOps_append]
    exact runOps_bytes al _ _
  have hnew : ∀ x : R Index, TdmsFile.new al disk = x.map (fun ix => ⟨ix, disk⟩) → Tedium.buildIndex al disk = x := by
    intro x hx
    unfold TdmsFile.new at hx
    cases hb : Tedium.buildIndex al disk with
    | error e =>
      rw [hb] at hx
      cases x with
      | error e' => cases hx; rfl
      | ok ix => cases hx
    | ok ix =>
      rw [hb] at hx
      cases x with
      | error e' => cases hx
      | ok ix' => cases hx; rfl
  refine ⟨k, hk, fun j hj => ?_, fun op ho => ?_, ?_⟩
  · rw [← hiff j hj]
    exact ⟨fun hle => prefix_of_le (hfull j) hd hle, fun hp => hp.length_le⟩
  · have := (hex op ho).1
    unfold foundFrom
    exact Nat.le_trans this (Nat.le_add_right _ _)
  · apply hnew
    unfold found
    cases ho : ops[k]? with
    | none =>
      have hkl : k = ops.length := Nat.le_antisymm hk (List.getElem?_eq_none_iff.mp ho)
      have hp := (hiff k hk).mpr (Nat.le_refl _)
      rw [hkl, List.take_length] at hp
      rw [hall hkl]
      dsimp only
      rw [hkl, List.take_length]
      have := List.IsPrefix.eq_of_length_le hd hp.length_le
      rw [this]
      rfl
    | some op =>
      refine (hex op ho).2.trans ?_
      dsimp only
      by_cases c1 : disk.length < bytesAfter al ops k + 4
      · rw [if_pos c1]
        exact if_pos c1
      · rw [if_neg c1]
        refine (if_neg c1).trans ?_
        by_cases c2 : disk.length < foundFrom al ops k op
        · rw [if_pos c2]
          exact if_pos c2
        · rw [if_neg c2]
          exact if_neg c2

end

/-- The index `ix` is that of the first `i` calls, which are complete in the file, or the last of which is found. -/
structure Seen (al : Alloc) (ops : List Op) (i : Nat) (ix : Index) (g : Growing) : Prop where
  shows : g.Shows al ops
  reliable : g.Reliable
  obtained : Obtained al ix
  index : ix = (runOps al ⟨Index.new, []⟩ (ops.take i)).index
  there : i ≤ ops.length ∧ (bytesAfter al ops i ≤ g.contents.length ∨
    ∃ k op, i = k + 1 ∧ ops[k]? = some op ∧ bytesAfter al ops k + 28 ≤ foundFrom al ops k op ∧
      foundFrom al ops k op ≤ g.contents.length)

theorem Seen.later {al : Alloc} {ops : List Op} {i : Nat} {ix : Index} {g g' : Growing} (h : Seen al ops i ix g) (hl : g.Later g')
    (hr : g'.Reliable) : Seen al ops i ix g' := by
  have hle := hl.grows.length_le
  refine ⟨h.shows.later hl, hr, h.obtained, h.index, h.there.1, ?_⟩
  rcases h.there.2 with h1 | ⟨k, op, h1, h2, h3, h4⟩
  · exact Or.inl (Nat.le_trans h1 hle)
  · exact Or.inr ⟨k, op, h1, h2, h3, Nat.le_trans h4 hle⟩

theorem Growing.grown_later (g : Growing) : g.Later g.grown ∧ (g.Reliable → g.grown.Reliable) := by
  unfold Growing.grown
  cases hg : g.growth with
  | nil => exact ⟨.refl g, id⟩
  | cons more growth =>
    refine ⟨⟨[more], by rw [hg]; rfl, ?_⟩, id⟩
    show g.dev.bytes ++ more = g.dev.bytes ++ [more].flatten
    rw [List.flatten_singleton]

theorem views_from {al : Alloc} (hal : Generous al) {ops : List Op} (hs : Sound al ops) (capacity : Nat) : ∀ (glances : List Glance)
    (i : Nat) (ix : Index) (g : Growing), (∀ q, Glance.ask q ∈ glances → Askable ops q) → Seen al ops i ix g →
    Views al ops i (glimpses al capacity ix g glances)
  | [], _, _, _, _, _ => trivial
  | .wait :: rest, i, ix, g, hq, h =>
    views_from hal hs capacity rest i ix g.grown (fun q hm => hq q (List.mem_cons_of_mem _ hm))
      (h.later (Growing.grown_later g).1 ((Growing.grown_later g).2 h.reliable))
  | .ask q :: rest, i, ix, g, hq, h => by
    have hsize := hs.size
    obtain ⟨g', h1, h2, h3⟩ := Query.runGrowing_eq capacity h.obtained (by rw [h.shows.length]; omega) h.reliable q
    have hseen := h.later h2 h3
    unfold glimpses Glance.run
    dsimp only
    rw [h1]
    dsimp only
    refine ⟨?_, views_from hal hs capacity rest i ix g' (fun q hm => hq q (List.mem_cons_of_mem _ hm)) hseen⟩
    rw [h.index]
    exact hs.glance hseen.shows.part q (hq q List.mem_cons_self)
  | .reopen :: rest, i, ix, g, hq, h => by
    have hsize := hs.size
    have hq' : ∀ q, Glance.ask q ∈ rest → Askable ops q := fun q hm => hq q (List.mem_cons_of_mem _ hm)
    obtain ⟨r, g', h1, h2, h3, h4⟩ := open_while_growing al capacity g (by rw [h.shows.length]; omega) h.reliable
    have hseen := h.later h2 h3
    obtain ⟨k, hk, hiff, h28, hres⟩ := hs.finds hal hseen.shows.part
    unfold glimpses Glance.run
    dsimp only
    rw [h1]
    rw [← h4] at hres
    cases hf : found al ops g'.contents.length k with
    | none =>
      rw [hf] at hres
      dsimp only at hres
      subst hres
      refine ⟨k, hk, hiff, ?_⟩
      rw [hf]
      exact ⟨rfl, views_from hal hs capacity rest i ix g' hq' hseen⟩
    | some i' =>
      rw [hf] at hres
      dsimp only at hres
      subst hres
      refine ⟨k, hk, hiff, ?_⟩
      rw [hf]
      have hkn : bytesAfter al ops k ≤ g'.contents.length := (hiff k hk).mpr (Nat.le_refl _)
      have hi' : i ≤ i' ∧ i' ≤ ops.length ∧ (bytesAfter al ops i' ≤ g'.contents.length ∨
          ∃ k op, i' = k + 1 ∧ ops[k]? = some op ∧ bytesAfter al ops k + 28 ≤ foundFrom al ops k op ∧
            foundFrom al ops k op ≤ g'.contents.length) := by
        have hold : i ≤ k ∨ (i = k + 1 ∧ ∃ op, ops[k]? = some op ∧ foundFrom al ops k op ≤ g'.contents.length) := by
          rcases hseen.there.2 with hc | ⟨k0, op, e1, e2, e3, e4⟩
          · exact Or.inl ((hiff i h.there.1).mp hc)
          · have hlt : k0 < ops.length := (List.getElem?_eq_some_iff.mp e2).1
            have hk0 : k0 ≤ k := (hiff k0 (by omega)).mp (by omega)
            by_cases hkk : k0 = k
            · subst hkk
              exact Or.inr ⟨e1, op, e2, e4⟩
            · exact Or.inl (by omega)
        unfold found at hf
        cases ho : ops[k]? with
        | none =>
          rw [ho] at hf
          cases hf
          rcases hold with hold | ⟨_, op, ho', _⟩
          · exact ⟨hold, hk, Or.inl hkn⟩
          · rw [ho] at ho'; cases ho'
        | some op =>
          rw [ho] at hf
          dsimp only at hf
          have hlt : k < ops.length := (List.getElem?_eq_some_iff.mp ho).1
          have h28' := h28 op ho
          by_cases c1 : g'.contents.length < bytesAfter al ops k + 4
          · rw [if_pos c1] at hf
            cases hf
            rcases hold with hold | ⟨_, op', ho', hle⟩
            · exact ⟨hold, hk, Or.inl hkn⟩
            · rw [ho] at ho'
              cases ho'
              omega
          · rw [if_neg c1] at hf
            by_cases c2 : g'.contents.length < foundFrom al ops k op
            · rw [if_pos c2] at hf
              cases hf
            · rw [if_neg c2] at hf
              cases hf
              refine ⟨?_, hlt, Or.inr ⟨k, op, rfl, ho, h28', Nat.le_of_not_lt c2⟩⟩
              rcases hold with hold | ⟨hold, _⟩ <;> omega
      exact ⟨rfl, hi'.1, views_from hal hs capacity rest i' _ g' hq'
        ⟨hseen.shows, hseen.reliable, Or.inl ⟨capacity, g, by rw [h1]⟩, rfl, hi'.2⟩⟩

end Library
end Tedium
