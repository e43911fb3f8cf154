import Verif.Spec.WatcherOn
import Verif.Proofs.Watcher
import Verif.Proofs.Resumed

/-! # Helper lemmas: a program that watches a file which had content before -/

namespace Tedium
open SegSpec WriteSpec PlanSpec Faults ReadSpec

namespace Library

section
variable {al : Alloc} {fs : List FileSegment} {t0 : TdmsFile} {ty : Text → STy} {last : Last} {ops : List Op}

local notation "S0" => storeIn ty (TdmsFile.bytes t0) (List.map FileSegment.segment fs)

theorem SoundOn.first {s : Store} (h : SoundOn al t0 s last ops) (k : Nat) : SoundOn al t0 s last (ops.take k) := by
  rw [← List.take_append_drop k ops] at h
  exact h.left

theorem AskableOn.first {segs : List Segment} {s : Store} {q : Query} (h : AskableOn segs s ops q) (k : Nat) :
    AskableOn segs s (ops.take k) q := by
  cases q with
  | groups => exact ⟨fun op hop => h.1 op (List.mem_of_mem_take hop), h.2⟩
  | channels g => exact ⟨fun op hop => h.1 op (List.mem_of_mem_take hop), h.2⟩
  | readMany ty cs start =>
    have h : TogetherOn segs s ops cs := h
    refine ⟨h.ordinary, h.distinct, fun c hc d hd ⟨op, hop, hn⟩ => h.buffers c hc d hd ⟨op, List.mem_of_mem_take hop, hn⟩,
      fun c hc d hd pre op post heq h1 h2 => ?_, h.file⟩
    refine h.level c hc d hd pre op (post ++ ops.drop k) ?_ h1 h2
    conv => lhs; rw [← List.take_append_drop k ops, heq]
    simp
  | _ => trivial

theorem bytes_prefix (al : Alloc) (t0 : TdmsFile) (ops : List Op) (j : Nat) : (runOps al t0 (ops.take j)).bytes <+: (runOps al t0 ops).bytes := by
  conv => rhs; rw [← List.take_append_drop j ops, runOps_append]
  exact runOps_bytes al _ _

/-- The answer with the index of the first `i` calls. -/
theorem SoundOn.glance (h : SoundOn al t0 S0 last ops) (he : Existing al fs t0 ty last) {i : Nat} {disk : Bytes}
    (hd : disk <+: (runOps al t0 ops).bytes) (q : Query) (hq : AskableOn (fs.map FileSegment.segment) S0 ops q) :
    (storeFrom S0 (ops.take i)).Answers al q (q.run al ⟨(runOps al t0 (ops.take i)).index, disk⟩) ∨
      (q.Reads ∧ disk.length < bytesAt al t0 ops i ∧
        q.run al ⟨(runOps al t0 (ops.take i)).index, disk⟩ = R.err (.ioError .unexpectedEof)) := by
  have hfull := bytes_prefix al t0 ops i
  have hans : (storeFrom S0 (ops.take i)).Answers al q
      (q.run al ⟨(runOps al t0 (ops.take i)).index, (runOps al t0 ops).bytes⟩) :=
    (h.first i).answers he (t := ⟨_, (runOps al t0 ops).bytes⟩) rfl hfull h.size q (hq.first i)
  by_cases hc : bytesAt al t0 ops i ≤ disk.length
  · exact Or.inl ((h.first i).answers he (t := ⟨_, disk⟩) rfl (prefix_of_le hfull hd hc)
      (Nat.lt_of_le_of_lt hd.length_le h.size) q (hq.first i))
  · by_cases hr : q.Reads
    · rcases read_of_part (al := al) (ix := (runOps al t0 (ops.take i)).index) hd q hr with he | he
      · exact Or.inr ⟨hr, Nat.lt_of_not_le hc, he⟩
      · rw [he]
        exact Or.inl hans
    · left
      cases q with
      | read => exact absurd trivial hr
      | readMany => exact absurd trivial hr
      | property => exact hans
      | properties => exact hans
      | length => exact hans
      | groups => exact hans
      | channels => exact hans

/-- What opening finds. -/
theorem SoundOn.finds (h : SoundOn al t0 S0 last ops) (he : Existing al fs t0 ty last) {disk : Bytes}
    (hlow : t0.bytes.length ≤ disk.length) (hd : disk <+: (runOps al t0 ops).bytes) :
    ∃ k, k ≤ ops.length ∧ (∀ j, j ≤ ops.length → (bytesAt al t0 ops j ≤ disk.length ↔ j ≤ k)) ∧
      (∀ op, ops[k]? = some op → bytesAt al t0 ops k + 28 ≤ foundFromOn al t0 last ops k op) ∧
      Tedium.buildIndex al disk = match foundOn al t0 last ops disk.length k with
        | some i => .ok (runOps al t0 (ops.take i)).index
        | none => R.err (.ioError .unexpectedEof) := by
  have hh := _root_.Tedium.Holds.of_opened al he.generous he.fits he.opened
  have hact : last.channels = t0.index.activeObjects.map (·.path) := by
    rw [← he.channels]
    exact (replay_refines hh.index).obj.paths.symm
  obtain ⟨k, hk, hiff, hshort, _, hex⟩ := recover al he.generous disk ops fs t0 last hh (.opened he.opened) hact (h.models he).1
    (fun op hop => by
      cases op with
      | props => trivial
      | write e ty chs vals layout => exact (compatible_table _ _ h.compatible e ty chs vals layout hop).distinct)
    h.fits h.described (by have := h.size; omega) (prefix_of_le (runOps_bytes al t0 ops) hd hlow) hd
  have hnew : ∀ x : R Index, TdmsFile.new al disk = x.map (fun ix => ⟨ix, disk⟩) → Tedium.buildIndex al disk = x := by
    intro x hx
    unfold TdmsFile.new at hx
    cases hb : Tedium.buildIndex al disk with
    | error e =>
      rw [hb] at hx
      cases x with
      | error e' => cases hx; rfl
      | ok ix => cases hx
    | ok ix =>
      rw [hb] at hx
      cases x with
      | error e' => cases hx
      | ok ix' => cases hx; rfl
  refine ⟨k, hk, fun j hj => ?_, fun op ho => ?_, ?_⟩
  · rw [← hiff j hj]
    exact ⟨fun hle => prefix_of_le (bytes_prefix al t0 ops j) hd hle, fun hp => hp.length_le⟩
  · have := (hex op ho).1
    unfold foundFromOn bytesAt
    omega
  · apply hnew
    unfold foundOn
    cases ho : ops[k]? with
    | none =>
      have hkl : k = ops.length := Nat.le_antisymm hk (List.getElem?_eq_none_iff.mp ho)
      refine hshort ?_
      rw [hkl, List.take_length]
      have := hd.length_le
      omega
    | some op =>
      obtain ⟨h28, hout⟩ := hex op ho
      refine hout.trans ?_
      dsimp only
      by_cases c1 : disk.length < bytesAt al t0 ops k + 4
      · rw [if_pos c1]
        exact if_pos c1
      · rw [if_neg c1]
        refine (if_neg c1).trans ?_
        by_cases c2 : disk.length < foundFromOn al t0 last ops k op
        · rw [if_pos c2]
          refine if_pos ?_
          unfold foundFromOn bytesAt at c2
          omega
        · rw [if_neg c2]
          refine if_neg ?_
          unfold foundFromOn bytesAt at c2
          omega

/-- The index `ix` is that of the first `i` calls, which are complete in the file, or the last of which is found. -/
structure SeenOn (al : Alloc) (t0 : TdmsFile) (last : Last) (ops : List Op) (i : Nat) (ix : Index) (g : Growing) : Prop where
  shows : ShowsOn al t0 ops g
  reliable : g.Reliable
  obtained : Obtained al ix
  index : ix = (runOps al t0 (ops.take i)).index
  there : i ≤ ops.length ∧ (bytesAt al t0 ops i ≤ g.contents.length ∨
    ∃ k op, i = k + 1 ∧ ops[k]? = some op ∧ bytesAt al t0 ops k + 28 ≤ foundFromOn al t0 last ops k op ∧
      foundFromOn al t0 last ops k op ≤ g.contents.length)

theorem ShowsOn.length {g : Growing} (h : ShowsOn al t0 ops g) : g.total = (runOps al t0 ops).bytes.length := by
  rw [← h.2, List.length_append, List.length_flatten]
  rfl

theorem ShowsOn.later {g g' : Growing} (h : ShowsOn al t0 ops g) (hl : g.Later g') : ShowsOn al t0 ops g' := by
  refine ⟨Nat.le_trans h.1 hl.grows.length_le, ?_⟩
  obtain ⟨now, h1, h2⟩ := hl
  rw [h2, ← h.2, h1, List.flatten_append, List.append_assoc]

theorem ShowsOn.part {g : Growing} (h : ShowsOn al t0 ops g) : g.contents <+: (runOps al t0 ops).bytes := ⟨_, h.2⟩

theorem SeenOn.later {i : Nat} {ix : Index} {g g' : Growing} (h : SeenOn al t0 last ops i ix g) (hl : g.Later g')
    (hr : g'.Reliable) : SeenOn al t0 last ops i ix g' := by
  have hle := hl.grows.length_le
  refine ⟨h.shows.later hl, hr, h.obtained, h.index, h.there.1, ?_⟩
  rcases h.there.2 with h1 | ⟨k, op, h1, h2, h3, h4⟩
  · exact Or.inl (Nat.le_trans h1 hle)
  · exact Or.inr ⟨k, op, h1, h2, h3, Nat.le_trans h4 hle⟩

theorem views_from_on (he : Existing al fs t0 ty last) (hs : SoundOn al t0 S0 last ops) (capacity : Nat) : ∀ (glances : List Glance)
    (i : Nat) (ix : Index) (g : Growing), (∀ q, Glance.ask q ∈ glances → AskableOn (fs.map FileSegment.segment) S0 ops q) →
    SeenOn al t0 last ops i ix g → ViewsOn al t0 S0 last ops i (glimpses al capacity ix g glances)
  | [], _, _, _, _, _ => trivial
  | .wait :: rest, i, ix, g, hq, h =>
    views_from_on he hs capacity rest i ix g.grown (fun q hm => hq q (List.mem_cons_of_mem _ hm))
      (h.later (Growing.grown_later g).1 ((Growing.grown_later g).2 h.reliable))
  | .ask q :: rest, i, ix, g, hq, h => by
    have hsize := hs.size
    obtain ⟨g', h1, h2, h3⟩ := Query.runGrowing_eq capacity h.obtained (by rw [h.shows.length]; omega) h.reliable q
    have hseen := h.later h2 h3
    unfold glimpses Glance.run
    dsimp only
    rw [h1]
    dsimp only
    refine ⟨?_, views_from_on he hs capacity rest i ix g' (fun q hm => hq q (List.mem_cons_of_mem _ hm)) hseen⟩
    rw [h.index]
    exact hs.glance he hseen.shows.part q (hq q List.mem_cons_self)
  | .reopen :: rest, i, ix, g, hq, h => by
    have hsize := hs.size
    have hq' : ∀ q, Glance.ask q ∈ rest → AskableOn (fs.map FileSegment.segment) S0 ops q := fun q hm => hq q (List.mem_cons_of_mem _ hm)
    obtain ⟨r, g', h1, h2, h3, h4⟩ := open_while_growing al capacity g (by rw [h.shows.length]; omega) h.reliable
    have hseen := h.later h2 h3
    obtain ⟨k, hk, hiff, h28, hres⟩ := hs.finds he hseen.shows.1 hseen.shows.part
    unfold glimpses Glance.run
    dsimp only
    rw [h1]
    rw [← h4] at hres
    cases hf : foundOn al t0 last ops g'.contents.length k with
    | none =>
      rw [hf] at hres
      dsimp only at hres
      subst hres
      refine ⟨k, hk, hiff, ?_⟩
      rw [hf]
      exact ⟨rfl, views_from_on he hs capacity rest i ix g' hq' hseen⟩
    | some i' =>
      rw [hf] at hres
      dsimp only at hres
      subst hres
      refine ⟨k, hk, hiff, ?_⟩
      rw [hf]
      have hkn : bytesAt al t0 ops k ≤ g'.contents.length := (hiff k hk).mpr (Nat.le_refl _)
      have hi' : i ≤ i' ∧ i' ≤ ops.length ∧ (bytesAt al t0 ops i' ≤ g'.contents.length ∨
          ∃ k op, i' = k + 1 ∧ ops[k]? = some op ∧ bytesAt al t0 ops k + 28 ≤ foundFromOn al t0 last ops k op ∧
            foundFromOn al t0 last ops k op ≤ g'.contents.length) := by
        have hold : i ≤ k ∨ (i = k + 1 ∧ ∃ op, ops[k]? = some op ∧ foundFromOn al t0 last ops k op ≤ g'.contents.length) := by
          rcases hseen.there.2 with hc | ⟨k0, op, e1, e2, e3, e4⟩
          · exact Or.inl ((hiff i h.there.1).mp hc)
          · have hlt : k0 < ops.length := (List.getElem?_eq_some_iff.mp e2).1
            have hk0 : k0 ≤ k := (hiff k0 (by omega)).mp (by omega)
            by_cases hkk : k0 = k
            · subst hkk
              exact Or.inr ⟨e1, op, e2, e4⟩
            · exact Or.inl (by omega)
        unfold foundOn at hf
        cases ho : ops[k]? with
        | none =>
          rw [ho] at hf
          cases hf
          rcases hold with hold | ⟨_, op, ho', _⟩
          · exact ⟨hold, hk, Or.inl hkn⟩
          · rw [ho] at ho'; cases ho'
        | some op =>
          rw [ho] at hf
          dsimp only at hf
          have hlt : k < ops.length := (List.getElem?_eq_some_iff.mp ho).1
          have h28' := h28 op ho
          by_cases c1 : g'.contents.length < bytesAt al t0 ops k + 4
          · rw [if_pos c1] at hf
            cases hf
            rcases hold with hold | ⟨_, op', ho', hle⟩
            · exact ⟨hold, hk, Or.inl hkn⟩
            · rw [ho] at ho'
              cases ho'
              omega
          · rw [if_neg c1] at hf
            by_cases c2 : g'.contents.length < foundFromOn al t0 last ops k op
            · rw [if_pos c2] at hf
              cases hf
            · rw [if_neg c2] at hf
              cases hf
              refine ⟨?_, hlt, Or.inr ⟨k, op, rfl, ho, h28', Nat.le_of_not_lt c2⟩⟩
              rcases hold with hold | ⟨hold, _⟩ <;> omega
      exact ⟨rfl, hi'.1, views_from_on he hs capacity rest i' _ g' hq'
        ⟨hseen.shows, hseen.reliable, Or.inl ⟨capacity, g, by rw [h1]⟩, rfl, hi'.2⟩⟩

end
end Library
end Tedium
