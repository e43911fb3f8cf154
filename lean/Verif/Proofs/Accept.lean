import Verif.Proofs.Replay

/-! # Helper lemmas: segments that are accepted -/

namespace Tedium
open SegSpec

theorem chunkSizeFrom_accepts : ∀ (cs : List RawDataMeta) (w : Nat),
    (∀ m ∈ cs, m.totalSizeBytes = none) →
    w + (cs.map (fun m => m.numberOfValues * m.dataType.size)).sum < u64Lim →
    ∃ r, DataBlock.chunkSizeFrom (.fixed w) cs = .ok r
  | [], w, _, _ => ⟨_, rfl⟩
  | c :: cs, w, h, hs => by
    rw [List.map_cons, List.sum_cons] at hs
    unfold DataBlock.chunkSizeFrom
    rw [h c List.mem_cons_self]
    dsimp only
    rw [if_pos (by omega)]
    have : (ChunkSize.fixed w).combine (.fixed (c.numberOfValues * c.dataType.size))
        = .ok (.fixed (w + c.numberOfValues * c.dataType.size)) := by
      unfold ChunkSize.combine chunkAdd
      dsimp only
      rw [if_pos (by omega)]
      rfl
    rw [this]
    exact chunkSizeFrom_accepts cs _ (fun m hm => h m (List.mem_cons_of_mem _ hm)) (by omega)

theorem numberOfChunks_accepts {b : DataBlock} (h : ∀ m ∈ b.channels, m.totalSizeBytes = none)
    (hs : (b.channels.map (fun m => m.numberOfValues * m.dataType.size)).sum < u64Lim) :
    ∃ n, b.numberOfChunks = .ok n := by
  obtain ⟨r, hr⟩ := chunkSizeFrom_accepts b.channels 0 h (by omega)
  unfold DataBlock.numberOfChunks DataBlock.chunkSize
  rw [hr]
  match r with
  | .fixed 0 => exact ⟨_, rfl⟩
  | .fixed (n + 1) => exact ⟨_, rfl⟩
  | .variable n => exact ⟨_, rfl⟩

theorem addLocations_accepts (di n : Nat) : ∀ (as : List ActiveObject) (ci : Nat) (objs : SMap ObjectData),
    (∀ a ∈ as, ∃ o, objs.get? a.path = some o) → (∀ a ∈ as, a.numberOfSamples * n < u64Lim) →
    (Index.addLocations di n ci objs as).1 = .ok ()
  | [], _, _, _, _ => rfl
  | a :: as, ci, objs, ho, hs => by
    obtain ⟨o, hoa⟩ := ho a List.mem_cons_self
    unfold Index.addLocations
    rw [if_pos (hs a List.mem_cons_self), hoa]
    refine addLocations_accepts di n as _ _ ?_ (fun b hb => hs b (List.mem_cons_of_mem _ hb))
    intro b hb
    obtain ⟨o', ho'⟩ := ho b (List.mem_cons_of_mem _ hb)
    rw [SMap.get?_insert]
    split
    · exact ⟨_, rfl⟩
    · exact ⟨o', ho'⟩

/-- Sufficient conditions for a segment to be accepted. -/
theorem Refines.accepts {segs : List Segment} {ix : Index} {s : Segment} (h : Refines segs ix)
    (hprev : ∀ pre o post, entriesOf s = pre ++ o :: post →
      ¬ (o.rawDataIndex = .matchPrevious ∧ layoutOf (entries segs ++ pre) o.path = none))
    (hraw : s.toc.containsRawData = true → active (segs ++ [s]) ≠ [] ∧ s.rawDataOffset < s.nextSegmentOffset ∧
      (∀ m ∈ activeLayouts (segs ++ [s]), m.totalSizeBytes = none) ∧ chunkBytes (segs ++ [s]) < 2 ^ 64 ∧
      ∀ p ∈ active (segs ++ [s]), valuesPerChunk (segs ++ [s]) p * chunks (segs ++ [s]) < 2 ^ 64)
    (hend : endOf (segs ++ [s]) < 2 ^ 64) :
    ∃ ix', ix.addSegment s = (.ok (endOf (segs ++ [s])), ix') ∧ Refines (segs ++ [s]) ix' := by
  have key : ∃ n ix', ix.addSegment s = (.ok n, ix') := by
    rw [addSegment_eq]
    rcases h.afterObjects s with ⟨_, ix1, heq, hi1, ho1, hb1, hn1⟩ | ⟨⟨pre, o, post, h1, h2, h3⟩, _⟩
    case inr => exact absurd ⟨h2, h3⟩ (hprev pre o post h1)
    rw [heq]
    dsimp only
    have hstart : ix1.nextSegmentStart = endOf segs := hn1.trans h.next
    have hlim : u64Lim = 2 ^ 64 := rfl
    rw [endOf_snoc] at hend
    have har : ∃ ix2, ix1.addRawData s = (.ok (), ix2) := by
      unfold Index.addRawData
      by_cases hr : s.toc.containsRawData = true
      · obtain ⟨hact, hlt, htot, hsum, hval⟩ := hraw hr
        rw [if_pos hr]
        obtain ⟨ms, hms, hlen, hfm, hj⟩ := activeRawDataMeta_ok hi1.active
        rw [hms]
        have hms' : ms = activeLayouts (segs ++ [s]) := by rw [hfm, ho1.layouts]; rfl
        have hne : ms ≠ [] := by
          intro hh
          rw [hh, List.length_nil] at hlen
          apply hact
          show activeOf _ = []
          rw [← ho1.paths, List.length_eq_zero_iff.mp hlen.symm]
          rfl
        dsimp only
        rw [if_neg (by simpa using hne)]
        rcases fromSegment_cases s ix1.nextSegmentStart ms hne with ⟨_, _⟩ | ⟨_, _⟩ | ⟨_, _, _⟩ | ⟨_, _, he⟩
        · omega
        · omega
        · unfold leadInBytes at *; omega
        rw [he]
        dsimp only
        unfold Index.insertDataBlock
        generalize hbd : (DataBlock.mk _ _ _ _ _) = b
        have hbc : b.channels = ms := by rw [← hbd]
        obtain ⟨n, hn⟩ := numberOfChunks_accepts (b := b) (by rw [hbc, hms']; exact htot) (by
          rw [hbc, hms']; exact hsum)
        rw [hn]
        dsimp only
        have hnck : n = chunks (segs ++ [s]) := by
          rw [numberOfChunks_spec hn, ← hbd]
          unfold chunks chunkBytes rawBytes
          simp only [hms', List.getLast?_append, List.getLast?_singleton, Option.some_or]
        have := addLocations_accepts ix1.dataBlocks.length n ix1.activeObjects 0 ix1.objects
          (fun a ha => by obtain ⟨o, _, h1, _⟩ := hi1.active a ha; exact ⟨o, h1⟩) (by
            intro a ha
            rw [ho1.active] at ha
            obtain ⟨p, hp, rfl⟩ := List.mem_map.mp ha
            rw [hnck]
            exact hval p hp)
        generalize Index.addLocations ix1.dataBlocks.length n 0 ix1.objects ix1.activeObjects = al at this
        obtain ⟨r, objs⟩ := al
        dsimp only at this ⊢
        subst this
        exact ⟨_, rfl⟩
      · rw [if_neg hr]; exact ⟨_, rfl⟩
    obtain ⟨ix2, har⟩ := har
    have hn2 : ix2.nextSegmentStart = endOf segs := by
      have := addRawData_next ix1 s
      rw [har] at this
      exact this.trans hstart
    rw [har]
    dsimp only
    rw [advance_eq, if_pos (by rw [hn2]; unfold leadInBytes; omega)]
    exact ⟨_, _, rfl⟩
  obtain ⟨n, ix', hs⟩ := key
  obtain ⟨h1, h2⟩ := h.addSegment hs
  exact ⟨ix', by rw [hs, h2], h1⟩

end Tedium
