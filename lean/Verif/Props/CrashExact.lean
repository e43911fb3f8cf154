import Verif.Proofs.Torn
import Verif.Props.Watcher

/-!
# C91, exactly: which crashes the store survives

The points at which a crash leaves a file that is a store are those of C91, and no others. At every other point the file cannot be
opened, or it has a channel that cannot be read to its end.
-/

namespace Tedium
open SegSpec WriteSpec

namespace Library

/-- Every call adds at least a header. -/
theorem bytesAfter_succ {al : Alloc} {ops : List Op} (h : Sound al ops) {k : Nat} (hk : k < ops.length) :
    bytesAfter al ops k + 28 ≤ bytesAfter al ops (k + 1) := by
  have htake : ops.take (k + 1) = ops.take k ++ [ops[k]] := by
    rw [List.take_add_one, List.getElem?_eq_getElem hk]
    rfl
  unfold bytesAfter
  rw [htake, runOps_append]
  generalize runOps al ⟨Index.new, []⟩ (ops.take k) = t
  have hmem := List.getElem_mem hk
  generalize ops[k] = op at hmem
  show _ ≤ (op.run al t).2.bytes.length
  cases op with
  | props e path ps =>
    unfold Op.run TdmsFile.writeProperties
    dsimp only
    rw [List.length_append, length_writeSegment]
    omega
  | write e ty chs vals layout =>
    have ht := compatible_table _ _ h.compatible e ty chs vals layout hmem
    unfold Op.run TdmsFile.writeChannels
    dsimp only
    rw [if_neg (by simpa using ht.some_channel), if_neg (by
      have := Nat.mod_eq_zero_of_dvd ht.whole
      simpa using this)]
    dsimp only
    rw [List.length_append, length_writeSegment]
    omega

end Library

/-- **C91, the guard on crashes is exact.** Calls within the limits of C88 are made on a new file, and a crash leaves the first `kept` of
    their bytes. What is left can be opened and answers as a store, whichever, exactly if it is whole calls, or whole calls and
    less than the 4 bytes of a tag; and then it is the store of these calls. -/
theorem crash_survived_iff (al : Alloc) (hal : Generous al) {ops : List Op} (h : Library.Sound al ops) (kept : Nat)
    (hk : kept ≤ (runOps al ⟨Index.new, []⟩ ops).bytes.length) :
    ((∃ t s, TdmsFile.new al ((runOps al ⟨Index.new, []⟩ ops).bytes.take kept) = .ok t ∧
        ∀ q, Library.Askable ops q → Library.Store.Answers al s q (q.run al t)) ↔
      ∃ k, k ≤ ops.length ∧ Library.bytesAfter al ops k ≤ kept ∧ kept < Library.bytesAfter al ops k + 4) ∧
    ∀ k, k ≤ ops.length → Library.bytesAfter al ops k ≤ kept → kept < Library.bytesAfter al ops k + 4 →
      ∃ t, TdmsFile.new al ((runOps al ⟨Index.new, []⟩ ops).bytes.take kept) = .ok t ∧
        ∀ q, Library.Askable ops q → (Library.storeOf (ops.take k)).Answers al q (q.run al t) := by
  obtain ⟨disk, hdisk⟩ : ∃ disk, disk = (runOps al ⟨Index.new, []⟩ ops).bytes.take kept := ⟨_, rfl⟩
  have hlen : disk.length = kept := by rw [hdisk, List.length_take]; omega
  have hd : disk <+: (runOps al ⟨Index.new, []⟩ ops).bytes := hdisk ▸ List.take_prefix _ _
  rw [← hdisk]
  obtain ⟨k, hkl, hiff, hgap, hfinds⟩ := h.finds hal hd
  rw [hlen] at hiff hfinds
  have hnew : TdmsFile.new al disk = (Tedium.buildIndex al disk).map (fun ix => ⟨ix, disk⟩) := by
    unfold TdmsFile.new
    cases Tedium.buildIndex al disk <;> rfl
  have hsurv : ∀ k', k' ≤ ops.length → Library.bytesAfter al ops k' ≤ kept → kept < Library.bytesAfter al ops k' + 4 →
      ∃ t, TdmsFile.new al disk = .ok t ∧ ∀ q, Library.Askable ops q → (Library.storeOf (ops.take k')).Answers al q (q.run al t) := by
    intro k' hk' h1 h2
    have hle : k' ≤ k := (hiff k' hk').mp h1
    have hb := (hiff k hkl).mpr (Nat.le_refl _)
    have heq : k' = k := by
      refine Nat.le_antisymm hle (Nat.le_of_not_lt fun hlt => ?_)
      have h3 := Library.bytesAfter_succ h (Nat.lt_of_lt_of_le hlt hkl)
      have h4 := Library.bytesAfter_mono al ops (show k' + 1 ≤ k from hlt)
      omega
    subst heq
    have hf : Library.found al ops kept k' = some k' := by
      unfold Library.found
      cases ops[k']? with
      | none => rfl
      | some op => dsimp only; rw [if_pos h2]
    rw [hf] at hfinds
    refine ⟨⟨_, disk⟩, hnew.trans (by rw [hfinds]; rfl), fun q hq => ?_⟩
    rcases h.glance hd q hq (i := k') with ha | ⟨_, hlt, _⟩
    · exact ha
    · exact absurd hlt (by omega)
  refine ⟨⟨?_, fun ⟨k', hk', h1, h2⟩ => ?_⟩, hsurv⟩
  · rintro ⟨t, s, ht, hans⟩
    refine ⟨k, hkl, (hiff k hkl).mpr (Nat.le_refl _), Nat.lt_of_not_le fun hge => ?_⟩
    unfold Library.found at hfinds
    cases ho : ops[k]? with
    | none =>
      have hkl' : k = ops.length := Nat.le_antisymm hkl (List.getElem?_eq_none_iff.mp ho)
      have : Library.bytesAfter al ops k = (runOps al ⟨Index.new, []⟩ ops).bytes.length := by
        unfold Library.bytesAfter
        rw [hkl', List.take_length]
      omega
    | some op =>
      have hklt : k < ops.length := (List.getElem?_eq_some_iff.mp ho).1
      have hinc : kept < Library.bytesAfter al ops (k + 1) :=
        Nat.lt_of_not_le fun hle => absurd ((hiff (k + 1) hklt).mp hle) (Nat.not_succ_le_self k)
      rw [ho] at hfinds
      dsimp only at hfinds
      rw [if_neg (Nat.not_lt.mpr hge)] at hfinds
      by_cases hff : kept < Library.foundFrom al ops k op
      · rw [if_pos hff] at hfinds
        rw [hnew, hfinds] at ht
        cases ht
      · rw [if_neg hff] at hfinds
        rw [hnew, hfinds] at ht
        obtain rfl : _ = t := Except.ok.inj ht
        have htake : ops.take (k + 1) = ops.take k ++ [op] := by
          rw [List.take_add_one, ho]
          rfl
        cases op with
        | props e path ps =>
          unfold Library.foundFrom at hff
          exact hff hinc
        | write e ty chs vals layout =>
          have hs1 := h.take (k + 1)
          rw [htake] at hs1
          have hd1 : disk <+: (runOps al ⟨Index.new, []⟩ (ops.take k ++ [.write e ty chs vals layout])).bytes := by
            rw [← htake]
            refine prefix_of_le hd ?_ (by rw [hlen]; exact Nat.le_of_lt hinc)
            conv => rhs; rw [← List.take_append_drop (k + 1) ops, runOps_append]
            exact runOps_bytes al _ _
          obtain ⟨c, _, out, hread⟩ := Library.torn_read al hs1 hd1 (by rw [← htake, hlen]; exact hinc)
          have ha := hans (.read ty c 0 out) trivial
          dsimp only at ha
          rw [htake, hread] at ha
          by_cases hobj : s.objects c.path
          · by_cases href : s.Refuses ty c.path 0 out
            · obtain ⟨⟨ty', vals'⟩, hcont, _⟩ := href.1
              cases ha.2.1 hobj href ty' vals' hcont
            · cases ha.1 hobj href
          · cases ha.2.2 hobj
  · obtain ⟨t, h3, h4⟩ := hsurv k' hk' h1 h2
    exact ⟨t, _, h3, h4⟩

/-- The calls of `reopenOps` end at these bytes, so a crash that leaves 247 bytes is survived, and crashes that leave 260 or 277 bytes
    are not: the first of these files cannot be opened, and of the second one channel `c` cannot be read to the end. -/
theorem crash_survived_example : Generous anyAlloc ∧ Library.Sound anyAlloc reopenOps ∧
    (List.range 6).map (Library.bytesAfter anyAlloc reopenOps) = [0, 112, 173, 244, 278, 386] ∧
    (TdmsFile.new anyAlloc ((session reopenOps).bytes.take 247)).toOption.map
        (fun t => Library.Query.run anyAlloc t (.read .u8 (chan "c") 0 (vals8 [0, 0, 0, 0])))
      = some (.ok (.samples .u8 (vals8 [1, 2, 3, 0]))) ∧
    TdmsFile.new anyAlloc ((session reopenOps).bytes.take 260) = R.err (.ioError .unexpectedEof) ∧
    (TdmsFile.new anyAlloc ((session reopenOps).bytes.take 277)).toOption.map
        (fun t => Library.Query.run anyAlloc t (.read .u8 (chan "c") 0 (vals8 [0, 0, 0, 0, 0, 0, 0, 0, 0])))
      = some (R.err (.ioError .unexpectedEof)) := by
  refine ⟨fun _ => rfl, reopenOps_sound, ?_, ?_, ?_, ?_⟩ <;> decide +kernel

end Tedium
