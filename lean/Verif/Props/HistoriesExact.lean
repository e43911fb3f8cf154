import Verif.Props.CrashExact
import Verif.Props.WatcherExact

/-! # C91: which histories survive crashes, exactly -/

namespace Tedium
open SegSpec WriteSpec Library

/-- **C91, the guard on the calls is exact.** Take a history of tables on a new file, with one type per channel, of objects whose names
    have no slashes. Let a crash leave some whole calls and less than the 4 bytes of a tag. Then the file can be opened and answers all
    questions about one object at a time as the store of these calls, for all values and all such crashes, exactly if every data
    write differs from the list of channels in force at a position that both lists have. -/
theorem crash_histories_iff (al : Alloc) (hal : Generous al) (ops : List Op) (htabs : Tables ops) (htidy : ∀ op ∈ ops, Tidy op)
    (hfit : ∀ op ∈ ops, OpFits op) (hsz : (runOps al ⟨Index.new, []⟩ ops).bytes.length < 2 ^ 63) :
    (∀ ops', SameShape ops ops' → ∀ k kept, k ≤ ops'.length → kept ≤ (runOps al ⟨Index.new, []⟩ ops').bytes.length →
      bytesAfter al ops' k ≤ kept → kept < bytesAfter al ops' k + 4 →
      ∃ t, TdmsFile.new al ((runOps al ⟨Index.new, []⟩ ops').bytes.take kept) = .ok t ∧
        ∀ q, (Command.ask q).Single → (storeOf (ops'.take k)).Answers al q (q.run al t)) ↔ Changing Last.none ops := by
  constructor
  · intro h
    refine changing_of_lengths al hal ops htabs hfit hsz fun ops' n hs c => ?_
    obtain ⟨k, hk, hkn⟩ : ∃ k, k ≤ ops'.length ∧ ops'.take n = ops'.take k := by
      by_cases hn : n ≤ ops'.length
      · exact ⟨n, hn, rfl⟩
      · exact ⟨ops'.length, Nat.le_refl _, by rw [List.take_length, List.take_of_length_le (by omega)]⟩
    have hp : (runOps al ⟨Index.new, []⟩ (ops'.take k)).bytes <+: (runOps al ⟨Index.new, []⟩ ops').bytes := by
      conv => rhs; rw [← List.take_append_drop k ops', runOps_append]
      exact runOps_bytes al _ _
    obtain ⟨t, h1, h2⟩ := h ops' hs k (bytesAfter al ops' k) hk hp.length_le (Nat.le_refl _) (by omega)
    rw [hkn]
    refine ⟨t, ?_, h2 (.length c) trivial⟩
    rw [← h1]
    congr 1
    exact List.prefix_iff_eq_take.mp hp
  · intro hc ops' hs k kept hk hkept h1 h2
    have hsound : Sound al ops' := by
      have := sound_of_changing al ops'.length htabs hfit hsz hc hs
      rwa [List.take_length] at this
    obtain ⟨t, h3, h4⟩ := (crash_survived_iff al hal hsound kept hkept).2 k hk h1 h2
    refine ⟨t, h3, fun q hq => h4 q ?_⟩
    have htidy' : ∀ op ∈ ops', Tidy op := by
      intro op ho
      obtain ⟨o, ho, _, _, h⟩ := shape_mem hs op ho
      exact h (htidy o ho)
    cases q with
    | readMany ty cs start => exact absurd hq id
    | groups => exact htidy'
    | channels g => exact htidy'
    | _ => trivial

end Tedium
