import Verif.Proofs.Crashes
import Verif.Props.Library

/-!
# The library as a store that survives crashes (C91)
-/

namespace Tedium
open SegSpec WriteSpec Library

/-- **C91, partial.** A program on a new file, with any calls, questions, reopenings, `sync`s and crashes, in any order and number: its
    replies are those of a store that in a crash falls back to a state it had since the last `sync`, and goes on from there. `Endures`
    has the limits: those of C88, and that a crash leaves whole calls, or whole calls and less than the 4 bytes of a tag. Missing: a
    crash further into a call, after which the file cannot be opened or has a part of the call (`crash_outcome_exact`). -/
theorem crash_store_partial (al : Alloc) (hal : Generous al) {t : TdmsFile} (ht : TdmsFile.create al = .ok t) (steps : List Step)
    (h : Endures al [] 0 true steps) : Survives al Store.empty [] (stepReplies al t steps) := by
  rw [created_eq ht]
  refine survives_from hal steps [] 0 true [] _ ⟨rfl, List.prefix_rfl, ?_, ⟨[], ?_, List.prefix_rfl, fun j hj _ => hj⟩, fun _ => rfl,
    ⟨0, Nat.le_refl _, rfl, fun i _ hi => absurd hi (Nat.not_lt_zero _)⟩⟩ h
  · exact show 0 < 4 by decide
  · exact ⟨trivial, nofun, show 0 < 2 ^ 63 by decide, nofun, trivial⟩

/-! ## An example -/

/-- The calls of `reopenOps`. The first crash takes the third call with it, the second one leaves 3 bytes of the last call. -/
def crashingProgram : List Step :=
  [.command (.call (.write .little .u16 [chan "a", chan "b"] (vals16 [1, 2, 3, 4]) .contigious)),
   .sync,
   .command (.call (.props .big (.group "g".toList) [("n".toList, .i32 5)])),
   .command (.call (.write .big .u8 [chan "c"] (vals8 [1, 2, 3]) .interleaved)),
   .command (.ask (.length (chan "c"))),
   .crash 173,
   .command (.ask (.length (chan "c"))),
   .command (.ask (.properties (.group "g".toList))),
   .command (.call (.write .big .u8 [chan "c"] (vals8 [1, 2, 3]) .interleaved)),
   .command (.call (.write .little .u8 [chan "c"] (vals8 [0, 0, 0, 0, 8, 9]) .contigious)),
   .sync,
   .command (.call (.write .big .u16 [chan "a", chan "b"] (vals16 [13, 14]) .interleaved)),
   .command (.ask (.length (chan "a"))),
   .crash 281,
   .command (.ask (.length (chan "a"))),
   .command (.ask (.read .u8 (chan "c") 1 (vals8 [0, 0]))),
   .command (.call (.write .little .u16 [chan "a", chan "b"] (vals16 [1, 2, 3]) .contigious)),
   .command .reopen,
   .command (.ask .groups)]

theorem reopenOps_sound : Sound anyAlloc reopenOps := by
  have h := exampleProgram_proper
  have hcalls : calls exampleProgram = reopenOps := rfl
  have hre := reopenOps_reopens
  exact ⟨reopenOps_compatible, by have := h.types; rwa [hcalls] at this, show (session reopenOps).bytes.length < 2 ^ 63 by decide +kernel,
    hre.2.2.1, hre.2.2.2.1⟩

/-- The example meets the hypotheses. -/
theorem crashingProgram_endures : Endures anyAlloc [] 0 true crashingProgram := by
  have hs : ∀ k, Sound anyAlloc (reopenOps.take k) := fun k => reopenOps_sound.take k
  have htidy : ∀ op ∈ reopenOps.take 4, Tidy op := fun op hop =>
    exampleProgram_proper.lists (.ask .groups) (by unfold exampleProgram; simp) trivial op (List.mem_of_mem_take hop)
  refine ⟨fun _ => ⟨rfl, hs 1, ?_⟩, fun h => absurd h (by decide +kernel)⟩
  refine ⟨fun _ => ⟨rfl, hs 2, ?_⟩, fun h => absurd h (by decide +kernel)⟩
  refine ⟨fun _ => ⟨rfl, hs 3, ?_⟩, fun h => absurd h (by decide +kernel)⟩
  refine ⟨trivial, by decide +kernel, 2, by decide, by decide +kernel, by decide +kernel, ?_⟩
  refine ⟨trivial, trivial, fun _ => ⟨by decide +kernel, hs 3, ?_⟩, fun h => absurd h (by decide +kernel)⟩
  refine ⟨fun _ => ⟨by decide +kernel, hs 4, ?_⟩, fun h => absurd h (by decide +kernel)⟩
  refine ⟨fun _ => ⟨by decide +kernel, hs 5, ?_⟩, fun h => absurd h (by decide +kernel)⟩
  refine ⟨trivial, by decide +kernel, 4, by decide, by decide +kernel, by decide +kernel, ?_⟩
  exact ⟨trivial, trivial, fun h => absurd h (by decide +kernel), fun _ => ⟨htidy, trivial⟩⟩

/-- Its replies. After the first crash channel `c` is gone and the property is there; after the second one channel `a` is as long as
    before the last call. -/
theorem crashingProgram_replies :
    ((stepReplies anyAlloc ⟨Index.new, []⟩ crashingProgram)[4]?.map (·.2)) = some (.ok (.length (some 3))) ∧
    ((stepReplies anyAlloc ⟨Index.new, []⟩ crashingProgram)[5]?.map (·.2)) = some (.ok .done) ∧
    ((stepReplies anyAlloc ⟨Index.new, []⟩ crashingProgram)[6]?.map (·.2)) = some (.ok (.length none)) ∧
    ((stepReplies anyAlloc ⟨Index.new, []⟩ crashingProgram)[7]?.map (·.2)) = some (.ok (.values (some [("n".toList, .i32 5)]))) ∧
    ((stepReplies anyAlloc ⟨Index.new, []⟩ crashingProgram)[12]?.map (·.2)) = some (.ok (.length (some 3))) ∧
    ((stepReplies anyAlloc ⟨Index.new, []⟩ crashingProgram)[13]?.map (·.2)) = some (.ok .done) ∧
    ((stepReplies anyAlloc ⟨Index.new, []⟩ crashingProgram)[14]?.map (·.2)) = some (.ok (.length (some 2))) ∧
    ((stepReplies anyAlloc ⟨Index.new, []⟩ crashingProgram)[15]?.map (·.2)) = some (.ok (.samples .u8 (vals8 [2, 3]))) ∧
    ((stepReplies anyAlloc ⟨Index.new, []⟩ crashingProgram)[16]?.map (·.2)) = some (R.err (.badDataBlockLength 3 2)) ∧
    ((stepReplies anyAlloc ⟨Index.new, []⟩ crashingProgram)[18]?.map (·.2)) = some (.ok (.groups ["g".toList])) := by
  refine ⟨?_, ?_, ?_, ?_, ?_, ?_, ?_, ?_, ?_, ?_⟩ <;> decide +kernel

/-! ## Not of all crashes -/

/-- A crash that leaves 20 bytes of the second call. -/
def headerCrash : List Step :=
  [.command (.call (writeU16 ["a"] [1, 2])), .sync, .command (.call (writeU16 ["b"] [3])),
   .crash (bytesAfter anyAlloc [writeU16 ["a"] [1, 2]] 1 + 20)]

/-- **C91, counterexample.** After a crash in the header of a call the file cannot be opened, although the call before it was
    synced. -/
theorem crash_store_counterexample : ¬ Survives anyAlloc Store.empty [] (stepReplies anyAlloc ⟨Index.new, []⟩ headerCrash) := by
  rintro ⟨_, _, _, h, _⟩
  have h2 : ((stepReplies anyAlloc ⟨Index.new, []⟩ headerCrash)[3]?.map (·.2)) = some (R.err (.ioError .unexpectedEof)) := by decide +kernel
  cases (Option.some.inj h2).symm.trans h

end Tedium
