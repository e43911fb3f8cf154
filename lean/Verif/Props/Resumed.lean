import Verif.Proofs.Resumed
import Verif.Props.Crashes
import Verif.Props.Existing

/-!
# The library as a store that survives crashes, on files that exist (C91)
-/

namespace Tedium
open SegSpec WriteSpec Library

/-- **C91, on files that exist, partial.** A program on a file that is as in C90, whoever wrote it, with any calls, questions, reopenings,
    `sync`s and crashes, in any order and number: its replies are those of a store that holds at the beginning what the segments of the
    file describe, falls back in a crash to a state it had since the last `sync`, or since the file was opened, and goes on
    from there. Nothing that was in the file at the beginning is ever lost. `EnduresOn` has the limits: those of C90, and that a
    crash leaves whole calls, or whole calls and less than the 4 bytes of a tag. Missing: a crash further into a call, as in
    `crash_store_partial`. -/
theorem crash_existing_partial (al : Alloc) {fs : List FileSegment} {t : TdmsFile} {ty : Text → STy} {last : Last}
    (he : Existing al fs t ty last) (hsz : t.bytes.length < 2 ^ 63) (steps : List Step)
    (h : EnduresOn al (fs.map FileSegment.segment) t (storeIn ty t.bytes (fs.map FileSegment.segment)) last [] t.bytes.length true steps) :
    Survives al (storeIn ty t.bytes (fs.map FileSegment.segment)) [] (stepReplies al t steps) := by
  refine resumes_from he steps [] t.bytes.length true [] t ⟨rfl, List.prefix_rfl, ?_, ⟨[], ?_, List.prefix_rfl, fun j hj _ => hj⟩, fun _ => rfl,
    ⟨0, Nat.le_refl _, rfl, fun i _ hi => absurd hi (Nat.not_lt_zero _)⟩⟩ h
  · exact show t.bytes.length < t.bytes.length + 4 by omega
  · exact ⟨trivial, nofun, nofun, hsz, nofun, trivial⟩

/-! ## An example -/

/-- The calls of `windowOps` on `windowFile`. The first crash takes the third call with it, the second one leaves 2 bytes of the last call. -/
def resumedProgram : List Step :=
  [.command (.call (.write .little .u8 [chan "a"] (vals8 [7, 0]) .contigious)),
   .sync,
   .command (.call (.props .big (.group "g".toList) [("n".toList, .i32 5)])),
   .command (.call (.write .big .u16 [chan "c", chan "d"] (vals16 [1, 2, 3, 4]) .interleaved)),
   .command (.ask (.length (chan "c"))),
   .crash 357,
   .command (.ask (.length (chan "c"))),
   .command (.ask (.property (.group "g".toList) "n".toList)),
   .command (.call (.write .big .u16 [chan "c", chan "d"] (vals16 [1, 2, 3, 4]) .interleaved)),
   .sync,
   .command (.call (.write .little .u16 [chan "b"] (vals16 [16, 17]) .contigious)),
   .command (.ask (.length (chan "b"))),
   .crash 471,
   .command (.ask (.length (chan "b"))),
   .command (.ask (.read .u16 (chan "b") 4 (vals16 [0, 0, 0]))),
   .command (.call (.write .little .u16 [chan "b", chan "c"] (vals16 [1, 2, 3]) .contigious)),
   .command .reopen,
   .command (.ask .groups)]

theorem windowOps_sound : SoundOn anyAlloc windowOpen (storeIn windowTypes windowOpen.bytes (windowFile.map FileSegment.segment)) windowLast
    windowOps := by
  have h := windowProgram_proper
  have hcalls : calls windowProgram = windowOps := rfl
  have hre := h.reopens (by unfold windowProgram; simp)
  have h1 := h.compatible
  have h2 := h.types
  have h3 := h.fileTypes
  have h4 := h.size
  rw [hcalls] at hre h1 h2 h3 h4
  exact ⟨h1, h2, h3, h4, hre.1, hre.2⟩

/-- The example meets the hypotheses. -/
theorem resumedProgram_endures : EnduresOn anyAlloc (windowFile.map FileSegment.segment) windowOpen
    (storeIn windowTypes windowOpen.bytes (windowFile.map FileSegment.segment)) windowLast [] windowOpen.bytes.length true resumedProgram := by
  have hs : ∀ k, SoundOn anyAlloc windowOpen (storeIn windowTypes windowOpen.bytes (windowFile.map FileSegment.segment)) windowLast
      (windowOps.take k) := fun k =>
    SoundOn.left (b := windowOps.drop k) (by rw [List.take_append_drop]; exact windowOps_sound)
  have hl := windowProgram_proper.lists (.ask .groups) (by unfold windowProgram; simp) trivial
  have htidy : ∀ op ∈ windowOps.take 3, Tidy op := fun op hop => hl.1 op (List.mem_of_mem_take hop)
  refine ⟨fun _ => ⟨rfl, hs 1, ?_⟩, fun h => absurd h (by decide +kernel)⟩
  refine ⟨fun _ => ⟨rfl, hs 2, ?_⟩, fun h => absurd h (by decide +kernel)⟩
  refine ⟨fun _ => ⟨rfl, hs 3, ?_⟩, fun h => absurd h (by decide +kernel)⟩
  refine ⟨trivial, by decide +kernel, 2, by decide, by decide +kernel, by decide +kernel, ?_⟩
  refine ⟨trivial, trivial, fun _ => ⟨by decide +kernel, hs 3, ?_⟩, fun h => absurd h (by decide +kernel)⟩
  refine ⟨fun _ => ⟨by decide +kernel, hs 4, ?_⟩, fun h => absurd h (by decide +kernel)⟩
  refine ⟨trivial, by decide +kernel, 3, by decide, by decide +kernel, by decide +kernel, ?_⟩
  exact ⟨trivial, trivial, fun h => absurd h (by decide +kernel), fun _ => ⟨⟨htidy, hl.2⟩, trivial⟩⟩

/-- Its replies. After the first crash channel `c` is gone and the property is there; after the second one channel `b` is as it was in
    the file. -/
theorem resumedProgram_replies :
    ((stepReplies anyAlloc windowOpen resumedProgram)[4]?.map (·.2)) = some (.ok (.length (some 2))) ∧
    ((stepReplies anyAlloc windowOpen resumedProgram)[5]?.map (·.2)) = some (.ok .done) ∧
    ((stepReplies anyAlloc windowOpen resumedProgram)[6]?.map (·.2)) = some (.ok (.length none)) ∧
    ((stepReplies anyAlloc windowOpen resumedProgram)[7]?.map (·.2)) = some (.ok (.value (some (.i32 5)))) ∧
    ((stepReplies anyAlloc windowOpen resumedProgram)[11]?.map (·.2)) = some (.ok (.length (some 8))) ∧
    ((stepReplies anyAlloc windowOpen resumedProgram)[12]?.map (·.2)) = some (.ok .done) ∧
    ((stepReplies anyAlloc windowOpen resumedProgram)[13]?.map (·.2)) = some (.ok (.length (some 6))) ∧
    ((stepReplies anyAlloc windowOpen resumedProgram)[14]?.map (·.2)) = some (.ok (.samples .u16 (vals16 [14, 15, 0]))) ∧
    ((stepReplies anyAlloc windowOpen resumedProgram)[17]?.map (·.2)) = some (.ok (.groups ["g".toList])) := by
  refine ⟨?_, ?_, ?_, ?_, ?_, ?_, ?_, ?_, ?_⟩ <;> decide +kernel

end Tedium
