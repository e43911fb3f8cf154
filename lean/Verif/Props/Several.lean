import Verif.Proofs.Several
import Verif.Props.Watcher

/-!
# Several handles on one file share a store (C93)
-/

namespace Tedium
open SegSpec WriteSpec Library

/-- **C93, partial.** A file is opened by any number of handles, which make calls, ask questions and open the file again, in any order.
    If each handle that writes samples has been opened since another one last wrote samples, then all replies are those of one store:
    each call is made on what all handles have written, a handle that is opened sees all of it, and each other handle
    answers as the file was when it last saw all of it, whatever the others have written since. The limits are those of C88. -/
theorem several_handles_partial (al : Alloc) (hal : Generous al) (deeds : List Deed) (h : Orderly al [] (fun _ => True) deeds) :
    Agrees al [] (fun _ => some 0) (deedReplies al Shared.new deeds) :=
  agrees_from hal deeds [] _ _ _ ⟨⟨trivial, fun _ h => (by cases h), Nat.pow_pos (by decide), fun _ h => (by cases h), trivial⟩, rfl,
    fun _ => .new, fun _ => Nat.le_refl _, fun _ n hn => ⟨(by rw [← Option.some.inj hn]; exact Nat.le_refl _), (by rw [List.take_nil]; rfl)⟩,
    fun _ _ => Alike.refl _⟩ h

/-! ## An example -/

/-- The calls of `reopenOps`, made with three handles. -/
def severalHandles : List Deed :=
  [.call 0 (.write .little .u16 [chan "a", chan "b"] (vals16 [1, 2, 3, 4]) .contigious),
   .call 1 (.props .big (.group "g".toList) [("n".toList, .i32 5)]),
   .ask 0 (.property (.group "g".toList) "n".toList),
   .ask 1 (.length (chan "a")),
   .call 0 (.write .big .u8 [chan "c"] (vals8 [1, 2, 3]) .interleaved),
   .ask 0 (.length (chan "c")),
   .ask 0 (.read .u8 (chan "c") 0 (vals8 [7, 7, 7])),
   .reopen 2,
   .ask 2 (.read .u8 (chan "c") 0 (vals8 [7, 7, 7])),
   .call 2 (.write .little .u8 [chan "c"] (vals8 [0, 0, 0, 0, 8, 9]) .contigious),
   .call 1 (writeU16 ["a", "b"] [1]),
   .reopen 0,
   .call 2 (.write .big .u16 [chan "a", chan "b"] (vals16 [13, 14]) .interleaved),
   .ask 0 (.length (chan "a")),
   .ask 2 (.read .u16 (chan "a") 1 (vals16 [7, 7])),
   .reopen 1,
   .ask 1 (.readMany .u16 [(chan "b", vals16 [0, 0]), (chan "a", vals16 [0, 0])] 1)]

/-- The example meets the hypothesis. -/
theorem severalHandles_orderly : Orderly anyAlloc [] (fun _ => True) severalHandles := by
  have hs : ∀ k, Sound anyAlloc (reopenOps.take k) := fun k => reopenOps_sound.take k
  have hm : Askable reopenOps (.readMany .u16 [(chan "b", vals16 [0, 0]), (chan "a", vals16 [0, 0])] 1) :=
    exampleProgram_proper.together (exampleProgram.take 12) _ _ _ (exampleProgram.drop 13) rfl
  refine ⟨fun _ => ⟨hs 1, fun _ => trivial, ?_⟩, fun h => absurd h (by decide +kernel)⟩
  refine ⟨fun _ => ⟨hs 2, fun h => absurd h id, trivial, trivial, ?_⟩, fun h => absurd h (by decide +kernel)⟩
  refine ⟨fun _ => ⟨hs 3, fun _ => ⟨⟨trivial, fun _ => rfl⟩, fun h => absurd h id⟩, trivial, trivial, trivial, ?_⟩,
    fun h => absurd h (by decide +kernel)⟩
  refine ⟨fun _ => ⟨hs 4, fun _ => Or.inr rfl, ?_⟩, fun h => absurd h (by decide +kernel)⟩
  refine ⟨fun h => absurd h (by decide +kernel), fun _ => ?_⟩
  refine ⟨fun _ => ⟨hs 5, fun _ => Or.inl ⟨Or.inr rfl, fun _ => rfl⟩, trivial, trivial, hm, trivial⟩, fun h => absurd h (by decide +kernel)⟩

/-- The reply to step `n`. -/
def severalReplies (n : Nat) : Option (R Reply) := (deedReplies anyAlloc Shared.new severalHandles)[n]?.map (·.2)

/-- Its replies. Handle 0 does not see the property that handle 1 has written, and handle 1 does not see the samples. When handle 0 has
    then written samples again, it reads wrong ones (its index expects them where the properties are), but they are right in the file, as
    handle 2 reads. -/
theorem severalHandles_replies :
    severalReplies 2 = some (R.err (.missingObject (PropertyPath.group "g".toList).path)) ∧
    severalReplies 3 = some (.ok (.length none)) ∧
    severalReplies 5 = some (.ok (.length (some 3))) ∧
    severalReplies 6 ≠ some (.ok (.samples .u8 (vals8 [1, 2, 3]))) ∧
    severalReplies 8 = some (.ok (.samples .u8 (vals8 [1, 2, 3]))) ∧
    severalReplies 10 = some (R.err (.badDataBlockLength 1 2)) ∧
    severalReplies 13 = some (.ok (.length (some 2))) ∧
    severalReplies 14 = some (.ok (.samples .u16 (vals16 [2, 13]))) ∧
    severalReplies 16 = some (.ok (.samplesMany .u16 [vals16 [4, 14], vals16 [2, 13]])) := by
  refine ⟨?_, ?_, ?_, ?_, ?_, ?_, ?_, ?_, ?_⟩ <;> decide +kernel

/-! ## Not of all programs -/

/-- Handle 0 writes channel `a`, handle 1 channel `b`, and handle 0 channel `a` again. -/
def staleOps : List Op := [writeU16 ["a"] [1, 2], writeU16 ["b"] [3, 4], writeU16 ["a"] [0, 0]]

def staleHandles : List Deed :=
  [.call 0 (writeU16 ["a"] [1, 2]), .call 1 (writeU16 ["b"] [3, 4]), .call 0 (writeU16 ["a"] [0, 0]),
   .reopen 2,
   .ask 2 (.length (chan "a")),
   .ask 2 (.read .u16 (chan "b") 0 (vals16 [7, 7, 7, 7, 7]))]

/-- **C93, counterexample.** The calls are as in C88, but handle 0 has not been opened again when it writes samples after handle 1. The
    samples are in the file as samples of channel `b`. -/
theorem several_handles_counterexample :
    Sound anyAlloc staleOps ∧
    (deedReplies anyAlloc Shared.new staleHandles).map (·.2) =
      [.ok .done, .ok .done, .ok .done, .ok .done, .ok (.length (some 2)), .ok (.samples .u16 (vals16 [3, 4, 0, 0, 7]))] ∧
    ¬ Agrees anyAlloc [] (fun _ => some 0) (deedReplies anyAlloc Shared.new staleHandles) := by
  refine ⟨⟨?_, ?_, show (session staleOps).bytes.length < 2 ^ 63 by decide +kernel, ?_, ?_⟩, by decide +kernel, ?_⟩
  · refine ⟨⟨⟨rfl, ?_, ?_, ?_, ?_⟩, ?_⟩, ⟨⟨rfl, ?_, ?_, ?_, ?_⟩, ?_⟩, ⟨⟨rfl, ?_, ?_, ?_, ?_⟩, ?_⟩, trivial⟩
    all_goals first
      | decide +kernel
      | exact Or.inl (by decide +kernel)
  · intro op hop op' hop' p _ _
    have key : ∀ op ∈ staleOps, typeOf op = some .u16 := by decide +kernel
    rw [key op hop, key op' hop']
  · intro op hop
    simp only [staleOps, List.mem_cons, List.not_mem_nil, or_false] at hop
    rcases hop with rfl | rfl | rfl
    all_goals
      refine ⟨⟨by decide, by decide⟩, by decide, fun c hc => ?_⟩
      rw [List.mem_singleton.mp hc]
      exact show (utf8Enc _).length < 2 ^ 32 by decide +kernel
  · exact ⟨Or.inl (by decide +kernel), Or.inl (by decide +kernel), Or.inl (by decide +kernel), trivial⟩
  · intro h
    have h1 := h.2.1 (by decide +kernel)
    have h2 := h1.2.1 (by decide +kernel)
    have h3 := h2.2.1 (by decide +kernel)
    have hobj : (storeOf staleOps).objects (chan "a").path :=
      (store_objects staleOps _).mpr ⟨writeU16 ["a"] [1, 2], List.mem_cons_self, List.mem_singleton.mpr rfl⟩
    have h3' := h3.2.1 3 rfl
    rw [show List.take 3 _ = staleOps from rfl] at h3'
    have h4 := h3'.1 hobj
    have h5 : (storeOf staleOps).count (chan "a").path = 4 := by decide +kernel
    rw [h5] at h4
    clear h h1 h2 h3 h3' h5 hobj
    revert h4
    decide +kernel

end Tedium
