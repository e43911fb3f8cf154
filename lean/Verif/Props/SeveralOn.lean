import Verif.Proofs.SeveralOn
import Verif.Props.Resumed
import Verif.Props.Several

/-!
# Several handles on one file which had content before (C93)
-/

namespace Tedium
open SegSpec WriteSpec Library

/-- **C93, on files that exist, partial.** A file that is as in C90, whoever wrote it, is opened by any number of handles, which make calls,
    ask questions and open the file again, in any order. If each handle that writes samples has been opened since another one last
    wrote samples, then all replies are those of one store, which holds at the beginning what the segments of the file describe. The limits
    are those of C90. -/
theorem several_existing_partial (al : Alloc) {fs : List FileSegment} {t : TdmsFile} {ty : Text → STy} {last : Last}
    (he : Existing al fs t ty last) (hsz : t.bytes.length < 2 ^ 63) (deeds : List Deed)
    (h : OrderlyOn al (fs.map FileSegment.segment) t (storeIn ty t.bytes (fs.map FileSegment.segment)) last [] (fun _ => True) deeds) :
    AgreesOn al (storeIn ty t.bytes (fs.map FileSegment.segment)) [] (fun _ => some 0) (deedReplies al (Shared.opened t) deeds) :=
  agrees_from_on he deeds [] _ _ _ ⟨⟨trivial, nofun, nofun, hsz, nofun, trivial⟩, rfl, fun _ => he.reach, fun _ => Nat.le_refl _,
    fun _ n hn => ⟨(by rw [← Option.some.inj hn]; exact Nat.le_refl _), (by rw [List.take_nil]; rfl)⟩, fun _ _ => Alike.refl _⟩ h

/-! ## An example -/

/-- The calls of `windowOps` on `windowFile`, made with three handles. -/
def severalOnFile : List Deed :=
  [.call 0 (.write .little .u8 [chan "a"] (vals8 [7, 0]) .contigious),
   .ask 1 (.length (chan "a")),
   .ask 1 (.read .u16 (chan "b") 4 (vals16 [0, 0, 0])),
   .call 2 (.props .big (.group "g".toList) [("n".toList, .i32 5)]),
   .reopen 1,
   .ask 1 (.property (.group "g".toList) "n".toList),
   .call 1 (.write .big .u16 [chan "c", chan "d"] (vals16 [1, 2, 3, 4]) .interleaved),
   .reopen 2,
   .ask 2 (.read .u16 (chan "d") 0 (vals16 [0, 0, 0])),
   .call 2 (.write .little .u16 [chan "b"] (vals16 [16, 17]) .contigious),
   .ask 1 (.length (chan "b")),
   .ask 2 (.length (chan "b")),
   .reopen 0,
   .ask 0 .groups,
   .ask 0 (.read .u16 (chan "b") 4 (vals16 [0, 0, 0, 0]))]

/-- The example meets the hypotheses. -/
theorem severalOnFile_orderly : OrderlyOn anyAlloc (windowFile.map FileSegment.segment) windowOpen
    (storeIn windowTypes windowOpen.bytes (windowFile.map FileSegment.segment)) windowLast [] (fun _ => True) severalOnFile := by
  have hs : ∀ k, SoundOn anyAlloc windowOpen (storeIn windowTypes windowOpen.bytes (windowFile.map FileSegment.segment)) windowLast
      (windowOps.take k) := fun k =>
    SoundOn.left (b := windowOps.drop k) (by rw [List.take_append_drop]; exact windowOps_sound)
  have hl := windowProgram_proper.lists (.ask .groups) (by unfold windowProgram; simp) trivial
  refine ⟨fun _ => ⟨hs 1, fun _ => trivial, trivial, trivial, ?_⟩, fun h => absurd h (by decide +kernel)⟩
  refine ⟨fun _ => ⟨hs 2, fun h => absurd h id, trivial, ?_⟩, fun h => absurd h (by decide +kernel)⟩
  refine ⟨fun _ => ⟨hs 3, fun _ => Or.inr rfl, trivial, ?_⟩, fun h => absurd h (by decide +kernel)⟩
  exact ⟨fun _ => ⟨hs 4, fun _ => Or.inr rfl, trivial, trivial, hl, trivial, trivial⟩, fun h => absurd h (by decide +kernel)⟩

/-- Its replies. Handle 1 sees the file as it was when it was opened, until it is opened again. -/
theorem severalOnFile_replies :
    Existing anyAlloc windowFile windowOpen windowTypes windowLast ∧ windowOpen.bytes.length < 2 ^ 63 ∧
    (deedReplies anyAlloc (Shared.opened windowOpen) severalOnFile).map (·.2) =
      [.ok .done, .ok (.length (some 6)), .ok (.samples .u16 (vals16 [14, 15, 0])), .ok .done, .ok .done, .ok (.value (some (.i32 5))),
       .ok .done, .ok .done, .ok (.samples .u16 (vals16 [2, 4, 0])), .ok .done, .ok (.length (some 6)), .ok (.length (some 8)), .ok .done,
       .ok (.groups ["g".toList]), .ok (.samples .u16 (vals16 [14, 15, 16, 17]))] := by
  refine ⟨windowFile_existing, by decide +kernel, ?_⟩
  decide +kernel

end Tedium
