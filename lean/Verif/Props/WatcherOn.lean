import Verif.Proofs.WatcherOn
import Verif.Props.Resumed
import Verif.Props.Watcher

/-!
# A program that watches a file which had content before asks a store (C92)
-/

namespace Tedium
open SegSpec WriteSpec Library

theorem obtained_opened {al : Alloc} {f : Bytes} {t : TdmsFile} (h : TdmsFile.new al f = .ok t) (hsz : f.length < 2 ^ 64) : Obtained al t.index := by
  obtain ⟨r, g', h1, h2, _, h4⟩ := open_while_growing al 0 ⟨⟨f, 0, []⟩, []⟩ hsz nofun
  refine Or.inl ⟨0, _, (congrArg Prod.fst h1).trans ?_⟩
  obtain ⟨now, h5, h6⟩ := h2
  obtain ⟨rfl, _⟩ := List.append_eq_nil_iff.mp h5.symm
  have hc : g'.contents = f := h6.trans (List.append_nil _)
  rw [h4, hc]
  unfold TdmsFile.new at h
  cases hb : Tedium.buildIndex al f with
  | error e => rw [hb] at h; cases h
  | ok ix => rw [hb] at h; cases h; rfl

/-- **C92, on files that exist, partial.** A file is as in C90, whoever wrote it. One program makes the calls `ops` on it, and their bytes
    arrive in the file in pieces of any size, at any moments, also during calls of the other program. The other program, which had opened
    the file before, asks questions and opens the file again, in any order and number. Its replies are those of the store that the
    segments of the file describe, after the first calls, and after more and more of them (`ViewsOn`). Nothing that was in the file at the
    beginning is ever missing. The limits are those of C90, and the stream does not fail. -/
theorem watcher_existing_partial (al : Alloc) {fs : List FileSegment} {t : TdmsFile} {ty : Text → STy} {last : Last}
    (he : Existing al fs t ty last) {ops : List Op}
    (h : SoundOn al t (storeIn ty t.bytes (fs.map FileSegment.segment)) last ops) (capacity : Nat) (glances : List Glance)
    (hq : ∀ q, Glance.ask q ∈ glances →
      AskableOn (fs.map FileSegment.segment) (storeIn ty t.bytes (fs.map FileSegment.segment)) ops q)
    {g : Growing} (hshow : ShowsOn al t ops g) (hr : g.Reliable) :
    ViewsOn al t (storeIn ty t.bytes (fs.map FileSegment.segment)) last ops 0 (glimpses al capacity t.index g glances) := by
  have hb : t.bytes = fs.flatMap FileSegment.encode := (Tedium.Holds.of_opened al he.generous he.fits he.opened).bytes
  have hsz := h.size
  have hle := (runOps_bytes al t ops).length_le
  exact views_from_on he h capacity glances 0 t.index g hq
    ⟨hshow, hr, obtained_opened he.opened (by rw [← hb]; omega), rfl, Nat.zero_le _, Or.inl hshow.1⟩

/-! ## An example -/

/-- The calls of `windowOps` on `windowFile`, when 471 bytes have arrived, two of the fourth call. Then 29, 40 and the last byte
    arrive, between some of the operations on the stream. -/
def arrivingWindow : Growing :=
  let bytes := (runOps anyAlloc windowOpen windowOps).bytes
  ⟨⟨bytes.take 471, 5, [.short 1, .interrupted]⟩,
    List.replicate 29 [] ++ [(bytes.drop 471).take 29] ++ List.replicate 28 [] ++ [(bytes.drop 500).take 40] ++
      List.replicate 34 [] ++ [bytes.drop 540]⟩

def spectator : List Glance :=
  [.ask (.length (chan "b")),
   .ask (.length (chan "c")),
   .reopen,
   .ask (.length (chan "c")),
   .ask (.read .u16 (chan "b") 4 (vals16 [0, 0, 0, 0])),
   .wait,
   .reopen,
   .ask (.length (chan "b")),
   .wait,
   .reopen,
   .ask (.length (chan "b")),
   .ask (.read .u16 (chan "b") 4 (vals16 [0, 0, 0, 0])),
   .ask .groups,
   .wait,
   .ask (.read .u16 (chan "b") 4 (vals16 [0, 0, 0, 0]))]

/-- The example meets the hypotheses. -/
theorem spectator_askable : Existing anyAlloc windowFile windowOpen windowTypes windowLast ∧
    SoundOn anyAlloc windowOpen (storeIn windowTypes windowOpen.bytes (windowFile.map FileSegment.segment)) windowLast windowOps ∧
    ShowsOn anyAlloc windowOpen windowOps arrivingWindow ∧ arrivingWindow.Reliable ∧
    ∀ q, Glance.ask q ∈ spectator →
      AskableOn (windowFile.map FileSegment.segment) (storeIn windowTypes windowOpen.bytes (windowFile.map FileSegment.segment)) windowOps q := by
  refine ⟨windowFile_existing, windowOps_sound, ⟨by decide +kernel, ?_⟩, ?_, ?_⟩
  · decide +kernel
  · intro o ho
    have : o = .short 1 ∨ o = .interrupted := by simpa [arrivingWindow] using ho
    rcases this with rfl | rfl <;> rfl
  · intro q hq
    unfold spectator at hq
    simp only [List.mem_cons, List.not_mem_nil, or_false, reduceCtorEq, false_or, Glance.ask.injEq] at hq
    have hg := windowProgram_proper.lists (.ask .groups) (by unfold windowProgram; simp) trivial
    rcases hq with rfl | rfl | rfl | rfl | rfl | rfl | rfl | rfl | rfl
    all_goals first | exact hg | trivial

/-- The reply to step `n`, and the number of bytes in the file then. -/
def spectatorSaw (n : Nat) : Option (R Reply × Nat) :=
  (glimpses anyAlloc 64 windowOpen.index arrivingWindow spectator)[n]?.map (·.2)

/-- Its replies, and the number of bytes in the file. What was in the file is seen first, and three calls when it is opened again. The file
    cannot be opened when it ends in the header of the fourth call. Later the fourth call is found, and its last value
    is missing until it arrives. -/
theorem spectator_replies :
    spectatorSaw 0 = some (.ok (.length (some 6)), 471) ∧
    spectatorSaw 1 = some (.ok (.length none), 471) ∧
    spectatorSaw 2 = some (.ok .done, 471) ∧
    spectatorSaw 3 = some (.ok (.length (some 2)), 471) ∧
    spectatorSaw 4 = some (.ok (.samples .u16 (vals16 [14, 15, 0, 0])), 471) ∧
    spectatorSaw 6 = some (R.err (.ioError .unexpectedEof), 500) ∧
    spectatorSaw 7 = some (.ok (.length (some 6)), 500) ∧
    spectatorSaw 9 = some (.ok .done, 540) ∧
    spectatorSaw 10 = some (.ok (.length (some 8)), 540) ∧
    spectatorSaw 11 = some (R.err (.ioError .unexpectedEof), 540) ∧
    spectatorSaw 12 = some (.ok (.groups ["g".toList]), 540) ∧
    spectatorSaw 14 = some (.ok (.samples .u16 (vals16 [14, 15, 16, 17])), 541) := by
  refine ⟨?_, ?_, ?_, ?_, ?_, ?_, ?_, ?_, ?_, ?_, ?_, ?_⟩ <;> decide +kernel

end Tedium
