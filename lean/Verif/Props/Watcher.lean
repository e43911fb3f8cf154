import Verif.Proofs.Watcher
import Verif.Props.Crashes

/-!
# A program that watches a file asks a store (C92)
-/

namespace Tedium
open SegSpec WriteSpec Library

/-- **C92, partial.** One program makes the calls `ops` on a new file, and its bytes arrive in the file in pieces of any size, at any
    moments, also during calls of the other program. The other program, which had opened the file when it was empty, asks questions and
    opens the file again, in any order and number. Its replies are those of stores of the first calls, of more and more of
    them (`Views`). The limits are those of C88, and the stream does not fail. -/
theorem watcher_store_partial (al : Alloc) (hal : Generous al) {ops : List Op} (h : Sound al ops) (capacity : Nat)
    (glances : List Glance) (hq : ∀ q, Glance.ask q ∈ glances → Askable ops q) {g : Growing} (hshow : g.Shows al ops)
    (hr : g.Reliable) : Views al ops 0 (glimpses al capacity Index.new g glances) :=
  views_from hal h capacity glances 0 Index.new g hq
    ⟨hshow, hr, Or.inl ⟨capacity, ⟨⟨[], 0, []⟩, []⟩, rfl⟩, rfl, Nat.zero_le _, Or.inl (Nat.zero_le _)⟩

/-- C92, for any file and index. A read of samples that does not fail with `UnexpectedEof` is final: whatever is appended to the file,
    the same read gives the same, be it samples or an error. -/
theorem read_outcome_final (al : Alloc) (ix : Index) (bytes more : Bytes) (q : Query) (hq : q.Reads)
    (h : q.run al ⟨ix, bytes⟩ ≠ R.err (.ioError .unexpectedEof)) : q.run al ⟨ix, bytes ++ more⟩ = q.run al ⟨ix, bytes⟩ :=
  ((read_of_part (List.prefix_append bytes more) q hq).resolve_left h).symm

/-! ## An example -/

/-- The calls of `reopenOps`, when 247 bytes have arrived, three of the fourth call. Then 13, 17, 10 and the remaining bytes arrive,
    between some of the operations on the stream. -/
def arrivingFile : Growing :=
  let bytes := (session reopenOps).bytes
  ⟨⟨bytes.take 247, 5, [.short 1, .interrupted]⟩,
    List.replicate 20 [] ++ [(bytes.drop 247).take 13] ++ List.replicate 20 [] ++ [(bytes.drop 260).take 17] ++
      List.replicate 27 [] ++ [(bytes.drop 277).take 10] ++ List.replicate 9 [] ++ [bytes.drop 287]⟩

def watchingProgram : List Glance :=
  [.reopen,
   .ask (.length (chan "c")),
   .wait,
   .ask (.read .u8 (chan "c") 1 (vals8 [7, 7, 7, 7])),
   .reopen,
   .ask (.length (chan "c")),
   .wait,
   .reopen,
   .ask (.length (chan "c")),
   .ask (.read .u8 (chan "c") 0 (vals8 [7, 7, 7, 7])),
   .ask (.read .u8 (chan "c") 5 (vals8 [7, 7, 7, 7])),
   .wait,
   .ask (.read .u8 (chan "c") 5 (vals8 [7, 7, 7, 7])),
   .ask (.readMany .u16 [(chan "b", vals16 [0, 0]), (chan "a", vals16 [0, 0])] 1),
   .ask .groups,
   .reopen,
   .ask (.readMany .u16 [(chan "b", vals16 [0, 0]), (chan "a", vals16 [0, 0])] 1)]

/-- The example meets the hypotheses. -/
theorem watchingProgram_askable : Generous anyAlloc ∧ Sound anyAlloc reopenOps ∧ arrivingFile.Shows anyAlloc reopenOps ∧
    arrivingFile.Reliable ∧ ∀ q, Glance.ask q ∈ watchingProgram → Askable reopenOps q := by
  refine ⟨fun _ => rfl, reopenOps_sound, ?_, ?_, ?_⟩
  · exact show arrivingFile.contents ++ arrivingFile.growth.flatten = (session reopenOps).bytes by decide +kernel
  · intro o ho
    have : o = .short 1 ∨ o = .interrupted := by simpa [arrivingFile] using ho
    rcases this with rfl | rfl <;> rfl
  · intro q hq
    unfold watchingProgram at hq
    simp only [List.mem_cons, List.not_mem_nil, or_false, reduceCtorEq, false_or, Glance.ask.injEq] at hq
    have hm : Askable reopenOps (.readMany .u16 [(chan "b", vals16 [0, 0]), (chan "a", vals16 [0, 0])] 1) :=
      exampleProgram_proper.together (exampleProgram.take 12) _ _ _ (exampleProgram.drop 13) rfl
    have hg : Askable reopenOps .groups := fun op hop =>
      exampleProgram_proper.lists (.ask .groups) (by unfold exampleProgram; simp) trivial op hop
    rcases hq with rfl | rfl | rfl | rfl | rfl | rfl | rfl | rfl | rfl | rfl
    all_goals first | exact hm | exact hg | trivial

/-- The reply to step `n`, and the number of bytes in the file then. -/
def repliedTo (n : Nat) : Option (R Reply × Nat) :=
  (glimpses anyAlloc 64 Index.new arrivingFile watchingProgram)[n]?.map (·.2)

/-- Its replies, and the number of bytes in the file. Three calls are seen first. The file cannot be opened when it ends in the header of the
    fourth call. Later the fourth call is found, and its last value is missing until it arrives. The fifth call is found
    when the file is opened again. -/
theorem watchingProgram_replies :
    repliedTo 0 = some (.ok .done, 247) ∧
    repliedTo 1 = some (.ok (.length (some 3)), 247) ∧
    repliedTo 3 = some (.ok (.samples .u8 (vals8 [2, 3, 7, 7])), 260) ∧
    repliedTo 4 = some (R.err (.ioError .unexpectedEof), 260) ∧
    repliedTo 5 = some (.ok (.length (some 3)), 260) ∧
    repliedTo 7 = some (.ok .done, 277) ∧
    repliedTo 8 = some (.ok (.length (some 9)), 277) ∧
    repliedTo 9 = some (.ok (.samples .u8 (vals8 [1, 2, 3, 0])), 277) ∧
    repliedTo 10 = some (R.err (.ioError .unexpectedEof), 277) ∧
    repliedTo 12 = some (.ok (.samples .u8 (vals8 [0, 0, 8, 9])), 287) ∧
    repliedTo 13 = some (.ok (.samplesMany .u16 [vals16 [4, 0], vals16 [2, 0]]), 287) ∧
    repliedTo 15 = some (.ok .done, 386) ∧
    repliedTo 16 = some (.ok (.samplesMany .u16 [vals16 [4, 14], vals16 [2, 13]]), 386) := by
  refine ⟨?_, ?_, ?_, ?_, ?_, ?_, ?_, ?_, ?_, ?_, ?_, ?_, ?_⟩ <;> decide +kernel

/-- What opening finds at these sizes. -/
theorem found_example :
    found anyAlloc reopenOps 247 3 = some 3 ∧ found anyAlloc reopenOps 260 3 = none ∧ found anyAlloc reopenOps 277 3 = some 4 ∧
    found anyAlloc reopenOps 386 5 = some 5 := by
  decide +kernel

/-- C92 is false without the limits, as C32 is: when a program repeats the list of channels, the one that watches finds nothing,
    although both calls are complete in the file. -/
theorem watcher_store_counterexample :
    let ops := [writeU16 ["a"] [1, 2], writeU16 ["a"] [3, 4]]
    let g : Growing := ⟨⟨(session ops).bytes, 0, []⟩, []⟩
    allOk ops = true ∧ g.Shows anyAlloc ops ∧ g.Reliable ∧
    ((glimpses anyAlloc 8192 Index.new g [.reopen, .ask (.length (chan "a"))]).map (·.2.1))
      = [R.err (.ioError .unexpectedEof), .ok (.length none)] ∧
    ¬ Views anyAlloc ops 0 (glimpses anyAlloc 8192 Index.new g [.reopen, .ask (.length (chan "a"))]) := by
  intro ops g
  have hb : (g.buildIndex anyAlloc 8192).1 = R.err (.ioError .unexpectedEof) ∧
      (g.buildIndex anyAlloc 8192).2.contents.length = g.contents.length := by decide +kernel
  refine ⟨by decide +kernel, List.append_nil _, nofun, by decide +kernel, ?_⟩
  unfold glimpses Glance.run
  dsimp only
  generalize g.buildIndex anyAlloc 8192 = x at hb
  obtain ⟨r, g'⟩ := x
  obtain ⟨rfl, hn⟩ := hb
  rintro ⟨k, hk, hiff, h⟩
  dsimp only at hn hiff h
  rw [hn] at hiff h
  have h2 : 2 ≤ k := (hiff 2 (Nat.le_refl _)).mp (Nat.le_refl _)
  obtain rfl : k = 2 := Nat.le_antisymm hk h2
  have hf : found anyAlloc ops g.contents.length 2 = some 2 := rfl
  rw [hf] at h
  cases h.1

end Tedium
