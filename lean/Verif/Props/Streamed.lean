import Verif.Proofs.Streamed
import Verif.Props.Library

/-! # C89: the library is a store over a stream -/

namespace Tedium
open SegSpec WriteSpec Library

/-- **C89** (partial: the limits of C88, on the commands that have an effect, and `Reliable`: writes do not fail, nor does the stream
    while the file is opened again). Run a program on a new file over a stream whose reads are short, interrupted or fail: writer
    sessions with any buffer, over short and interrupted writes, questions, and closing and opening the file again. Then every reply is
    that of the store, or the error of the first operation of the stream that failed, and then the command had no effect. -/
theorem stream_library_is_store_partial (al : Alloc) {split : Bytes → List Bytes} (hs : ∀ b, (split b).flatten = b) (capacity : Nat)
    {d : Device} (hd : d.bytes = []) {h : Handle} (hnew : Handle.new al capacity d = .ok h) (steps : List StreamStep)
    (hrel : ∀ step ∈ steps, step.Reliable)
    (hp : Proper al ⟨Index.new, []⟩ ((streamReplies al split capacity h steps).flatMap effect)) :
    StreamBehaves al Store.empty (streamReplies al split capacity h steps) := by
  refine stream_from (new_course al) hs capacity steps [] h ?_ (opened_startsFit hnew) hrel hp
  obtain ⟨r, d', used, h1, h2, _, h4⟩ := open_through_stream_partial al capacity d (by rw [hd]; decide)
  rw [hd] at h2 h4
  unfold Handle.new at hnew
  rw [h1] at hnew
  have hix : r = .ok Index.new := by
    rcases h4 with ⟨_, h4⟩ | ⟨k, _, h4⟩ | ⟨k, pre, post, last, ix, _, _, hp, hrep, h4⟩
    · exact h4
    · rw [h4] at hnew; cases hnew
    · generalize hps : pre ++ post = segs at hp
      cases hp with
      | done _ =>
        obtain ⟨hp1, _⟩ := List.append_eq_nil_iff.mp hps
        subst hp1
        rw [h4, ← hrep]
        rfl
      | segment hr _ => cases hr
  subst hix
  cases hnew
  show (⟨Index.new, d'.bytes⟩ : TdmsFile) = ⟨Index.new, []⟩
  rw [h2]

/-! ## A program -/

/-- The program of C88: the first session is refused once, as the stream cannot seek; the stream is slow; the samples of `c` are asked
    for while the stream fails. -/
def streamProgram : List StreamStep :=
  [⟨[], .ask (.length (chan "a"))⟩,
   ⟨[.fail 5], .session 16 [] [.op (.write .little .u16 [chan "a"] (vals16 [7]) .contigious)]⟩,
   ⟨[.interrupted], .session 16 [.accept 7, .interrupted, .accept 3]
     [.op (.write .little .u16 [chan "a", chan "b"] (vals16 [1, 2, 3, 4]) .contigious), .sync,
      .op (.write .little .u16 [chan "a", chan "b"] (vals16 [1, 2, 3]) .contigious)]⟩,
   ⟨[.short 0, .interrupted, .short 2, .short 5], .reopen 3⟩,
   ⟨[], .session 0 [.interrupted, .accept 1]
     [.op (.props .big (.group "g".toList) [("n".toList, .i32 5)]), .op (.write .big .u8 [chan "c"] (vals8 [1, 2, 3]) .interleaved)]⟩,
   ⟨[], .ask (.properties (.group "g".toList))⟩,
   ⟨[], .session 1000 [] [.op (.write .little .u8 [chan "c"] (vals8 [0, 0, 0, 0, 8, 9]) .contigious), .sync]⟩,
   ⟨[.short 0, .fail 110], .ask (.read .bool (chan "c") 2 [false, false, false])⟩,
   ⟨[.short 0], .ask (.read .u16 (chan "c") 2 (vals16 [0]))⟩,
   ⟨[], .reopen 0⟩,
   ⟨[], .session 16 [] [.op (.write .big .u16 [chan "a", chan "b"] (vals16 [13, 14]) .interleaved)]⟩,
   ⟨[.short 0, .interrupted, .short 0, .short 1], .ask (.readMany .u16 [(chan "b", vals16 [0, 0]), (chan "a", vals16 [0, 0])] 1)⟩,
   ⟨[], .ask .groups⟩,
   ⟨[], .ask (.channels "g".toList)⟩,
   ⟨[.short 0], .ask (.readMany .u16 [(chan "a", vals16 [0, 0]), (chan "c", vals16 [0, 0])] 0)⟩,
   ⟨[], .ask (.readMany .u16 [(chan "a", vals16 [0, 0]), (chan "c", [])] 0)⟩,
   ⟨[.fail 5], .ask (.readMany .u16 [(chan "c", vals16 [0, 0]), (chan "d", vals16 [0, 0])] 0)⟩,
   ⟨[], .ask (.read .u16 (chan "c") 2 [])⟩]

/-- The replies, on a stream that is empty and stands at its start. -/
def streamTrace : List (StreamStep × StreamReply) := streamReplies anyAlloc byByte 10 ⟨Index.new, ⟨[], 0, []⟩⟩ streamProgram

deriving instance DecidableEq for Op
deriving instance DecidableEq for Query
deriving instance DecidableEq for Command
deriving instance DecidableEq for StreamReply

/-- The hypotheses of C89 hold for it: its effect is that of the program of C88. -/
theorem streamProgram_proper : Handle.new anyAlloc 10 ⟨[], 0, []⟩ = .ok ⟨Index.new, ⟨[], 0, []⟩⟩ ∧
    (∀ step ∈ streamProgram, step.Reliable) ∧ Proper anyAlloc ⟨Index.new, []⟩ (streamTrace.flatMap effect) := by
  refine ⟨?_, ?_, ?_⟩
  · decide +kernel
  · intro step hstep
    have hw : ∀ ws : List WriteOutcome, ws.all (fun o => match o with | .interrupted | .accept (_ + 1) => true | _ => false) = true →
        ∀ o ∈ ws, o = .interrupted ∨ ∃ n, o = .accept (n + 1) := by
      intro ws h o ho
      have := List.all_eq_true.mp h o ho
      match o, this with
      | .interrupted, _ => exact Or.inl rfl
      | .accept (n + 1), _ => exact Or.inr ⟨n, rfl⟩
    have hr : ∀ rs : List ReadOutcome, rs.all (fun o => o.failure.isNone) = true → NoFailure rs := by
      intro rs h o ho
      exact Option.isNone_iff_eq_none.mp (List.all_eq_true.mp h o ho)
    simp only [streamProgram, List.mem_cons, List.not_mem_nil, or_false] at hstep
    rcases hstep with h | h | h | h | h | h | h | h | h | h | h | h | h | h | h | h | h | h <;> subst h <;> first
      | exact trivial
      | exact hw _ rfl
      | exact hr _ rfl
  · rw [show streamTrace.flatMap effect = exampleProgram by decide +kernel]
    exact exampleProgram_proper

/-- What the library replies: the refused session, the slow one with a rejected call, the failing read, the refused types, and the
    samples that are read together. -/
theorem streamProgram_replies :
    (streamTrace[1]?.map (·.2)) = some (.session (R.err (.ioError (.other 5)))) ∧
    (streamTrace[2]?.map (·.2)) = some (.session (.ok [.ok (), .ok (), R.err (.badDataBlockLength 3 2)])) ∧
    (streamTrace[3]?.map (·.2)) = some (.reopen (.ok ())) ∧
    (streamTrace[4]?.map (·.2)) = some (.session (.ok [.ok (), .ok ()])) ∧
    (streamTrace[5]?.map (·.2)) = some (.ask (.ok (.values (some [("n".toList, .i32 5)])))) ∧
    (streamTrace[7]?.map (·.2)) = some (.ask (R.err (.ioError (.other 110)))) ∧
    (streamTrace[8]?.map (·.2)) = some (.ask (R.err (.dataTypeMismatch .u8 .u16))) ∧
    (streamTrace[11]?.map (·.2)) = some (.ask (.ok (.samplesMany .u16 [vals16 [4, 14], vals16 [2, 13]]))) ∧
    (streamTrace[13]?.map (·.2)) = some (.ask (.ok (.channels [chan "a", chan "b", chan "c"]))) := by
  refine ⟨?_, ?_, ?_, ?_, ?_, ?_, ?_, ?_, ?_⟩ <;> decide +kernel

/-- Not over all streams: two tables, then the file is opened again on a stream that cannot seek to the second segment; it opens
    without an error and without that segment. -/
def seekProgram : List StreamStep :=
  [⟨[], .session 16 [] [.op (.write .little .u16 [chan "a"] (vals16 [1, 2]) .contigious),
     .op (.write .little .u16 [chan "a"] (vals16 [3, 4]) .contigious)]⟩,
   ⟨[.short 8191, .short 8191, .short 8191, .short 8191, .fail 5], .reopen 0⟩,
   ⟨[], .ask (.length (chan "a"))⟩]

theorem streamReplies_zip (al : Alloc) (split : Bytes → List Bytes) (capacity : Nat) : ∀ (steps : List StreamStep) (h : Handle),
    streamReplies al split capacity h steps = steps.zip ((streamReplies al split capacity h steps).map (·.2))
  | [], _ => rfl
  | step :: steps, h => congrArg ((step, (step.run al split capacity h).1) :: ·)
    (streamReplies_zip al split capacity steps (step.run al split capacity h).2)

/-- **C89, counterexample.** All writes succeed, and the samples of the second table are gone. -/
theorem stream_library_is_store_counterexample :
    ¬ StreamBehaves anyAlloc Store.empty (streamReplies anyAlloc byByte 8192 ⟨Index.new, ⟨[], 0, []⟩⟩ seekProgram) := by
  intro h
  have h0 : ((streamReplies anyAlloc byByte 8192 ⟨Index.new, ⟨[], 0, []⟩⟩ seekProgram).map (·.2))
      = [.session (.ok [.ok (), .ok ()]), .reopen (.ok ()), .ask (.ok (.length (some 2)))] := by decide +kernel
  have h1 : streamReplies anyAlloc byByte 8192 ⟨Index.new, ⟨[], 0, []⟩⟩ seekProgram
      = seekProgram.zip [.session (.ok [.ok (), .ok ()]), .reopen (.ok ()), .ask (.ok (.length (some 2)))] :=
    (streamReplies_zip _ _ _ _ _).trans (congrArg (seekProgram.zip ·) h0)
  rw [h1] at h
  rcases h with ⟨k, _, h, _⟩ | ⟨_, _, ⟨⟨k, _, h⟩ | h, _⟩⟩
  · cases h
  · cases h
  · have hobj : (Store.empty.session [.op (.write .little .u16 [chan "a"] (vals16 [1, 2]) .contigious),
        .op (.write .little .u16 [chan "a"] (vals16 [3, 4]) .contigious)]).2.objects (chan "a").path :=
      Or.inr ⟨_, List.mem_cons_self, rfl⟩
    have h2 := h.1 hobj
    have h3 : (Store.empty.session [.op (.write .little .u16 [chan "a"] (vals16 [1, 2]) .contigious),
        .op (.write .little .u16 [chan "a"] (vals16 [3, 4]) .contigious)]).2.count (chan "a").path = 4 := by decide +kernel
    have h4 : some 2 = some ((Store.empty.session [.op (.write .little .u16 [chan "a"] (vals16 [1, 2]) .contigious),
        .op (.write .little .u16 [chan "a"] (vals16 [3, 4]) .contigious)]).2.count (chan "a").path) := by
      injection h2 with h2
      injection h2
    rw [h3] at h4
    cases h4

end Tedium
