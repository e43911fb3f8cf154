import Verif.Proofs.Existing
import Verif.Props.Streamed

/-! # C90: the library is a store, on files that exist -/

namespace Tedium
open SegSpec WriteSpec Library

/-- **C90** (partial: the file is as in `Existing`, and the program as in `ProperOn`, the limits of C45, C32, C16, C17 and C37). Open a
    file, whoever wrote it, and run a program on it: calls that write, among them calls that are rejected, questions, and closing and
    opening the file again, in any order. Then every reply is that of a store that holds at the beginning what the segments of the
    file say. -/
theorem existing_file_is_store_partial (al : Alloc) {fs : List FileSegment} {t : TdmsFile} {ty : Text → STy} {last : Last}
    (he : Existing al fs t ty last) (cmds : List Command)
    (h : ProperOn al (fs.map FileSegment.segment) t (storeIn ty t.bytes (fs.map FileSegment.segment)) last cmds) :
    Behaves al (storeIn ty t.bytes (fs.map FileSegment.segment)) (replies al t cmds) :=
  behaves_on he cmds [] h

/-- The programs on an opened file as a course. -/
theorem file_course {al : Alloc} {fs : List FileSegment} {t : TdmsFile} {ty : Text → STy} {last : Last}
    (he : Existing al fs t ty last) :
    Course al (ProperFile al fs t ty last) (fun past => runOps al t (calls past)) (storeAfter ty t fs) where
  sessions _ := (Session.opened he.opened).runOps _
  size _ _ h := properOn_size h
  command := command_on he

/-- **C90, over a stream** (partial: as above, and `Reliable` as in C89). The same over a stream whose reads are short, interrupted or
    fail and that stands anywhere: every reply is that of the store, or the error of the first operation of the stream that failed,
    and then the command had no effect. -/
theorem existing_stream_is_store_partial (al : Alloc) {split : Bytes → List Bytes} (hs : ∀ b, (split b).flatten = b) (capacity : Nat)
    {fs : List FileSegment} {t : TdmsFile} {ty : Text → STy} {last : Last} (he : Existing al fs t ty last) {d : Device}
    (hd : d.bytes = fs.flatMap FileSegment.encode) (hn : NoFailure d.script) {h : Handle}
    (hnew : Handle.new al capacity d = .ok h) (steps : List StreamStep) (hrel : ∀ step ∈ steps, step.Reliable)
    (hp : ProperOn al (fs.map FileSegment.segment) t (storeIn ty t.bytes (fs.map FileSegment.segment)) last
      ((streamReplies al split capacity h steps).flatMap effect)) :
    StreamBehaves al (storeIn ty t.bytes (fs.map FileSegment.segment)) (streamReplies al split capacity h steps) := by
  have hh := Tedium.Holds.of_opened al he.generous he.fits he.opened
  have hsz : t.bytes.length < 2 ^ 63 := (file_course he).size [] _ hp
  obtain ⟨h', n1, n2⟩ := new_reliable al capacity d (by rw [hd, ← hh.bytes]; omega) hn (t := t) (by rw [hd]; exact he.opened)
  rw [hnew] at n1
  cases n1
  exact stream_from (file_course he) hs capacity steps [] h n2 (opened_startsFit hnew) hrel hp

/-- A new file is such a file, and holds nothing. -/
theorem existing_new (al : Alloc) (hal : Generous al) (ty : Text → STy) :
    Existing al [] ⟨Index.new, []⟩ ty Last.none ∧ storeIn ty [] [] = Store.empty := by
  refine ⟨⟨hal, nofun, rfl, nofun, nofun, rfl, nofun⟩, ?_⟩
  have h1 : (storeIn ty [] []).objects = fun _ => False := by
    funext p
    refine propext ⟨fun h => ?_, False.elim⟩
    obtain ⟨_, hm, _⟩ := h
    cases hm
  have h2 : (storeIn ty [] []).value = fun _ _ => none := rfl
  have h3 : (storeIn ty [] []).content = fun _ => none := rfl
  show Store.mk _ _ _ = _
  unfold Store.empty
  rw [← h1, ← h2, ← h3]
  rfl

/-! ## A program on a file -/

/-- `windowFile`, open. -/
def windowOpen : TdmsFile :=
  match TdmsFile.new anyAlloc (fileOf windowFile) with
  | .ok t => t
  | .error _ => ⟨Index.new, []⟩

/-- The types of its channels. -/
def windowTypes (p : Text) : STy := if p = (chan "a").path then .u8 else .u16

def windowLast : Last := ⟨["b", "a"].map (fun c => (chan c).path), none⟩

theorem windowFile_fits : ∀ s ∈ windowFile, s.Fits := by
  intro s hs
  have hobj : ∀ s ∈ windowFile, ∀ o ∈ s.metaData.objects, o.Fits := by
    intro s hs o ho
    simp only [windowFile, dataSegment, List.mem_cons, List.not_mem_nil, or_false] at hs
    rcases hs with rfl | rfl
    all_goals
      simp only [List.map_cons, List.map_nil, List.mem_cons, List.not_mem_nil, or_false] at ho
      rcases ho with rfl | rfl
      all_goals exact ⟨by unfold Text.Fits; decide +kernel, by constructor <;> decide, by decide, by simp⟩
  have h := hs
  simp only [windowFile, List.mem_cons, List.not_mem_nil, or_false] at h
  rcases h with rfl | rfl
  all_goals exact ⟨rfl, by decide, by decide +kernel, by decide +kernel, ⟨by decide, hobj _ hs⟩⟩

/-- It is as C90 wants it. -/
theorem windowFile_existing : Existing anyAlloc windowFile windowOpen windowTypes windowLast := by
  have hopen : TdmsFile.new anyAlloc (fileOf windowFile) = .ok windowOpen := by
    obtain ⟨t, ht⟩ := exists_ok (x := TdmsFile.new anyAlloc (fileOf windowFile)) (by decide +kernel)
    unfold windowOpen
    rw [ht]
  have hb : windowOpen.bytes = fileOf windowFile :=
    (Tedium.Holds.of_opened anyAlloc (fun _ => rfl) windowFile_fits hopen).bytes
  refine ⟨fun _ => rfl, windowFile_fits, hopen, ?_, ?_, by decide +kernel, nofun⟩
  · rw [hb]
    intro pre hpre
    have h : ∀ pre ∈ dataPrefixes (windowFile.map FileSegment.segment),
        ((∃ b ∈ blockOf pre, b.start + b.length ≤ (fileOf windowFile).length) ∧
        (∀ m ∈ activeLayouts pre, Format.ordinary m.dataType = true ∧ m.totalSizeBytes = none) ∧
        (∀ m ∈ activeLayouts pre, 0 < m.numberOfValues ∧
          ∀ m' ∈ activeLayouts pre, m.numberOfValues = m'.numberOfValues) ∧
        ((∃ s ∈ pre.getLast?, s.toc.dataIsInterleaved = true) → chunkBytes pre ∣ rawBytes pre)) := by decide +kernel
    obtain ⟨h1, h2, h3, h4⟩ := h pre hpre
    exact ⟨h1, h2, h3, h4⟩
  · have h : ∀ pre ∈ dataPrefixes (windowFile.map FileSegment.segment), ∀ p ∈ active pre,
        Format.ordinaryTy (windowTypes p) = true ∧ ∀ m ∈ layoutOf (entries pre) p,
          m.dataType = ((windowTypes p).storage anyAlloc).natural := by decide +kernel
    exact h

/-- A program for it: questions about what is there, more samples of `a` and of `b`, new channels, a rejected call, a property, and the
    file opened again. -/
def windowProgram : List Command :=
  [.ask (.length (chan "b")),
   .ask (.readMany .u16 [(chan "b", vals16 [0, 0, 0])] 2),
   .call (.write .little .u8 [chan "a"] (vals8 [7, 0]) .contigious),
   .call (.write .little .u16 [chan "b", chan "c"] (vals16 [1, 2, 3]) .contigious),
   .ask (.read .bool (chan "a") 5 [false, false, true, true]),
   .reopen,
   .call (.props .big (.group "g".toList) [("n".toList, .i32 5)]),
   .call (.write .big .u16 [chan "c", chan "d"] (vals16 [1, 2, 3, 4]) .interleaved),
   .call (.write .little .u16 [chan "b"] (vals16 [16, 17]) .contigious),
   .reopen,
   .ask (.read .u8 (chan "b") 7 (vals8 [0])),
   .ask (.readMany .u16 [(chan "d", vals16 [0, 0]), (chan "b", vals16 [0, 0, 0, 0, 0, 0]), (chan "c", vals16 [0, 0])] 1),
   .ask .groups,
   .ask (.channels "g".toList)]

def windowOps : List Op :=
  [.write .little .u8 [chan "a"] (vals8 [7, 0]) .contigious, .props .big (.group "g".toList) [("n".toList, .i32 5)],
   .write .big .u16 [chan "c", chan "d"] (vals16 [1, 2, 3, 4]) .interleaved, .write .little .u16 [chan "b"] (vals16 [16, 17]) .contigious]

/-- The hypotheses of C90 hold for it. -/
theorem windowProgram_proper : ProperOn anyAlloc (windowFile.map FileSegment.segment) windowOpen
    (storeIn windowTypes windowOpen.bytes (windowFile.map FileSegment.segment)) windowLast windowProgram := by
  have hcalls : calls windowProgram = windowOps := rfl
  have key : ∀ op ∈ windowOps, ∀ p, Names p op → typeOf op = some (windowTypes p) := by
    intro op hop p hn
    simp only [windowOps, List.mem_cons, List.not_mem_nil, or_false] at hop
    rcases hop with h | h | h | h <;> subst h <;> first
      | exact absurd hn id
      | (obtain ⟨c, hc, hp⟩ := hn
         simp only [List.mem_cons, List.not_mem_nil, or_false] at hc
         first
          | (rcases hc with hc | hc <;> subst hc <;> subst hp <;> decide +kernel)
          | (subst hc; subst hp; decide +kernel))
  have hch : ∀ n : String, '/' ∉ n.toList → ∃ o : Obj, o.SlashFree ∧ o.toPath.path = (chan n).path := fun n hn =>
    ⟨.channel "g".toList n.toList, ⟨by decide +kernel, hn⟩, rfl⟩
  constructor
  · rw [hcalls]
    refine ⟨⟨⟨rfl, ?_, ?_, ?_, ?_⟩, ?_⟩, trivial, ⟨⟨rfl, ?_, ?_, ?_, ?_⟩, ?_⟩, ⟨⟨rfl, ?_, ?_, ?_, ?_⟩, ?_⟩, trivial⟩
    all_goals first
      | decide +kernel
      | exact Or.inl (by decide +kernel)
  · rw [hcalls]
    intro op hop op' hop' p hn hn'
    rw [key op hop p hn, key op' hop' p hn']
  · rw [hcalls]
    intro op hop p hn c hc
    rw [key op hop p hn]
    unfold storeIn at hc
    dsimp only at hc
    split at hc
    · cases hc; rfl
    · cases hc
  · rw [hcalls]; decide +kernel
  · intro _
    rw [hcalls]
    refine ⟨?_, ?_⟩
    · intro op hop
      simp only [windowOps, List.mem_cons, List.not_mem_nil, or_false] at hop
      have hfits : ∀ n : String, (utf8Enc (chan n).path).length < 2 ^ 32 → Text.Fits (chan n).path := fun _ h => h
      rcases hop with h | h | h | h <;> subst h
      · refine ⟨⟨by decide, by decide⟩, by decide, fun c hc => ?_⟩
        rw [List.mem_singleton.mp hc]; exact hfits _ (by decide +kernel)
      · refine ⟨show (utf8Enc (PropertyPath.group "g".toList).path).length < 2 ^ 32 by decide +kernel, by decide, fun p hp => ?_⟩
        rw [List.mem_singleton.mp hp]
        exact ⟨show (utf8Enc "n".toList).length < 2 ^ 32 by decide +kernel, trivial⟩
      · refine ⟨⟨by decide, by decide⟩, by decide, fun c hc => ?_⟩
        simp only [List.mem_cons, List.not_mem_nil, or_false] at hc
        rcases hc with hc | hc <;> subst hc <;> exact hfits _ (by decide +kernel)
      · refine ⟨⟨by decide, by decide⟩, by decide, fun c hc => ?_⟩
        rw [List.mem_singleton.mp hc]; exact hfits _ (by decide +kernel)
    · exact ⟨Or.inl (by decide +kernel), Or.inl (by decide +kernel), Or.inl (by decide +kernel), trivial⟩
  · intro _ _ _
    rw [hcalls]
    refine ⟨?_, ?_⟩
    · intro op hop
      simp only [windowOps, List.mem_cons, List.not_mem_nil, or_false] at hop
      rcases hop with h | h | h | h <;> subst h
      · intro c hc
        rw [List.mem_singleton.mp hc]; exact hch _ (by decide +kernel)
      · exact ⟨.group "g".toList, show '/' ∉ "g".toList by decide +kernel, rfl⟩
      · intro c hc
        simp only [List.mem_cons, List.not_mem_nil, or_false] at hc
        rcases hc with hc | hc <;> subst hc <;> exact hch _ (by decide +kernel)
      · intro c hc
        rw [List.mem_singleton.mp hc]; exact hch _ (by decide +kernel)
    · rintro p ⟨o, ho, hop⟩
      have hl : ∀ o ∈ entries (windowFile.map FileSegment.segment), o.path = (chan "a").path ∨ o.path = (chan "b").path := by
        decide +kernel
      rw [← hop]
      rcases hl o ho with h | h <;> rw [h] <;> exact hch _ (by decide +kernel)
  · intro pre ty cs start post h
    obtain ⟨h1, h2⟩ := split_take h
    generalize pre.length = k at h1 h2
    have hk : k = 1 ∨ k = 11 := by
      match k, h1 with
      | 0, h1 | 2, h1 | 3, h1 | 4, h1 | 5, h1 | 6, h1 | 7, h1 | 8, h1 | 9, h1 | 10, h1 | 12, h1 | 13, h1 => cases h1
      | 1, _ => exact Or.inl rfl
      | 11, _ => exact Or.inr rfl
      | k + 14, h1 => cases h1
    rcases hk with hk | hk <;> subst hk <;> subst h2 <;> cases h1
    · refine ⟨rfl, by decide +kernel, ?_, ?_, ?_⟩
      · intro c hc d hd _
        rw [List.mem_singleton.mp hc, List.mem_singleton.mp hd]
      · intro c hc d hd pre op post _ _ _
        rw [List.mem_singleton.mp hc, List.mem_singleton.mp hd]
      · intro c hc d hd pre _ _ _
        rw [List.mem_singleton.mp hc, List.mem_singleton.mp hd]
        exact ⟨rfl, rfl⟩
    · have hpast : calls (windowProgram.take 11) = windowOps := rfl
      rw [hpast]
      have happart : ∀ op ∈ windowOps, Names (chan "b").path op → ¬ Names (chan "c").path op ∧ ¬ Names (chan "d").path op := by
        intro op hop
        simp only [windowOps, List.mem_cons, List.not_mem_nil, or_false] at hop
        rcases hop with h | h | h | h <;> subst h <;> first
          | exact fun hn => absurd hn id
          | (rw [names_iff, names_iff, names_iff]; decide +kernel)
      have hcount : ∀ k ≤ 4, ((windowOps.take k).foldl Store.after
          (storeIn windowTypes windowOpen.bytes (windowFile.map FileSegment.segment))).count (chan "c").path
          = ((windowOps.take k).foldl Store.after
          (storeIn windowTypes windowOpen.bytes (windowFile.map FileSegment.segment))).count (chan "d").path := by
        decide +kernel
      have hlevel : ∀ pre op post, windowOps = pre ++ op :: post → (pre.foldl Store.after
          (storeIn windowTypes windowOpen.bytes (windowFile.map FileSegment.segment))).count (chan "c").path
          = (pre.foldl Store.after
          (storeIn windowTypes windowOpen.bytes (windowFile.map FileSegment.segment))).count (chan "d").path := by
        intro pre op post hs
        obtain ⟨_, hp⟩ := split_take hs
        rw [hp]
        refine hcount _ ?_
        have := congrArg List.length hs
        rw [List.length_append, List.length_cons] at this
        have h5 : windowOps.length = 4 := rfl
        omega
      have hnot : ∀ pre ∈ dataPrefixes (windowFile.map FileSegment.segment),
          (chan "c").path ∉ active pre ∧ (chan "d").path ∉ active pre := by decide +kernel
      refine ⟨rfl, by decide +kernel, ?_, ?_, ?_⟩
      · rintro c hc d hd ⟨op, hop, hn1, hn2⟩
        simp only [List.mem_cons, List.not_mem_nil, or_false] at hc hd
        rcases hc with hc | hc | hc <;> rcases hd with hd | hd | hd <;> subst hc <;> subst hd <;> first
          | rfl
          | exact absurd hn2 (happart op hop hn1).1
          | exact absurd hn2 (happart op hop hn1).2
          | exact absurd hn1 (happart op hop hn2).1
          | exact absurd hn1 (happart op hop hn2).2
      · intro c hc d hd pre op post hs hn1 hn2
        have hop : op ∈ windowOps := by rw [hs]; exact List.mem_append_right _ List.mem_cons_self
        simp only [List.mem_cons, List.not_mem_nil, or_false] at hc hd
        rcases hc with hc | hc | hc <;> rcases hd with hd | hd | hd <;> subst hc <;> subst hd <;> first
          | rfl
          | exact hlevel pre op post hs
          | exact (hlevel pre op post hs).symm
          | exact absurd hn2 (happart op hop hn1).1
          | exact absurd hn2 (happart op hop hn1).2
          | exact absurd hn1 (happart op hop hn2).1
          | exact absurd hn1 (happart op hop hn2).2
      · intro c hc d hd pre hpre hc1 hd1
        simp only [List.mem_cons, List.not_mem_nil, or_false] at hc hd
        rcases hc with hc | hc | hc <;> rcases hd with hd | hd | hd <;> subst hc <;> subst hd <;> first
          | exact ⟨rfl, rfl⟩
          | exact absurd hc1 (hnot pre hpre).1
          | exact absurd hc1 (hnot pre hpre).2
          | exact absurd hd1 (hnot pre hpre).1
          | exact absurd hd1 (hnot pre hpre).2

/-- What the library replies to the questions of the program. -/
theorem windowProgram_replies :
    ((replies anyAlloc windowOpen windowProgram)[0]?.map (·.2)) = some (.ok (.length (some 6))) ∧
    ((replies anyAlloc windowOpen windowProgram)[1]?.map (·.2)) = some (.ok (.samplesMany .u16 [vals16 [12, 13, 14]])) ∧
    ((replies anyAlloc windowOpen windowProgram)[3]?.map (·.2)) = some (R.err (.badDataBlockLength 3 2)) ∧
    ((replies anyAlloc windowOpen windowProgram)[4]?.map (·.2)) = some (.ok (.samples .bool [true, true, false, true])) ∧
    ((replies anyAlloc windowOpen windowProgram)[5]?.map (·.2)) = some (.ok .done) ∧
    ((replies anyAlloc windowOpen windowProgram)[10]?.map (·.2)) = some (R.err (.dataTypeMismatch .u16 .u8)) ∧
    ((replies anyAlloc windowOpen windowProgram)[11]?.map (·.2))
      = some (.ok (.samplesMany .u16 [vals16 [4, 0], vals16 [11, 12, 13, 14, 15, 16], vals16 [3, 0]])) ∧
    ((replies anyAlloc windowOpen windowProgram)[13]?.map (·.2)) = some (.ok (.channels [chan "a", chan "b", chan "c", chan "d"])) := by
  refine ⟨?_, ?_, ?_, ?_, ?_, ?_, ?_, ?_⟩ <;> decide +kernel

/-- The program over a stream: the file is opened on a slow stream that stands in the middle; the first session is refused once; the
    stream fails while `b` is read. -/
def windowSteps : List StreamStep :=
  [⟨[], .ask (.length (chan "b"))⟩,
   ⟨[.fail 5], .session 16 [] [.op (.write .little .u8 [chan "a"] (vals8 [7, 0]) .contigious)]⟩,
   ⟨[.short 0, .interrupted, .fail 9], .ask (.readMany .u16 [(chan "b", vals16 [0, 0, 0])] 2)⟩,
   ⟨[.interrupted], .session 16 [.accept 7, .interrupted, .accept 3]
     [.op (.write .little .u8 [chan "a"] (vals8 [7, 0]) .contigious), .sync,
      .op (.write .little .u16 [chan "b", chan "c"] (vals16 [1, 2, 3]) .contigious)]⟩,
   ⟨[.short 0], .ask (.read .bool (chan "a") 5 [false, false, true, true])⟩,
   ⟨[.short 0, .interrupted, .short 2, .short 5], .reopen 3⟩,
   ⟨[], .session 0 [.interrupted, .accept 1]
     [.op (.props .big (.group "g".toList) [("n".toList, .i32 5)]),
      .op (.write .big .u16 [chan "c", chan "d"] (vals16 [1, 2, 3, 4]) .interleaved),
      .op (.write .little .u16 [chan "b"] (vals16 [16, 17]) .contigious)]⟩,
   ⟨[], .reopen 1000⟩,
   ⟨[.short 0], .ask (.read .u8 (chan "b") 7 (vals8 [0]))⟩,
   ⟨[.short 0, .interrupted, .short 0, .short 1],
    .ask (.readMany .u16 [(chan "d", vals16 [0, 0]), (chan "b", vals16 [0, 0, 0, 0, 0, 0]), (chan "c", vals16 [0, 0])] 1)⟩,
   ⟨[], .ask .groups⟩,
   ⟨[], .ask (.channels "g".toList)⟩]

/-- The file, opened on `slowDevice`. -/
def slowOpen : Handle :=
  match Handle.new anyAlloc 10 slowDevice with
  | .ok h => h
  | .error _ => ⟨Index.new, ⟨[], 0, []⟩⟩

/-- The replies. -/
def windowTrace : List (StreamStep × StreamReply) := streamReplies anyAlloc byByte 10 slowOpen windowSteps

/-- The hypotheses of C90 over a stream hold for it: its effect is that of the program above. -/
theorem windowSteps_proper : Handle.new anyAlloc 10 slowDevice = .ok slowOpen ∧ slowDevice.bytes = fileOf windowFile ∧
    NoFailure slowDevice.script ∧ (∀ step ∈ windowSteps, step.Reliable) ∧ windowTrace.flatMap effect = windowProgram := by
  have hw : ∀ ws : List WriteOutcome, ws.all (fun o => match o with | .interrupted | .accept (_ + 1) => true | _ => false) = true →
      ∀ o ∈ ws, o = .interrupted ∨ ∃ n, o = .accept (n + 1) := by
    intro ws h o ho
    have := List.all_eq_true.mp h o ho
    match o, this with
    | .interrupted, _ => exact Or.inl rfl
    | .accept (n + 1), _ => exact Or.inr ⟨n, rfl⟩
  have hr : ∀ rs : List ReadOutcome, rs.all (fun o => o.failure.isNone) = true → NoFailure rs := by
    intro rs h o ho
    exact Option.isNone_iff_eq_none.mp (List.all_eq_true.mp h o ho)
  refine ⟨?_, rfl, hr _ rfl, ?_, ?_⟩
  · obtain ⟨h, hh⟩ := exists_ok (x := Handle.new anyAlloc 10 slowDevice) (by decide +kernel)
    unfold slowOpen
    rw [hh]
  · intro step hstep
    simp only [windowSteps, List.mem_cons, List.not_mem_nil, or_false] at hstep
    rcases hstep with h | h | h | h | h | h | h | h | h | h | h | h <;> subst h <;> first
      | exact trivial
      | exact hw _ rfl
      | exact hr _ rfl
  · decide +kernel

/-- What the library replies: the refused session, the failing read, the session with a rejected call, and the samples that are read
    together. -/
theorem windowSteps_replies :
    (windowTrace[1]?.map (·.2)) = some (.session (R.err (.ioError (.other 5)))) ∧
    (windowTrace[2]?.map (·.2)) = some (.ask (R.err (.ioError (.other 9)))) ∧
    (windowTrace[3]?.map (·.2)) = some (.session (.ok [.ok (), .ok (), R.err (.badDataBlockLength 3 2)])) ∧
    (windowTrace[4]?.map (·.2)) = some (.ask (.ok (.samples .bool [true, true, false, true]))) ∧
    (windowTrace[7]?.map (·.2)) = some (.reopen (.ok ())) ∧
    (windowTrace[9]?.map (·.2))
      = some (.ask (.ok (.samplesMany .u16 [vals16 [4, 0], vals16 [11, 12, 13, 14, 15, 16], vals16 [3, 0]]))) := by
  refine ⟨?_, ?_, ?_, ?_, ?_, ?_⟩ <;> decide +kernel

/-- Not of all programs: the last segment of `windowFile` has the channels `b` and `a`; a table of `b` alone is taken for a table of
    both. -/
def strayWindow : List Command :=
  [.call (.write .little .u16 [chan "b"] (vals16 [16, 17]) .contigious), .ask (.length (chan "a"))]

theorem strayWindow_reply {s : Store} {t : TdmsFile} (h : Behaves anyAlloc s (replies anyAlloc t strayWindow))
    (ho : s.objects (chan "a").path) :
    (Query.length (chan "a")).run anyAlloc ((Command.call (.write .little .u16 [chan "b"] (vals16 [16, 17]) .contigious)).run
      anyAlloc t).2 = .ok (.length (some ((s.call (.write .little .u16 [chan "b"] (vals16 [16, 17]) .contigious)).2.count
        (chan "a").path))) :=
  h.2.1.1 (Or.inl ho)

/-- **C90, counterexample.** `a` has a sample that nothing wrote to it. -/
theorem existing_file_is_store_counterexample :
    ¬ Behaves anyAlloc (storeIn windowTypes windowOpen.bytes (windowFile.map FileSegment.segment))
      (replies anyAlloc windowOpen strayWindow) := by
  intro h
  have h1 := strayWindow_reply h (show Listed _ _ by unfold Listed; decide +kernel)
  have h2 : (Query.length (chan "a")).run anyAlloc ((Command.call (.write .little .u16 [chan "b"] (vals16 [16, 17]) .contigious)).run
      anyAlloc windowOpen).2 = .ok (.length (some 7)) := by decide +kernel
  have h3 : ((storeIn windowTypes windowOpen.bytes (windowFile.map FileSegment.segment)).call
      (.write .little .u16 [chan "b"] (vals16 [16, 17]) .contigious)).2.count (chan "a").path = 6 := by decide +kernel
  rw [h2, h3] at h1
  cases h1

end Tedium
