import Verif.Proofs.SameIndex
import Verif.Props.Merge

/-!
# C96: two files joined byte for byte

`Spec/Concat`, with `Store.plus` and `Store.Agrees` from `Spec/Merge`.
-/

namespace Tedium
open SegSpec WriteSpec PlanSpec Library

/-- **C96** (partial: regular files; the second has no raw data before its first new list of objects). Two files, whoever wrote them, are
    joined byte for byte. The result opens, its segments are those of both files, and it holds what both files hold: the objects of both,
    the values of the properties, those of the second file first, and the samples of each channel one after the other. So all that is proved
    about existing files holds of it: it can be written to, and read. -/
theorem join_partial {al : Alloc} {fs fs' : List FileSegment} {t t' : TdmsFile} {ty ty' : Text → STy} {last last' : Last}
    (he : Existing al fs t ty last) (he' : Existing al fs' t' ty' last') (hst : Standalone (fs'.map FileSegment.segment))
    (hag : (storeIn ty t.bytes (fs.map FileSegment.segment)).Agrees (storeIn ty' t'.bytes (fs'.map FileSegment.segment)))
    (hsz : (t.bytes ++ t'.bytes).length < 2 ^ 63) :
    ∃ t'' ty'', TdmsFile.new al (t.bytes ++ t'.bytes) = .ok t'' ∧ t''.bytes = t.bytes ++ t'.bytes ∧
      Existing al (fs ++ fs') t'' ty'' ⟨active ((fs ++ fs').map FileSegment.segment), none⟩ ∧
      storeIn ty'' t''.bytes ((fs ++ fs').map FileSegment.segment) =
        (storeIn ty t.bytes (fs.map FileSegment.segment)).plus (storeIn ty' t'.bytes (fs'.map FileSegment.segment)) := by
  obtain ⟨t'', h1, h2, h3⟩ := joined_existing he he' hst hag hsz
  exact ⟨t'', _, h1, h2, h3, by rw [h2]; exact joined_store he he' hst hag hsz⟩

/-- **C96, what is read** (partial as above, and the names have no slashes). Every question to the joined file is answered from what both files
    hold. -/
theorem join_answers_partial {al : Alloc} {fs fs' : List FileSegment} {t t' : TdmsFile} {ty ty' : Text → STy} {last last' : Last}
    (he : Existing al fs t ty last) (he' : Existing al fs' t' ty' last') (hst : Standalone (fs'.map FileSegment.segment))
    (hag : (storeIn ty t.bytes (fs.map FileSegment.segment)).Agrees (storeIn ty' t'.bytes (fs'.map FileSegment.segment)))
    (hsz : (t.bytes ++ t'.bytes).length < 2 ^ 63)
    (htidy : ∀ p, Listed (entries (fs.map FileSegment.segment)) p ∨ Listed (entries (fs'.map FileSegment.segment)) p →
      ∃ o : Obj, o.SlashFree ∧ o.toPath.path = p) :
    ∃ t'', TdmsFile.new al (t.bytes ++ t'.bytes) = .ok t'' ∧ Represents al t''
      ((storeIn ty t.bytes (fs.map FileSegment.segment)).plus (storeIn ty' t'.bytes (fs'.map FileSegment.segment))) := by
  obtain ⟨t'', ty'', h1, h2, h3, h4⟩ := join_partial he he' hst hag hsz
  have hM := h3.models (by rw [h2]; exact hsz)
  rw [h4] at hM
  exact ⟨t'', h1, hM.represents htidy⟩

/-- **C96, files of the library** (partial: see `Compatible` and `Described`; names without slashes). Two files are made by the calls `ops` and `ops'`, each on a
    new file, and joined byte for byte. The result opens, and answers as if all the calls had been made on one file. -/
theorem join_history_partial (al : Alloc) (hal : Generous al) {new : TdmsFile} (hnew : TdmsFile.create al = .ok new) (ops ops' : List Op)
    (hcomp : Compatible Last.none ops) (hcomp' : Compatible Last.none ops')
    (htypes : ∀ op ∈ ops ++ ops', ∀ op' ∈ ops ++ ops', ∀ p, Names p op → Names p op' → typeOf op = typeOf op')
    (hfit : ∀ op ∈ ops ++ ops', OpFits op) (hdesc : Described al Last.none ops) (hdesc' : Described al Last.none ops')
    (hsz : ((runOps al new ops).bytes ++ (runOps al new ops').bytes).length < 2 ^ 63) (htidy : ∀ op ∈ ops ++ ops', Tidy op) :
    ∃ t, TdmsFile.new al ((runOps al new ops).bytes ++ (runOps al new ops').bytes) = .ok t ∧
      Represents al t (storeOf (ops ++ ops')) := by
  obtain rfl := created_eq hnew
  have hl : ∀ op ∈ ops, op ∈ ops ++ ops' := fun op h => List.mem_append_left _ h
  have hr : ∀ op ∈ ops', op ∈ ops ++ ops' := fun op h => List.mem_append_right _ h
  have htypes' : ∀ op ∈ ops', ∀ op' ∈ ops', ∀ p, Names p op → Names p op' → typeOf op = typeOf op' :=
    fun op h op' h' => htypes op (hr op h) op' (hr op' h')
  have hcont : ∀ op ∈ ops', ∀ p, Names p op → ∀ c, (storeOf ops).content p = some c → typeOf op = some c.1 := by
    intro op hop p hn c hc
    rcases content_type Store.empty ops p c hc with ⟨c0, h, _⟩ | ⟨o, ho, hno, hto⟩
    · cases h
    · rw [← hto]; exact htypes op (hr op hop) o (hl o ho) p hn hno
  have hplus : storeOf (ops ++ ops') = (storeOf ops).plus (storeOf ops') := by
    rw [← foldl_plus _ _ htypes' hcont]
    exact List.foldl_append
  have hsz2 := hsz
  rw [List.length_append] at hsz2
  obtain ⟨fs, he, hs, _⟩ := history_existing hal hcomp (fun op h op' h' => htypes op (hl op h) op' (hl op' h')) (fun op h => hfit op (hl op h))
    hdesc (by omega)
  obtain ⟨fs', he', hs', hst⟩ := history_existing hal hcomp' htypes' (fun op h => hfit op (hr op h)) hdesc' (by omega)
  obtain ⟨t, h1, h2⟩ := join_answers_partial he he' hst (by
      rw [hs, hs']
      intro p c c' hc hc'
      rcases content_type Store.empty ops' p c' hc' with ⟨c0, h, _⟩ | ⟨o, ho, hno, hto⟩
      · cases h
      · exact Option.some.inj ((hcont o ho p hno c hc).symm.trans hto)) hsz (by
      intro p hp
      rcases hp with hp | hp
      · exact store_tidy (fun op h => htidy op (hl op h)) p (by rw [← hs]; exact hp)
      · exact store_tidy (fun op h => htidy op (hr op h)) p (by rw [← hs']; exact hp))
  rw [hs, hs', ← hplus] at h2
  exact ⟨t, h1, h2⟩

/-- **C90, files of the library** (partial: see `Compatible` and `Described`). A file that the library made is one of those that `Existing` describes: its bytes are whole
    segments, and these hold what the calls put into the file. So all that is proved about existing files holds of the files of the library. -/
theorem made_file_exists_partial (al : Alloc) (hal : Generous al) {new : TdmsFile} (hnew : TdmsFile.create al = .ok new) (ops : List Op)
    (hcomp : Compatible Last.none ops) (htypes : ∀ op ∈ ops, ∀ op' ∈ ops, ∀ p, Names p op → Names p op' → typeOf op = typeOf op')
    (hfit : ∀ op ∈ ops, OpFits op) (hdesc : Described al Last.none ops) (hsz : (runOps al new ops).bytes.length < 2 ^ 63) :
    ∃ fs ty, Existing al fs (runOps al new ops) ty (ops.foldl Last.after Last.none) ∧
      storeIn ty (runOps al new ops).bytes (fs.map FileSegment.segment) = storeOf ops ∧ Standalone (fs.map FileSegment.segment) := by
  obtain rfl := created_eq hnew
  obtain ⟨fs, h⟩ := history_existing hal hcomp htypes hfit hdesc hsz
  exact ⟨fs, _, h⟩

/-! ## Examples -/

/-- `windowFile` begins with a new list: joined with itself (see `windowFile_doubled` for the types) it meets the hypotheses of `join_partial`. -/
theorem windowFile_standalone : Standalone (windowFile.map FileSegment.segment) := by
  intro pre hpre
  have h : ∀ pre ∈ dataPrefixes (windowFile.map FileSegment.segment), (pre.any fun s => s.toc.containsNewObjectList) = true := by decide +kernel
  obtain ⟨s, hs, h⟩ := List.any_eq_true.mp (h pre hpre)
  exact ⟨s, hs, h⟩

/-- Every sample is there twice. -/
theorem windowFile_joined : (TdmsFile.new anyAlloc (windowOpen.bytes ++ windowOpen.bytes)).map
      (fun t => (t.u16s "b" 13, t.channelLength (chan "a"), t.channelLength (chan "b"))) =
    .ok (.ok (vals16 [10, 11, 12, 13, 14, 15, 10, 11, 12, 13, 14, 15, 0]), .ok (some 12), .ok (some 12)) := by
  decide +kernel

/-- `firstPart` and `secondPart` meet the hypotheses of `join_history_partial` (see `parts_hypotheses`), and this is what the joined file holds. Here the
    channel that the second file begins with may be the one that was written last to the first: compare `merge_counterexample`. -/
theorem parts_joined :
    (∀ op ∈ firstPart ++ secondPart, OpFits op) ∧ Described anyAlloc Last.none firstPart ∧ Described anyAlloc Last.none secondPart ∧
    (TdmsFile.new anyAlloc ((session firstPart).bytes ++ (session secondPart).bytes)).map (fun t => (t.u16s "a" 7, t.u16s "b" 2)) =
      .ok (.ok (vals16 [1, 2, 3, 4, 5, 6, 0]), .ok (vals16 [8, 0])) ∧
    (TdmsFile.new anyAlloc ((session firstPart).bytes ++ (session secondPart).bytes)).map (fun t => t.readAllProperties (.group "g".toList)) =
      .ok (some [("m".toList, .u8 1), ("n".toList, .i32 6)]) ∧
    (TdmsFile.new anyAlloc ((session (firstPart.take 1)).bytes ++ (session secondPart).bytes)).map (fun t => t.u16s "a" 6) =
      .ok (.ok (vals16 [1, 2, 4, 5, 6, 0])) := by
  refine ⟨fun op hop => ?_, parts_hypotheses.2.2.2.2.2.2.2.2, ⟨Or.inl (by decide +kernel), trivial⟩, by decide +kernel, by decide +kernel,
    by decide +kernel⟩
  have ha : Text.Fits (chan "a").path := show (utf8Enc _).length < 2 ^ 32 by decide +kernel
  have hb : Text.Fits (chan "b").path := show (utf8Enc _).length < 2 ^ 32 by decide +kernel
  simp only [firstPart, secondPart, List.cons_append, List.nil_append, List.mem_cons, List.not_mem_nil, or_false] at hop
  rcases hop with h | h | h | h | h <;> subst h
  · refine ⟨⟨by decide, by decide⟩, show 1 < 2 ^ 32 by decide, fun c hc => ?_⟩
    rw [List.mem_singleton.mp hc]; exact ha
  · refine ⟨⟨by decide, by decide⟩, show 2 < 2 ^ 32 by decide, fun c hc => ?_⟩
    simp only [List.map_cons, List.map_nil, List.mem_cons, List.not_mem_nil, or_false] at hc
    rcases hc with h | h <;> rw [h]
    · exact hb
    · exact ha
  · refine ⟨show (utf8Enc _).length < 2 ^ 32 by decide +kernel, show 1 < 2 ^ 32 by decide, fun p hp => ?_⟩
    rw [List.mem_singleton.mp hp]
    exact ⟨show (utf8Enc _).length < 2 ^ 32 by decide +kernel, trivial⟩
  · refine ⟨⟨by decide, by decide⟩, show 1 < 2 ^ 32 by decide, fun c hc => ?_⟩
    rw [List.mem_singleton.mp hc]; exact ha
  · refine ⟨show (utf8Enc _).length < 2 ^ 32 by decide +kernel, show 2 < 2 ^ 32 by decide, fun p hp => ?_⟩
    simp only [List.mem_cons, List.not_mem_nil, or_false] at hp
    rcases hp with h | h <;> rw [h]
    · exact ⟨show (utf8Enc _).length < 2 ^ 32 by decide +kernel, trivial⟩
    · exact ⟨show (utf8Enc _).length < 2 ^ 32 by decide +kernel, trivial⟩

/-! ## Not of all files -/

/-- A file of one segment, with six samples of `c`, that does not start a new list of objects. -/
def listlessFile : List FileSegment :=
  let s := dataSegment .little false [("c", .u16, 3)] [1, 0, 2, 0, 3, 0, 4, 0, 5, 0, 6, 0]
  [{ s with toc := { s.toc with containsNewObjectList := false } }]

/-- **C96, counterexample.** Alone the file is read as it should be. Behind another file its samples are shared out to the channels of both files:
    half of those of `c` are lost, and `a` and `b` get some of them. The file opens, and no call reports an error. -/
theorem join_counterexample :
    readFrom .u16 (fileOf listlessFile) "c" 0 (vals16 [0, 0, 0, 0, 0, 0]) = .ok (vals16 [1, 2, 3, 4, 5, 6]) ∧
    (TdmsFile.new anyAlloc (windowOpen.bytes ++ fileOf listlessFile)).map
      (fun t => (t.channelLength (chan "a"), t.channelLength (chan "b"), t.channelLength (chan "c"))) =
      .ok (.ok (some 7), .ok (some 7), .ok (some 3)) ∧
    readFrom .u16 (windowOpen.bytes ++ fileOf listlessFile) "b" 5 (vals16 [0, 0]) = .ok (vals16 [15, 1]) := by
  refine ⟨?_, ?_, ?_⟩ <;> decide +kernel

end Tedium
