import Verif.Proofs.Merge
import Verif.Props.Copy

/-!
# One file can be appended to another through the library (C95)
-/

namespace Tedium
open SegSpec WriteSpec Library

/-- **C95, partial.** A file `t` is open, as in C90, and calls `ops` have been made on it. Another file is open as `source`, and answers as a
    plain store does. Read all there is in `source`, and write it to the first file, object by object and channel by channel
    (`copyOf`). Then nothing fails, and the first file has all that there was in both: the objects of both, the properties of both,
    with the values of the second where both have one, and for each channel the samples of the first file and then those of the second. It
    can be closed and opened again. Missing: the first channel of the second file must not be the first of the channels last
    written to the first file (`merge_counterexample`); channels that are in both need one type; names with slashes, the types of C17, and the
    limits of the format; and reading several channels together. -/
theorem merge_partial (al : Alloc) {fs : List FileSegment} {t : TdmsFile} {ty : Text → STy} {last : Last}
    (he : Existing al fs t ty last) (ops : List Op) (hcomp : Compatible last ops)
    (htypes : ∀ op ∈ ops, ∀ op' ∈ ops, ∀ p, Names p op → Names p op' → WriteSpec.typeOf op = WriteSpec.typeOf op')
    (hftypes : ∀ op ∈ ops, ∀ p, Names p op → ∀ c, (storeIn ty t.bytes (fs.map FileSegment.segment)).content p = some c →
      WriteSpec.typeOf op = some c.1)
    {s0 : Store} (hs0 : s0 = ops.foldl Store.after (storeIn ty t.bytes (fs.map FileSegment.segment)))
    (htidy : ∀ p, s0.objects p → ∃ o : Obj, o.SlashFree ∧ o.toPath.path = p)
    {source : TdmsFile} {s : Store} (hR : Represents al source s) (hP : s.Plain) (hag : s0.Agrees s)
    (typeOf : ChannelPath → STy) (fill : (ty : STy) → ty.Val) (hty : ∀ c ty vals, s.content c.path = some ⟨ty, vals⟩ → typeOf c = ty) :
    ∃ cops, copyOf al typeOf fill source = .ok cops ∧
      ((∀ p, firstChannel cops = some p → (ops.foldl Last.after last).channels.head? ≠ some p) →
        (runOps al t (ops ++ cops)).bytes.length < 2 ^ 63 →
        AllSucceed al t (ops ++ cops) ∧
        Represents al (runOps al t (ops ++ cops)) (s0.plus s) ∧
        ((∀ op ∈ ops ++ cops, OpFits op) → Described al last ops →
          TdmsFile.new al (runOps al t (ops ++ cops)).bytes = .ok (runOps al t (ops ++ cops)))) := by
  obtain ⟨pops, chs, h1, h⟩ := hR.copy hP typeOf fill hty
  refine ⟨_, h1, fun hfirst hsz => ?_⟩
  obtain ⟨hf1, hf2⟩ := h.follow_on al hP _ hfirst
  have hsz' := hsz
  rw [runOps_append] at hsz'
  have hsz1 : (runOps al t ops).bytes.length < 2 ^ 63 := Nat.lt_of_le_of_lt (runOps_bytes al _ _).length_le hsz'
  obtain ⟨ha, segs, H, _⟩ := models_history (he.models (Nat.lt_of_le_of_lt (runOps_bytes al t ops).length_le hsz1)) ops hcomp htypes
    hftypes hsz1
  rw [← hs0] at H
  obtain ⟨hb, segs', H', _⟩ := models_history H _ hf1 h.types (h.fileTypes hag) hsz'
  have hall := succeed_glue ha hb
  refine ⟨hall, ?_, fun hfit hdesc => he.reopens (compatible_glue _ _ _ hcomp hf1) hall hfit (described_glue _ _ _ hdesc hf2) hsz⟩
  rw [h.plus hP hag] at H'
  rw [runOps_append]
  exact H'.represents (fun p hp => hp.elim (htidy p) (hP.tidy p))

/-- **C95, two files that exist, partial.** Both files are as in C90, whoever wrote them, and nothing has been written to the first since
    it was opened. -/
theorem merge_existing_partial (al : Alloc) {fs fs' : List FileSegment} {t t' : TdmsFile} {ty ty' : Text → STy} {last last' : Last}
    (he : Existing al fs t ty last) (he' : Existing al fs' t' ty' last') (hsz' : t'.bytes.length < 2 ^ 63)
    (htidy : ∀ p, (storeIn ty t.bytes (fs.map FileSegment.segment)).objects p → ∃ o : Obj, o.SlashFree ∧ o.toPath.path = p)
    (hP : (storeIn ty' t'.bytes (fs'.map FileSegment.segment)).Plain)
    (hag : (storeIn ty t.bytes (fs.map FileSegment.segment)).Agrees (storeIn ty' t'.bytes (fs'.map FileSegment.segment)))
    (fill : (ty : STy) → ty.Val) :
    ∃ cops, copyOf al (fun c => ty' c.path) fill t' = .ok cops ∧
      ((∀ p, firstChannel cops = some p → last.channels.head? ≠ some p) →
        (runOps al t cops).bytes.length < 2 ^ 63 →
        AllSucceed al t cops ∧
        Represents al (runOps al t cops) ((storeIn ty t.bytes (fs.map FileSegment.segment)).plus
          (storeIn ty' t'.bytes (fs'.map FileSegment.segment))) ∧
        ((∀ op ∈ cops, OpFits op) → TdmsFile.new al (runOps al t cops).bytes = .ok (runOps al t cops))) := by
  obtain ⟨cops, h1, h2⟩ := merge_partial al he [] trivial (fun _ h => by cases h) (fun _ h => by cases h) rfl htidy
    ((he'.models hsz').represents hP.tidy) hP hag (fun c => ty' c.path) fill (fun c ty'' vals hc => by
      unfold storeIn at hc
      dsimp only at hc
      split at hc
      · cases hc; rfl
      · cases hc)
  exact ⟨cops, h1, fun hf hs => ⟨(h2 hf hs).1, (h2 hf hs).2.1, fun hfit => (h2 hf hs).2.2 hfit trivial⟩⟩

/-- **C95, for what the library wrote, partial.** The calls `ops` have been made on one new file and `ops'` on another, and the second has
    been appended to the first. Then the first answers as if all the calls, `ops` and then `ops'`, had been made on it. -/
theorem merge_history_partial (al : Alloc) (hal : Generous al) {new : TdmsFile} (hnew : TdmsFile.create al = .ok new) (ops ops' : List Op)
    (hcomp : Compatible Last.none ops) (hcomp' : Compatible Last.none ops')
    (htypes : ∀ op ∈ ops ++ ops', ∀ op' ∈ ops ++ ops', ∀ p, Names p op → Names p op' → WriteSpec.typeOf op = WriteSpec.typeOf op')
    (hsz' : (runOps al new ops').bytes.length < 2 ^ 63) (htidy : ∀ op ∈ ops ++ ops', Tidy op)
    (hchan : ∀ op ∈ ops', ∀ c : ChannelPath, Names c.path op → ∃ g n, c = ChannelPath.new g n)
    (typeOf : ChannelPath → STy) (fill : (ty : STy) → ty.Val)
    (hty : ∀ op ∈ ops', ∀ c : ChannelPath, Names c.path op → WriteSpec.typeOf op = some (typeOf c)) :
    ∃ cops, copyOf al typeOf fill (runOps al new ops') = .ok cops ∧
      ((∀ p, firstChannel cops = some p → (inForce ops).head? ≠ some p) →
        (runOps al new (ops ++ cops)).bytes.length < 2 ^ 63 →
        AllSucceed al new (ops ++ cops) ∧
        Represents al (runOps al new (ops ++ cops)) (storeOf (ops ++ ops')) ∧
        ((∀ op ∈ ops ++ cops, OpFits op) → Described al Last.none ops →
          TdmsFile.new al (runOps al new (ops ++ cops)).bytes = .ok (runOps al new (ops ++ cops)))) := by
  obtain rfl := created_eq hnew
  have hl : ∀ op ∈ ops, op ∈ ops ++ ops' := fun op h => List.mem_append_left _ h
  have hr : ∀ op ∈ ops', op ∈ ops ++ ops' := fun op h => List.mem_append_right _ h
  have htypes' : ∀ op ∈ ops', ∀ op' ∈ ops', ∀ p, Names p op → Names p op' → WriteSpec.typeOf op = WriteSpec.typeOf op' :=
    fun op h op' h' => htypes op (hr op h) op' (hr op' h')
  have hcont : ∀ op ∈ ops', ∀ p, Names p op → ∀ c, (storeOf ops).content p = some c → WriteSpec.typeOf op = some c.1 := by
    intro op hop p hn c hc
    rcases content_type Store.empty ops p c hc with ⟨c0, h, _⟩ | ⟨o, ho, hno, hto⟩
    · cases h
    · rw [← hto]; exact htypes op (hr op hop) o (hl o ho) p hn hno
  have hplus : storeOf (ops ++ ops') = (storeOf ops).plus (storeOf ops') := by
    rw [← foldl_plus _ _ htypes' hcont]
    exact List.foldl_append
  obtain ⟨he, hempty⟩ := existing_new al hal (fun _ => .u8)
  have hstore : storeOf ops = ops.foldl Store.after (storeIn (fun _ => .u8) [] (([] : List FileSegment).map FileSegment.segment)) := by
    rw [show (([] : List FileSegment).map FileSegment.segment) = [] from rfl, hempty]; rfl
  rw [hplus]
  refine merge_partial al he ops hcomp (fun op h op' h' => htypes op (hl op h) op' (hl op' h')) (fun op _ p _ c hc => ?_) hstore
    (store_tidy (fun op h => htidy op (hl op h))) (represents_history hcomp' htypes' hsz' (fun op h => htidy op (hr op h)))
    (plain_history hcomp' htypes' (fun op h => htidy op (hr op h)) hchan) (fun p c c' hc hc' => ?_) typeOf fill (fun c ty vals hc => ?_)
  · have hc : (storeIn (fun _ => .u8) [] []).content p = some c := hc
    rw [hempty] at hc
    cases hc
  · rcases content_type Store.empty ops' p c' hc' with ⟨c0, h, _⟩ | ⟨o, ho, hno, hto⟩
    · cases h
    · exact Option.some.inj ((hcont o ho p hno c hc).symm.trans hto)
  · rcases content_type Store.empty ops' c.path _ hc with ⟨c0, h, _⟩ | ⟨o, ho, hno, hto⟩
    · cases h
    · exact Option.some.inj ((hty o ho c hno).symm.trans hto)

/-! ## Examples -/

/-- `windowFile` with a copy of itself appended: it meets the hypotheses of `merge_existing_partial`, and has every sample twice. -/
theorem windowFile_doubled :
    (storeIn windowTypes windowOpen.bytes (windowFile.map FileSegment.segment)).Agrees
      (storeIn windowTypes windowOpen.bytes (windowFile.map FileSegment.segment)) ∧
    copyOf anyAlloc (fun c => windowTypes c.path) anyVal windowOpen = .ok windowCopy ∧
    (∀ p, firstChannel windowCopy = some p → windowLast.channels.head? ≠ some p) ∧
    (runOps anyAlloc windowOpen windowCopy).bytes.length < 2 ^ 63 ∧
    (runOps anyAlloc windowOpen windowCopy).u16s "b" 13 = .ok (vals16 [10, 11, 12, 13, 14, 15, 10, 11, 12, 13, 14, 15, 0]) ∧
    TdmsFile.new anyAlloc (runOps anyAlloc windowOpen windowCopy).bytes = .ok (runOps anyAlloc windowOpen windowCopy) := by
  refine ⟨fun p c c' h h' => ?_, by decide +kernel, ?_, by decide +kernel, by decide +kernel, by decide +kernel⟩
  · rw [h] at h'
    cases h'
    rfl
  · have h : firstChannel windowCopy = some (chan "a").path := by decide +kernel
    intro p hp
    rw [h] at hp
    cases hp
    decide +kernel

/-- A channel and a property. -/
def firstPart : List Op := [writeU16 ["a"] [1, 2], writeU16 ["b", "a"] [8, 3], .props .little (.group "g".toList) [("n".toList, .i32 5)]]

/-- More samples of the channel, another value of the property, and another property. -/
def secondPart : List Op := [writeU16 ["a"] [4, 5, 6], .props .big (.group "g".toList) [("n".toList, .i32 6), ("m".toList, .u8 1)]]

/-- The calls that copy the second file. -/
def secondCopy : List Op := callsOf (copyOf anyAlloc (fun _ => .u16) anyVal (session secondPart))

/-- They meet the hypotheses of `merge_history_partial`. -/
theorem parts_hypotheses :
    Compatible Last.none firstPart ∧ Compatible Last.none secondPart ∧
    (∀ op ∈ firstPart ++ secondPart, ∀ p, Names p op → WriteSpec.typeOf op = some .u16) ∧
    (session secondPart).bytes.length < 2 ^ 63 ∧ (∀ op ∈ firstPart ++ secondPart, Tidy op) ∧
    (∀ op ∈ secondPart, ∀ c : ChannelPath, Names c.path op → ∃ g n, c = ChannelPath.new g n) ∧
    (∀ p, firstChannel secondCopy = some p → (inForce firstPart).head? ≠ some p) ∧
    (session (firstPart ++ secondCopy)).bytes.length < 2 ^ 63 ∧ Described anyAlloc Last.none firstPart := by
  have hab : ∀ n ∈ ["a", "b"], ∃ o : Obj, o.SlashFree ∧ o.toPath.path = (chan n).path := by
    intro n hn
    simp only [List.mem_cons, List.not_mem_nil, or_false] at hn
    rcases hn with h | h <;> subst h
    · exact ⟨.channel "g".toList "a".toList, ⟨by decide +kernel, by decide +kernel⟩, rfl⟩
    · exact ⟨.channel "g".toList "b".toList, ⟨by decide +kernel, by decide +kernel⟩, rfl⟩
  refine ⟨⟨⟨⟨rfl, ?_, ?_, ?_, ?_⟩, Or.inl ?_⟩, ⟨⟨rfl, ?_, ?_, ?_, ?_⟩, Or.inl ?_⟩, trivial, trivial⟩,
    ⟨⟨⟨rfl, ?_, ?_, ?_, ?_⟩, Or.inl ?_⟩, trivial, trivial⟩, fun op hop p hn => ?_, by decide +kernel, fun op hop => ?_,
    fun op hop c hn => ?_, ?_, by decide +kernel, ⟨Or.inl (by decide +kernel), Or.inl (by decide +kernel), trivial⟩⟩
  case refine_16 =>
    simp only [firstPart, secondPart, List.cons_append, List.nil_append, List.mem_cons, List.not_mem_nil, or_false] at hop
    rcases hop with h | h | h | h | h <;> subst h <;> first
      | rfl
      | exact absurd hn id
  case refine_17 =>
    simp only [firstPart, secondPart, List.cons_append, List.nil_append, List.mem_cons, List.not_mem_nil, or_false] at hop
    rcases hop with h | h | h | h | h <;> subst h
    · intro c hc
      rw [List.mem_singleton.mp hc]; exact hab "a" (by decide)
    · intro c hc
      simp only [List.map_cons, List.map_nil, List.mem_cons, List.not_mem_nil, or_false] at hc
      rcases hc with h | h <;> rw [h]
      · exact hab "b" (by decide)
      · exact hab "a" (by decide)
    · exact ⟨.group "g".toList, show '/' ∉ "g".toList by decide +kernel, rfl⟩
    · intro c hc
      rw [List.mem_singleton.mp hc]; exact hab "a" (by decide)
    · exact ⟨.group "g".toList, show '/' ∉ "g".toList by decide +kernel, rfl⟩
  case refine_18 =>
    simp only [secondPart, List.mem_cons, List.not_mem_nil, or_false] at hop
    rcases hop with h | h <;> subst h
    · obtain ⟨d, hd, e⟩ := hn
      rw [List.mem_singleton.mp hd] at e
      have hcd : c = chan "a" := by
        cases c with | mk c => cases c; exact congrArg (fun x => ChannelPath.mk ⟨x⟩) e.symm
      exact ⟨_, _, hcd⟩
    · exact absurd hn id
  case refine_19 =>
    have h : firstChannel secondCopy = some (chan "a").path := by decide +kernel
    intro p hp
    rw [h] at hp
    cases hp
    decide +kernel
  all_goals decide +kernel

/-- The second file appended to the first. -/
theorem parts_merged :
    (session (firstPart ++ secondCopy)).u16s "a" 7 = .ok (vals16 [1, 2, 3, 4, 5, 6, 0]) ∧
    (session (firstPart ++ secondCopy)).u16s "b" 2 = .ok (vals16 [8, 0]) ∧
    (session (firstPart ++ secondCopy)).readAllProperties (.group "g".toList) = some [("m".toList, .u8 1), ("n".toList, .i32 6)] ∧
    TdmsFile.new anyAlloc (session (firstPart ++ secondCopy)).bytes = .ok (session (firstPart ++ secondCopy)) := by
  refine ⟨?_, ?_, ?_, ?_⟩ <;> decide +kernel

/-! ## Not of all files -/

/-- **C95, counterexample.** The channel that the second file begins with is the one that was written last to the first file. All calls succeed, and
    of its three samples the last is lost. -/
theorem merge_counterexample :
    Compatible Last.none (firstPart.take 1) ∧ copyOf anyAlloc (fun _ => .u16) anyVal (session secondPart) = .ok secondCopy ∧
    (session secondPart).u16s "a" 3 = .ok (vals16 [4, 5, 6]) ∧
    (Op.run anyAlloc (session (firstPart.take 1 ++ secondCopy.take 2)) (writeU16 ["a"] [4, 5, 6])).1 = .ok () ∧
    secondCopy.drop 2 = [writeU16 ["a"] [4, 5, 6]] ∧
    (session (firstPart.take 1 ++ secondCopy)).channelLength (chan "a") = .ok (some 4) ∧
    (session (firstPart.take 1 ++ secondCopy)).u16s "a" 5 = .ok (vals16 [1, 2, 4, 5, 0]) := by
  refine ⟨⟨⟨⟨rfl, ?_, ?_, ?_, ?_⟩, Or.inl ?_⟩, trivial⟩, ?_, ?_, ?_, ?_, ?_, ?_⟩ <;> decide +kernel

end Tedium
