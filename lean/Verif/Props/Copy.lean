import Verif.Proofs.Copy
import Verif.Props.Crashes
import Verif.Props.Existing

/-!
# A file can be copied through the library (C94)
-/

namespace Tedium
open SegSpec WriteSpec Library

/-- **C94, partial.** Read all there is in an open file with the calls that list objects and read properties and samples, and write it to
    a new file, object by object and channel by channel (`copyOf`). If the open file answers as a store does, and this store is
    plain, then nothing fails, and the copy answers every question as that store does: all objects are there, and no others, all
    properties have their values, and all channels their samples. It answers even for any different channels read together. The copy can
    be closed and opened again. Missing: names with slashes (`copy_counterexample`), the types of C17, and the limits of the format. The types
    have to be known, since no call tells them. -/
theorem copy_partial (al : Alloc) {t : TdmsFile} {s : Store} (hR : Represents al t s) (hP : s.Plain)
    (typeOf : ChannelPath → STy) (fill : (ty : STy) → ty.Val) (hty : ∀ c ty vals, s.content c.path = some ⟨ty, vals⟩ → typeOf c = ty)
    {new : TdmsFile} (hnew : TdmsFile.create al = .ok new) :
    ∃ cops, copyOf al typeOf fill t = .ok cops ∧
      ((runOps al new cops).bytes.length < 2 ^ 63 →
        AllSucceed al new cops ∧
        (∀ q : Query, q.Apart → s.Answers al q (q.run al (runOps al new cops))) ∧
        (Generous al → (∀ op ∈ cops, OpFits op) → TdmsFile.new al (runOps al new cops).bytes = .ok (runOps al new cops))) := by
  rw [created_eq hnew]
  obtain ⟨pops, chs, h1, h⟩ := hR.copy hP typeOf fill hty
  exact ⟨_, h1, fun hsz => ⟨(holds_history al _ (h.follow al hP).1 hsz).1, fun q hq => h.answers hP al hsz q hq,
    fun hal hfit => h.opens hP hal hsz hfit⟩⟩

/-- **C94, for what the library wrote, partial.** The open file is one that the library has made with the calls `ops`, as in C88, also if
    it could not be opened again (C32). The copy has all that the calls have written, and can be opened again. -/
theorem copy_history_partial (al : Alloc) (hal : Generous al) {new : TdmsFile} (hnew : TdmsFile.create al = .ok new) (ops : List Op)
    (hcomp : Compatible Last.none ops)
    (htypes : ∀ op ∈ ops, ∀ op' ∈ ops, ∀ p, Names p op → Names p op' → WriteSpec.typeOf op = WriteSpec.typeOf op')
    (hsz : (runOps al new ops).bytes.length < 2 ^ 63) (hfit : ∀ op ∈ ops, OpFits op) (htidy : ∀ op ∈ ops, Tidy op)
    (hchan : ∀ op ∈ ops, ∀ c : ChannelPath, Names c.path op → ∃ g n, c = ChannelPath.new g n)
    (hfew : ∀ p, (ops.flatMap (Op.propsFor p)).length < 2 ^ 32)
    (typeOf : ChannelPath → STy) (fill : (ty : STy) → ty.Val)
    (hty : ∀ op ∈ ops, ∀ c : ChannelPath, Names c.path op → WriteSpec.typeOf op = some (typeOf c)) :
    ∃ cops, copyOf al typeOf fill (runOps al new ops) = .ok cops ∧
      ((runOps al new cops).bytes.length < 2 ^ 63 →
        AllSucceed al new cops ∧
        (∀ q : Query, q.Apart → (storeOf ops).Answers al q (q.run al (runOps al new cops))) ∧
        TdmsFile.new al (runOps al new cops).bytes = .ok (runOps al new cops)) := by
  obtain rfl := created_eq hnew
  have hP := plain_history hcomp htypes htidy hchan
  obtain ⟨pops, chs, h1, h⟩ := (represents_history hcomp htypes hsz htidy).copy hP typeOf fill (fun c ty vals hc => by
    rcases one_type htypes c.path with hno | ⟨ty', hall, op, hop, hn⟩
    · rw [store_content_none _ _ hno] at hc
      cases hc
    · rw [store_content ops ty' c.path hall ⟨op, hop, hn⟩] at hc
      cases hc
      have := (hall op hop hn).symm.trans (hty op hop c hn)
      exact (Option.some.inj this).symm)
  refine ⟨_, h1, fun hsz' => ⟨(holds_history al _ (h.follow al hP).1 hsz').1, fun q hq => h.answers hP al hsz' q hq,
    h.opens hP hal hsz' (h.fits hP hfit fun p ho => h.few ho (hfew p))⟩⟩

/-- **C94, for files that exist, partial.** The open file is as in C90, whoever wrote it. -/
theorem copy_existing_partial (al : Alloc) {fs : List FileSegment} {t : TdmsFile} {ty : Text → STy} {last : Last}
    (he : Existing al fs t ty last) (hsz : t.bytes.length < 2 ^ 63) (hP : (storeIn ty t.bytes (fs.map FileSegment.segment)).Plain)
    (fill : (ty : STy) → ty.Val) {new : TdmsFile} (hnew : TdmsFile.create al = .ok new) :
    ∃ cops, copyOf al (fun c => ty c.path) fill t = .ok cops ∧
      ((runOps al new cops).bytes.length < 2 ^ 63 →
        AllSucceed al new cops ∧
        (∀ q : Query, q.Apart →
          (storeIn ty t.bytes (fs.map FileSegment.segment)).Answers al q (q.run al (runOps al new cops))) ∧
        ((∀ op ∈ cops, OpFits op) → TdmsFile.new al (runOps al new cops).bytes = .ok (runOps al new cops))) := by
  obtain ⟨cops, h1, h2⟩ := copy_partial al ((he.models hsz).represents hP.tidy) hP (fun c => ty c.path) fill (fun c ty' vals hc => by
    unfold storeIn at hc
    dsimp only at hc
    split at hc
    · cases hc; rfl
    · cases hc) hnew
  exact ⟨cops, h1, fun hs => ⟨(h2 hs).1, (h2 hs).2.1, (h2 hs).2.2 he.generous⟩⟩

/-! ## Examples -/

/-- Two tables for the same two channels, and properties. -/
def rescueOps : List Op :=
  [writeU16 ["a", "b"] [1, 2, 3, 4], .props .big (.group "g".toList) [("n".toList, .i32 5), ("m".toList, .u8 1)],
   .props .little .file [("t".toList, .u8 1)], .props .big (.group "g".toList) [("n".toList, .i32 6)],
   writeU16 ["a", "b"] [5, 6, 7, 8]]

/-- Values for buffers. -/
def anyVal : (ty : STy) → ty.Val
  | .i8 | .u8 => (7 : BitVec 8)
  | .i16 | .u16 => (7 : BitVec 16)
  | .i32 | .u32 | .f32 => (7 : BitVec 32)
  | .i64 | .u64 | .f64 => (7 : BitVec 64)
  | .bool => true
  | .extended | .timestamp => (7 : BitVec 128)
  | .complex32 => ⟨(7 : BitVec 32), (7 : BitVec 32)⟩
  | .complex64 => ⟨(7 : BitVec 64), (7 : BitVec 64)⟩
  | .string => []

/-- The calls of a copy that succeeds. -/
def callsOf (r : R (List Op)) : List Op :=
  match r with
  | .ok ops => ops
  | .error _ => []

/-- The calls that copy the file of `rescueOps`. -/
def rescueCopy : List Op := callsOf (copyOf anyAlloc (fun _ => .u16) anyVal (session rescueOps))

/-- `rescueOps` meets the hypotheses of `copy_history_partial`. -/
theorem rescueOps_hypotheses :
    Compatible Last.none rescueOps ∧
    (∀ op ∈ rescueOps, ∀ op' ∈ rescueOps, ∀ p, Names p op → Names p op' → WriteSpec.typeOf op = WriteSpec.typeOf op') ∧
    (session rescueOps).bytes.length < 2 ^ 63 ∧ (∀ op ∈ rescueOps, OpFits op) ∧ (∀ op ∈ rescueOps, Tidy op) ∧
    (∀ op ∈ rescueOps, ∀ c : ChannelPath, Names c.path op → ∃ g n, c = ChannelPath.new g n) ∧
    (∀ p, (rescueOps.flatMap (Op.propsFor p)).length < 2 ^ 32) ∧
    (∀ op ∈ rescueOps, ∀ c : ChannelPath, Names c.path op → WriteSpec.typeOf op = some .u16) ∧
    (session rescueCopy).bytes.length < 2 ^ 63 := by
  have hty : ∀ op ∈ rescueOps, ∀ p, Names p op → WriteSpec.typeOf op = some .u16 := by
    intro op hop p hn
    simp only [rescueOps, List.mem_cons, List.not_mem_nil, or_false] at hop
    rcases hop with h | h | h | h | h <;> subst h <;> first
      | rfl
      | exact absurd hn id
  refine ⟨?_, fun op hop op' hop' p h h' => by rw [hty op hop p h, hty op' hop' p h'], by decide +kernel, ?_, ?_, ?_, ?_,
    fun op hop c h => hty op hop _ h, by decide +kernel⟩
  · refine ⟨⟨⟨rfl, ?_, ?_, ?_, ?_⟩, ?_⟩, trivial, trivial, trivial, ⟨⟨rfl, ?_, ?_, ?_, ?_⟩, ?_⟩, trivial⟩
    all_goals first
      | decide +kernel
      | exact Or.inl (by decide +kernel)
      | exact Or.inr ⟨by decide +kernel, 2, by decide +kernel, Or.inl (by decide +kernel)⟩
  · intro op hop
    simp only [rescueOps, List.mem_cons, List.not_mem_nil, or_false] at hop
    have hab : ∀ c ∈ ["a", "b"].map chan, Text.Fits c.path := by
      intro c hc
      simp only [List.map_cons, List.map_nil, List.mem_cons, List.not_mem_nil, or_false] at hc
      rcases hc with h | h <;> subst h <;> exact show (utf8Enc _).length < 2 ^ 32 by decide +kernel
    have hprop : ∀ (path : PropertyPath) (e : Endian) (ps : List (Text × PropertyValue)), (utf8Enc path.path).length < 2 ^ 32 →
        ps.length < 2 ^ 32 → (∀ p ∈ ps, (utf8Enc p.1).length < 2 ^ 32) → (∀ p ∈ ps, p.2.Fits) → OpFits (.props e path ps) :=
      fun path e ps h1 h2 h3 h4 => ⟨h1, h2, fun p hp => ⟨h3 p hp, h4 p hp⟩⟩
    rcases hop with h | h | h | h | h <;> subst h
    · exact ⟨⟨by decide, by decide⟩, by decide, hab⟩
    · refine hprop _ _ _ (by decide +kernel) (by decide) (by decide +kernel) (fun p hp => ?_)
      simp only [List.mem_cons, List.not_mem_nil, or_false] at hp
      rcases hp with h | h <;> subst h <;> trivial
    · refine hprop _ _ _ (by decide +kernel) (by decide) (by decide +kernel) (fun p hp => ?_)
      rw [List.mem_singleton.mp hp]; trivial
    · refine hprop _ _ _ (by decide +kernel) (by decide) (by decide +kernel) (fun p hp => ?_)
      rw [List.mem_singleton.mp hp]; trivial
    · exact ⟨⟨by decide, by decide⟩, by decide, hab⟩
  · intro op hop
    simp only [rescueOps, List.mem_cons, List.not_mem_nil, or_false] at hop
    have hab : ∀ c ∈ ["a", "b"].map chan, ∃ o : Obj, o.SlashFree ∧ o.toPath.path = c.path := by
      intro c hc
      simp only [List.map_cons, List.map_nil, List.mem_cons, List.not_mem_nil, or_false] at hc
      rcases hc with h | h <;> subst h
      · exact ⟨.channel "g".toList "a".toList, ⟨by decide +kernel, by decide +kernel⟩, rfl⟩
      · exact ⟨.channel "g".toList "b".toList, ⟨by decide +kernel, by decide +kernel⟩, rfl⟩
    rcases hop with h | h | h | h | h <;> subst h
    · exact hab
    · exact ⟨.group "g".toList, show '/' ∉ "g".toList by decide +kernel, rfl⟩
    · exact ⟨.root, trivial, rfl⟩
    · exact ⟨.group "g".toList, show '/' ∉ "g".toList by decide +kernel, rfl⟩
    · exact hab
  · intro op hop c hn
    have key : ∀ d ∈ ["a", "b"].map chan, d.path = c.path → ∃ g n, c = ChannelPath.new g n := by
      intro d hd e
      have hcd : c = d := by
        cases c with | mk c => cases c; cases d with | mk d => cases d; exact congrArg (fun x => ChannelPath.mk ⟨x⟩) e.symm
      simp only [List.map_cons, List.map_nil, List.mem_cons, List.not_mem_nil, or_false] at hd
      rcases hd with h | h <;> rw [hcd, h]
      · exact ⟨_, _, rfl⟩
      · exact ⟨_, _, rfl⟩
    simp only [rescueOps, List.mem_cons, List.not_mem_nil, or_false] at hop
    rcases hop with h | h | h | h | h <;> subst h <;> first
      | exact absurd hn id
      | (obtain ⟨d, hd, e⟩ := hn; exact key d hd e)
  · intro p
    show ((if _ then _ else _) ++ ((if _ then _ else _) ++ ((if _ then _ else _) ++ []))).length < _
    split <;> split <;> decide

/-- The file of `rescueOps` cannot be opened again as it is: the second table is lost (C32). The copy can, and it has all of it. -/
theorem rescueOps_copied :
    TdmsFile.new anyAlloc (session rescueOps).bytes ≠ .ok (session rescueOps) ∧
    TdmsFile.new anyAlloc (session rescueCopy).bytes = .ok (session rescueCopy) ∧
    (session rescueCopy).u16s "a" 5 = .ok (vals16 [1, 2, 5, 6, 0]) ∧
    (session rescueCopy).u16s "b" 4 = .ok (vals16 [3, 4, 7, 8]) ∧
    (session rescueCopy).readAllProperties (.group "g".toList) = some [("m".toList, .u8 1), ("n".toList, .i32 6)] ∧
    (session rescueCopy).readProperty .file "t".toList = .ok (some (.u8 1)) := by
  refine ⟨?_, ?_, ?_, ?_, ?_, ?_⟩ <;> decide +kernel

/-- `windowFile` is plain. -/
theorem windowFile_plain : (storeIn windowTypes windowOpen.bytes (windowFile.map FileSegment.segment)).Plain := by
  have hl : ∀ o ∈ entries (windowFile.map FileSegment.segment), (o.path = (chan "a").path ∨ o.path = (chan "b").path) ∧ o.properties = [] := by
    decide +kernel
  have hobj : ∀ p, Listed (entries (windowFile.map FileSegment.segment)) p → p = (chan "a").path ∨ p = (chan "b").path := by
    rintro p ⟨o, ho, hop⟩
    rw [← hop]; exact (hl o ho).1
  have hprops : ∀ p, propertiesOf (entries (windowFile.map FileSegment.segment)) p = [] := by
    intro p
    unfold propertiesOf
    rw [List.flatMap_eq_nil_iff]
    intro o ho
    exact (hl o (List.mem_filter.mp ho |>.1)).2
  refine ⟨fun p ho => ?_, fun p n v hv => ?_, fun p ty vals hc => ?_⟩
  · rcases hobj p ho with h | h <;> subst h
    · exact ⟨.channel "g".toList "a".toList, ⟨by decide +kernel, by decide +kernel⟩, rfl⟩
    · exact ⟨.channel "g".toList "b".toList, ⟨by decide +kernel, by decide +kernel⟩, rfl⟩
  · have hv : lastValue (propertiesOf _ p) n = some v := hv
    rw [hprops] at hv
    cases hv
  · unfold storeIn at hc
    dsimp only at hc
    split at hc
    · rename_i hany
      cases hc
      have hact : ∀ pre ∈ dataPrefixes (windowFile.map FileSegment.segment), ∀ p ∈ active pre,
          p = (chan "a").path ∨ p = (chan "b").path := by decide +kernel
      obtain ⟨pre, hpre, hp⟩ := List.any_eq_true.mp hany
      rcases hact pre hpre p (of_decide_eq_true hp) with h | h <;> subst h
      · exact ⟨show Listed _ _ by unfold Listed; decide +kernel, ⟨_, _, rfl⟩, by decide +kernel, by decide +kernel⟩
      · exact ⟨show Listed _ _ by unfold Listed; decide +kernel, ⟨_, _, rfl⟩, by decide +kernel, by decide +kernel⟩
    · cases hc

/-- The calls that copy it. -/
def windowCopy : List Op := callsOf (copyOf anyAlloc (fun c => windowTypes c.path) anyVal windowOpen)

/-- The copy of `windowFile`: the channels, which share segments there, are stored one after the other. -/
theorem windowFile_copied :
    windowOpen.bytes.length < 2 ^ 63 ∧ (session windowCopy).bytes.length < 2 ^ 63 ∧
    (Query.read .u8 (chan "a") 0 (vals8 (List.replicate 7 0))).run anyAlloc (session windowCopy) =
      (Query.read .u8 (chan "a") 0 (vals8 (List.replicate 7 0))).run anyAlloc windowOpen ∧
    (session windowCopy).u16s "b" 6 = .ok (vals16 [10, 11, 12, 13, 14, 15]) ∧
    TdmsFile.new anyAlloc (session windowCopy).bytes = .ok (session windowCopy) := by
  refine ⟨?_, ?_, ?_, ?_, ?_⟩ <;> decide +kernel

/-! ## Not of all files -/

/-- A group with a slash in its name, and a channel. -/
def slashOps : List Op := [.props .little (.group "a/b".toList) [("n".toList, .i32 5)], writeU16 ["a"] [1, 2]]

/-- **C94, counterexample.** A group called `a/b` is in the file with its property, but it is not in the copy, and no call fails. -/
theorem copy_counterexample :
    Compatible Last.none slashOps ∧ (∀ op ∈ slashOps, OpFits op) ∧
    (session slashOps).readProperty (.group "a/b".toList) "n".toList = .ok (some (.i32 5)) ∧
    ∃ cops, copyOf anyAlloc (fun _ => .u16) anyVal (session slashOps) = .ok cops ∧ AllSucceed anyAlloc ⟨Index.new, []⟩ cops ∧
      (session cops).u16s "a" 2 = .ok (vals16 [1, 2]) ∧
      (session cops).readProperty (.group "a/b".toList) "n".toList = R.err (.missingObject (PropertyPath.group "a/b".toList).path) := by
  refine ⟨⟨trivial, ⟨⟨rfl, by decide +kernel, by decide +kernel, by decide +kernel, by decide +kernel⟩, Or.inl (by decide +kernel)⟩, trivial⟩,
    ?_, by decide +kernel, [.props .little (chan "a").inner [], writeU16 ["a"] [1, 2]], by decide +kernel, ?_, by decide +kernel, by decide +kernel⟩
  · intro op hop
    simp only [slashOps, List.mem_cons, List.not_mem_nil, or_false] at hop
    rcases hop with h | h <;> subst h
    · refine ⟨show (utf8Enc _).length < 2 ^ 32 by decide +kernel, by decide, fun p hp => ?_⟩
      rw [List.mem_singleton.mp hp]
      exact ⟨show (utf8Enc _).length < 2 ^ 32 by decide +kernel, trivial⟩
    · refine ⟨⟨by decide, by decide⟩, by decide, fun c hc => ?_⟩
      rw [List.mem_singleton.mp hc]
      exact show (utf8Enc _).length < 2 ^ 32 by decide +kernel
  · refine (holds_history anyAlloc [.props .little (chan "a").inner [], writeU16 ["a"] [1, 2]] ⟨trivial, ⟨⟨rfl, ?_, ?_, ?_, ?_⟩, Or.inl ?_⟩, trivial⟩ ?_).1 <;> decide +kernel

end Tedium
