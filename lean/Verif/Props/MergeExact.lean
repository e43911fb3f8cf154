import Verif.Props.Merge
import Verif.Props.ReadBack

/-! # C95: which files can be appended to one another, exactly -/

namespace Tedium
open SegSpec WriteSpec Library

/-- **C95, partial, with the limit on the first channel as it is in C31.** As `merge_partial`, but the calls that append the second file have only to
    follow those made on the first file as in C31: the first channel that is written may also be the only one that was last written
    to the first file, if it gets a multiple of the number of samples. To be opened again, the calls have to be as in C32. -/
theorem merge_compatible_partial (al : Alloc) {fs : List FileSegment} {t : TdmsFile} {ty : Text → STy} {last : Last}
    (he : Existing al fs t ty last) (ops : List Op) (hcomp : Compatible last ops)
    (htypes : ∀ op ∈ ops, ∀ op' ∈ ops, ∀ p, Names p op → Names p op' → WriteSpec.typeOf op = WriteSpec.typeOf op')
    (hftypes : ∀ op ∈ ops, ∀ p, Names p op → ∀ c, (storeIn ty t.bytes (fs.map FileSegment.segment)).content p = some c →
      WriteSpec.typeOf op = some c.1)
    {s0 : Store} (hs0 : s0 = ops.foldl Store.after (storeIn ty t.bytes (fs.map FileSegment.segment)))
    (htidy : ∀ p, s0.objects p → ∃ o : Obj, o.SlashFree ∧ o.toPath.path = p)
    {source : TdmsFile} {s : Store} (hR : Represents al source s) (hP : s.Plain) (hag : s0.Agrees s)
    (typeOf : ChannelPath → STy) (fill : (ty : STy) → ty.Val) (hty : ∀ c ty vals, s.content c.path = some ⟨ty, vals⟩ → typeOf c = ty) :
    ∃ cops, copyOf al typeOf fill source = .ok cops ∧
      (Compatible (ops.foldl Last.after last) cops →
        (runOps al t (ops ++ cops)).bytes.length < 2 ^ 63 →
        AllSucceed al t (ops ++ cops) ∧
        Represents al (runOps al t (ops ++ cops)) (s0.plus s) ∧
        ((∀ op ∈ ops ++ cops, OpFits op) → Described al last (ops ++ cops) →
          TdmsFile.new al (runOps al t (ops ++ cops)).bytes = .ok (runOps al t (ops ++ cops)))) := by
  obtain ⟨pops, chs, h1, h⟩ := hR.copy hP typeOf fill hty
  refine ⟨_, h1, fun hf1 hsz => ?_⟩
  have hsz' := hsz
  rw [runOps_append] at hsz'
  have hsz1 : (runOps al t ops).bytes.length < 2 ^ 63 := Nat.lt_of_le_of_lt (runOps_bytes al _ _).length_le hsz'
  obtain ⟨ha, segs, H, _⟩ := models_history (he.models (Nat.lt_of_le_of_lt (runOps_bytes al t ops).length_le hsz1)) ops hcomp htypes
    hftypes hsz1
  rw [← hs0] at H
  obtain ⟨hb, segs', H', _⟩ := models_history H _ hf1 h.types (h.fileTypes hag) hsz'
  have hall := succeed_glue ha hb
  refine ⟨hall, ?_, fun hfit hdesc => he.reopens (compatible_glue _ _ _ hcomp hf1) hall hfit hdesc hsz⟩
  rw [h.plus hP hag] at H'
  rw [runOps_append]
  exact H'.represents (fun p hp => hp.elim (htidy p) (hP.tidy p))

/-- **C95, the limit on the first channel is exact.** The calls `ops` have been made on one new file and `ops'` on another, as in
    `merge_history_partial`, and the second is appended to the first. What has been written can be read back after each of the calls
    that append it, whatever the samples are, if and only if these calls follow those made on the first file as in C31. -/
theorem merge_history_iff (al : Alloc) {new : TdmsFile} (hnew : TdmsFile.create al = .ok new) (ops ops' : List Op)
    (hcomp : Compatible Last.none ops) (hcomp' : Compatible Last.none ops')
    (htypes : ∀ op ∈ ops ++ ops', ∀ op' ∈ ops ++ ops', ∀ p, Names p op → Names p op' → WriteSpec.typeOf op = WriteSpec.typeOf op')
    (hsz' : (runOps al new ops').bytes.length < 2 ^ 63) (htidy : ∀ op ∈ ops', Tidy op)
    (hchan : ∀ op ∈ ops', ∀ c : ChannelPath, Names c.path op → ∃ g n, c = ChannelPath.new g n)
    (typeOf : ChannelPath → STy) (fill : (ty : STy) → ty.Val)
    (hty : ∀ op ∈ ops', ∀ c : ChannelPath, Names c.path op → WriteSpec.typeOf op = some (typeOf c)) :
    ∃ cops, copyOf al typeOf fill (runOps al new ops') = .ok cops ∧
      ((runOps al new (ops ++ cops)).bytes.length < 2 ^ 63 →
        ((∀ n, ReadsBack al new (ops ++ cops.take n)) ↔ Compatible (ops.foldl Last.after Last.none) cops)) := by
  have hl : ∀ op ∈ ops, op ∈ ops ++ ops' := fun op h => List.mem_append_left _ h
  have hr : ∀ op ∈ ops', op ∈ ops ++ ops' := fun op h => List.mem_append_right _ h
  have htypes' : ∀ op ∈ ops', ∀ op' ∈ ops', ∀ p, Names p op → Names p op' → WriteSpec.typeOf op = WriteSpec.typeOf op' :=
    fun op h op' h' => htypes op (hr op h) op' (hr op' h')
  have hP := plain_history hcomp' htypes' htidy hchan
  have hnew0 := created_eq hnew
  have hrep : Represents al (runOps al new ops') (storeOf ops') := by
    rw [hnew0] at hsz' ⊢
    exact represents_history hcomp' htypes' hsz' htidy
  obtain ⟨pops, chs, h1, h⟩ := hrep.copy hP typeOf fill (fun c ty vals hc => by
    rcases content_type Store.empty ops' c.path _ hc with ⟨c0, h, _⟩ | ⟨o, ho, hno, hto⟩
    · cases h
    · exact Option.some.inj ((hty o ho c hno).symm.trans hto))
  refine ⟨_, h1, fun hsz => ?_⟩
  obtain ⟨cops, hcops⟩ : ∃ cops, cops = pops ++ chs.flatMap (sampleCall (storeOf ops')) := ⟨_, rfl⟩
  have htab := compatible_table _ _ (h.follow al hP).1
  have hmem : ∀ op ∈ cops, (∃ e path ps, op = Op.props e path ps) ∨ ∃ ty c vals, op = Op.write .little ty [c] vals .contigious := by
    intro op hop
    rw [hcops] at hop
    rcases h.mem hop with ⟨path, rfl, _⟩ | ⟨c, _, ty, vals, _, rfl⟩
    · exact Or.inl ⟨_, _, _, rfl⟩
    · exact Or.inr ⟨_, _, _, rfl⟩
  -- the type of each call is that of a call of the second history
  have hfrom : ∀ op ∈ cops, ∀ p, Names p op → ∃ o ∈ ops', Names p o ∧ WriteSpec.typeOf o = WriteSpec.typeOf op := by
    intro op hop p hn
    rw [hcops] at hop
    rcases h.mem hop with ⟨path, rfl, _⟩ | ⟨c, _, ty, vals, hcon, rfl⟩
    · exact absurd hn id
    · obtain ⟨d, hd, e⟩ := hn
      rw [List.mem_singleton.mp hd] at e
      rw [e] at hcon
      rcases content_type Store.empty ops' p _ hcon with ⟨c0, h, _⟩ | ⟨o, ho, hno, hto⟩
      · cases h
      · exact ⟨o, ho, hno, hto⟩
  rw [← hcops] at hsz htab ⊢
  have htabs : Tables (ops ++ cops) := by
    refine ⟨fun e ty chs vals layout hm => ?_, ?_⟩
    · rcases List.mem_append.mp hm with hm | hm
      · exact compatible_table _ _ hcomp _ _ _ _ _ hm
      · exact htab _ _ _ _ _ hm
    · have key : ∀ op ∈ ops ++ cops, ∀ p, Names p op → ∃ o ∈ ops ++ ops', Names p o ∧ WriteSpec.typeOf o = WriteSpec.typeOf op := by
        intro op hop p hn
        rcases List.mem_append.mp hop with hop | hop
        · exact ⟨op, hl op hop, hn, rfl⟩
        · obtain ⟨o, ho, h2⟩ := hfrom op hop p hn
          exact ⟨o, hr o ho, h2⟩
      intro op hop op' hop' p hn hn'
      obtain ⟨o, a1, a2, a3⟩ := key op hop p hn
      obtain ⟨o', b1, b2, b3⟩ := key op' hop' p hn'
      rw [← a3, ← b3]
      exact htypes o a1 o' b1 p a2 b2
  have htake : ∀ n, (runOps al new (ops ++ cops.take n)).bytes.length ≤ (runOps al new (ops ++ cops)).bytes.length := by
    intro n
    rw [runOps_append, runOps_append]
    exact runOps_take_bytes al _ cops n
  constructor
  · intro hall
    refine Classical.byContradiction fun hnc => ?_
    obtain ⟨pre, op, post, hs, hc, hnf⟩ := first_misfit cops _ hnc
    have htk : cops.take (pre.length + 1) = pre ++ [op] := by
      rw [hs, List.append_cons, List.take_left' (by rw [List.length_append]; rfl)]
    have hop : op ∈ cops := by rw [hs]; simp
    rcases hmem op hop with ⟨e, path, ps, rfl⟩ | ⟨ty, c, vals, rfl⟩
    · exact hnf trivial
    · have hsub : ∀ o ∈ (ops ++ pre) ++ [Op.write .little ty [c] vals .contigious], o ∈ ops ++ cops := by
        rw [List.append_assoc, ← htk]
        intro o ho
        rcases List.mem_append.mp ho with ho | ho
        · exact List.mem_append_left _ ho
        · exact List.mem_append_right _ (List.mem_of_mem_take ho)
      obtain ⟨vals', _, hv, hnot⟩ := not_reads_back al hnew (ops ++ pre) (compatible_glue _ _ _ hcomp hc) .little ty [c] vals .contigious
        ⟨fun e ty chs vals layout ho => htabs.tables _ _ _ _ _ (hsub _ ho), fun o ho o' ho' => htabs.types o (hsub _ ho) o' (hsub _ ho')⟩
        (by
          have := htake (pre.length + 1)
          rw [htk, ← List.append_assoc] at this
          exact Nat.lt_of_le_of_lt this hsz)
        (by rw [List.foldl_append]; exact hnf)
      rw [hv rfl] at hnot
      have := hall (pre.length + 1)
      rw [htk, ← List.append_assoc] at this
      exact hnot this
  · intro hc n
    have hc' : Compatible Last.none (ops ++ cops.take n) := compatible_glue _ _ _ hcomp (compatible_take cops _ n hc)
    obtain ⟨h2, h3⟩ := write_then_read_partial al hnew (ops ++ cops.take n) hc' (Nat.lt_of_le_of_lt (htake n) hsz)
    refine ⟨h2, fun ty c htype hn => ?_⟩
    have hord : Format.ordinaryTy ty = true := by
      obtain ⟨op, hop, hnm⟩ := hn
      have hty := htype op hop hnm
      cases op with
      | props => cases hnm
      | write e ty' chs vals layout =>
        injection hty with hty
        subst hty
        exact (compatible_table _ _ hc' _ _ _ _ _ hop).ordinary
    obtain ⟨h4, h5⟩ := h3 ty c hord htype hn
    refine ⟨h4, fun out ho => ?_⟩
    rw [h5 0 out, List.drop_zero, overlay_self ho]

/-- Two files with the channel `a`, which gets two samples in the one and four in the other. -/
def shortPart : List Op := [writeU16 ["a"] [1, 2]]

/-- The second of them. -/
def longPart : List Op := [writeU16 ["a"] [3, 4, 5, 6]]

/-- The calls that copy the second. -/
def longCopy : List Op := callsOf (copyOf anyAlloc (fun _ => .u16) anyVal (session longPart))

/-- They meet the hypotheses of both theorems, and the limit, although `merge_partial` does not apply: the first channel of the second is
    the one last written to the first. Appended the other way round they do not meet the limit, and samples are lost. -/
theorem merge_exact_example :
    Compatible Last.none shortPart ∧ Compatible Last.none longPart ∧
    (∀ op ∈ shortPart ++ longPart, ∀ p, Names p op → WriteSpec.typeOf op = some .u16) ∧
    (session longPart).bytes.length < 2 ^ 63 ∧ (∀ op ∈ longPart, Tidy op) ∧
    (∀ op ∈ longPart, ∀ c : ChannelPath, Names c.path op → ∃ g n, c = ChannelPath.new g n) ∧
    copyOf anyAlloc (fun _ => .u16) anyVal (session longPart) = .ok longCopy ∧
    (session (shortPart ++ longCopy)).bytes.length < 2 ^ 63 ∧
    Compatible (shortPart.foldl Last.after Last.none) longCopy ∧
    firstChannel longCopy = (inForce shortPart).head? ∧
    (session (shortPart ++ longCopy)).u16s "a" 7 = .ok (vals16 [1, 2, 3, 4, 5, 6, 0]) ∧
    (session (longPart ++ callsOf (copyOf anyAlloc (fun _ => .u16) anyVal (session shortPart)))).u16s "a" 7
      = .ok (vals16 [3, 4, 5, 6, 0, 0, 0]) := by
  have htab : ∀ xs : List Nat, Table .u16 [chan "a"] (vals16 xs) ∨ xs = [] := by
    intro xs
    cases xs with
    | nil => exact Or.inr rfl
    | cons x xs => exact Or.inl ⟨rfl, by decide, by decide +kernel, fun h => (by cases h), Nat.one_dvd _⟩
  have hcopy : longCopy = [.props .little (chan "a").inner [], writeU16 ["a"] [3, 4, 5, 6]] := by decide +kernel
  refine ⟨⟨⟨(htab [1, 2]).resolve_right (by decide), Or.inl (by decide +kernel)⟩, trivial⟩,
    ⟨⟨(htab [3, 4, 5, 6]).resolve_right (by decide), Or.inl (by decide +kernel)⟩, trivial⟩, ?_, by decide +kernel, ?_, ?_,
    by decide +kernel, by decide +kernel, ?_, by decide +kernel, by decide +kernel, by decide +kernel⟩
  · intro op hop p hn
    simp only [shortPart, longPart, List.cons_append, List.nil_append, List.mem_cons, List.not_mem_nil, or_false] at hop
    rcases hop with rfl | rfl <;> rfl
  · intro op hop
    cases List.mem_singleton.mp hop
    intro c hc
    cases List.mem_singleton.mp hc
    exact ⟨.channel "g".toList "a".toList, ⟨by decide +kernel, by decide +kernel⟩, rfl⟩
  · intro op hop c hn
    cases List.mem_singleton.mp hop
    obtain ⟨d, hd, e⟩ := hn
    cases List.mem_singleton.mp hd
    refine ⟨"g".toList, "a".toList, ?_⟩
    obtain ⟨⟨p⟩⟩ := c
    exact congrArg (fun x => ChannelPath.mk ⟨x⟩) e.symm
  · rw [hcopy]
    refine ⟨trivial, ⟨(htab [3, 4, 5, 6]).resolve_right (by decide), Or.inr ⟨by decide +kernel, 2, by decide +kernel, Or.inr ⟨by decide +kernel, Or.inl rfl⟩⟩⟩,
      trivial⟩

end Tedium
