import Verif.Props.MergeExact

/-! # C95: the limit on the first channel in terms of the samples -/

namespace Tedium
open SegSpec WriteSpec Library

namespace Library

theorem firstFits_props (last : Last) : ∀ (pops ops : List Op), (∀ op ∈ pops, ∃ e path ps, op = Op.props e path ps) →
    (FirstFits last (pops ++ ops) ↔ FirstFits last ops)
  | [], _, _ => Iff.rfl
  | op :: pops, ops, h => by
    obtain ⟨e, path, ps, rfl⟩ := h op List.mem_cons_self
    exact firstFits_props last pops ops (fun o ho => h o (List.mem_cons_of_mem _ ho))

theorem compatible_props_iff (last : Last) : ∀ (pops ops : List Op), (∀ op ∈ pops, ∃ e path ps, op = Op.props e path ps) →
    (Compatible last (pops ++ ops) ↔ Compatible last ops)
  | [], _, _ => Iff.rfl
  | op :: pops, ops, h => by
    obtain ⟨e, path, ps, rfl⟩ := h op List.mem_cons_self
    exact (and_iff_right trivial).trans (compatible_props_iff last pops ops (fun o ho => h o (List.mem_cons_of_mem _ ho)))

theorem diverges_head (l : List Text) (p : Text) : Diverges l [p] ↔ l.head? ≠ some p := by
  cases l with
  | nil => exact ⟨fun _ => (by simp), fun _ => Or.inl rfl⟩
  | cons q qs =>
    constructor
    · rintro (h | ⟨pair, hp, hne⟩)
      · cases h
      · rw [List.zip_cons_cons, List.zip_nil_right, List.mem_singleton] at hp
        subst hp
        intro e
        exact hne (Option.some.inj e)
    · intro h
      exact Or.inr ⟨(q, p), List.mem_cons_self, fun e => h (congrArg some e)⟩

/-- For the samples of a copy, only the first call can fail to fit. -/
theorem samples_fit {s : Store} (al : Alloc) (hP : s.Plain) : ∀ (chs : List ChannelPath) (last : Last), (chs.map ChannelPath.path).Nodup →
    (Compatible last (chs.flatMap (sampleCall s)) ↔ FirstFits last (chs.flatMap (sampleCall s)))
  | [], _, _ => Iff.rfl
  | c :: chs, last, hnd => by
    rw [List.map_cons, List.nodup_cons] at hnd
    rw [List.flatMap_cons]
    cases hc : s.content c.path with
    | none =>
      have hno : sampleCall s c = [] := by unfold sampleCall; rw [hc]
      rw [hno]
      exact samples_fit al hP chs last hnd.2
    | some x =>
      obtain ⟨ty, vals⟩ := x
      rw [sampleCall_some hc]
      obtain ⟨_, _, hord, hne⟩ := hP.samples _ _ _ hc
      have htab : Table ty [c] vals := ⟨hord, fun h => (by cases h), by
        rw [List.map_singleton]; exact List.nodup_cons.mpr ⟨fun h => (by cases h), List.nodup_nil⟩, hne, Nat.one_dvd _⟩
      have hn : vals.length / [c].length = vals.length := Nat.div_one _
      constructor
      · rintro ⟨⟨_, h⟩, _⟩
        rcases h with h | ⟨h1, m, h2, h3⟩
        · exact Or.inl ((diverges_head _ _).mp h)
        · refine Or.inr ⟨h1, m, h2, ?_⟩
          rw [hn] at h3
          rcases h3 with h3 | h3
          · rw [h3]
            exact Nat.dvd_refl m
          · exact h3.1
      · intro h
        have hf : Follows last (.write .little ty [c] vals .contigious) := by
          refine ⟨htab, ?_⟩
          rcases h with h | ⟨h1, m, h2, h3⟩
          · exact Or.inl ((diverges_head _ _).mpr h)
          · refine Or.inr ⟨h1, m, h2, Or.inr ⟨?_, Or.inl rfl⟩⟩
            rw [hn]
            exact h3
        have hafter : (last.after (.write .little ty [c] vals .contigious)).channels = [c.path] := by
          unfold Last.after
          dsimp only
          split
          · rfl
          · rename_i hnd'
            rcases h with h | h
            · exact absurd ((diverges_head _ _).mpr h) hnd'
            · exact h.1
        refine ⟨hf, (samples_follow al hP chs _ hnd.2 (fun p hp e => ?_)).1⟩
        rw [hafter] at e
        have hm := firstChannel_samples chs p hp
        rw [← Option.some.inj (show some c.path = some p from e)] at hm
        exact hnd.1 hm

end Library

/-- The calls that copy a file can be made after `last`, as in C31, if and only if the first that writes samples fits. -/
theorem copy_follows_iff (al : Alloc) {source : TdmsFile} {s : Store} (hR : Represents al source s) (hP : s.Plain)
    (typeOf : ChannelPath → STy) (fill : (ty : STy) → ty.Val) (hty : ∀ c ty vals, s.content c.path = some ⟨ty, vals⟩ → typeOf c = ty)
    {cops : List Op} (hc : copyOf al typeOf fill source = .ok cops) (last : Last) : Compatible last cops ↔ FirstFits last cops := by
  obtain ⟨pops, chs, h1, h⟩ := hR.copy hP typeOf fill hty
  rw [h1] at hc
  cases hc
  have hp : ∀ op ∈ pops, ∃ e path ps, op = Op.props e path ps := fun op hop => by
    obtain ⟨path, rfl, _⟩ := h.props op hop
    exact ⟨_, _, _, rfl⟩
  rw [compatible_props_iff last _ _ hp, firstFits_props last _ _ hp]
  exact samples_fit al hP chs last h.distinct

/-- **C95, exactly, in terms of the samples.** As `merge_history_iff`: What has been written can be read back after each of the calls that
    append the second file, if and only if the first channel that they write differs from the first of the list in force in the first
    file, or is the only one of this list, with the same type, and has a multiple of the number of samples that it was given when the
    list was last changed. -/
theorem merge_samples_iff (al : Alloc) {new : TdmsFile} (hnew : TdmsFile.create al = .ok new) (ops ops' : List Op)
    (hcomp : Compatible Last.none ops) (hcomp' : Compatible Last.none ops')
    (htypes : ∀ op ∈ ops ++ ops', ∀ op' ∈ ops ++ ops', ∀ p, Names p op → Names p op' → WriteSpec.typeOf op = WriteSpec.typeOf op')
    (hsz' : (runOps al new ops').bytes.length < 2 ^ 63) (htidy : ∀ op ∈ ops', Tidy op)
    (hchan : ∀ op ∈ ops', ∀ c : ChannelPath, Names c.path op → ∃ g n, c = ChannelPath.new g n)
    (typeOf : ChannelPath → STy) (fill : (ty : STy) → ty.Val)
    (hty : ∀ op ∈ ops', ∀ c : ChannelPath, Names c.path op → WriteSpec.typeOf op = some (typeOf c)) :
    ∃ cops, copyOf al typeOf fill (runOps al new ops') = .ok cops ∧
      ((runOps al new (ops ++ cops)).bytes.length < 2 ^ 63 →
        ((∀ n, ReadsBack al new (ops ++ cops.take n)) ↔ FirstFits (ops.foldl Last.after Last.none) cops)) := by
  obtain ⟨cops, h1, h2⟩ := merge_history_iff al hnew ops ops' hcomp hcomp' htypes hsz' htidy hchan typeOf fill hty
  refine ⟨cops, h1, fun hsz => (h2 hsz).trans ?_⟩
  have htypes' : ∀ op ∈ ops', ∀ op' ∈ ops', ∀ p, Names p op → Names p op' → WriteSpec.typeOf op = WriteSpec.typeOf op' :=
    fun op h op' h' => htypes op (List.mem_append_right _ h) op' (List.mem_append_right _ h')
  have hrep : Represents al (runOps al new ops') (storeOf ops') := by
    rw [created_eq hnew] at hsz' ⊢
    exact represents_history hcomp' htypes' hsz' htidy
  exact copy_follows_iff al hrep (plain_history hcomp' htypes' htidy hchan) typeOf fill (fun c ty vals hc => by
    rcases content_type Store.empty ops' c.path _ hc with ⟨c0, h, _⟩ | ⟨o, ho, hno, hto⟩
    · cases h
    · exact Option.some.inj ((hty o ho c hno).symm.trans hto)) h1 _

/-- The two parts of `merge_exact_example`, which meet the hypotheses: appended the one way round the rule holds, and not the other way
    round. -/
theorem merge_samples_iff_example :
    FirstFits (shortPart.foldl Last.after Last.none) longCopy ∧
    ¬ FirstFits (longPart.foldl Last.after Last.none) (callsOf (copyOf anyAlloc (fun _ => .u16) anyVal (session shortPart))) := by
  have hcopy : longCopy = [.props .little (chan "a").inner [], writeU16 ["a"] [3, 4, 5, 6]] := by decide +kernel
  have hback : callsOf (copyOf anyAlloc (fun _ => .u16) anyVal (session shortPart))
      = [.props .little (chan "a").inner [], writeU16 ["a"] [1, 2]] := by decide +kernel
  rw [hcopy, hback]
  refine ⟨Or.inr ⟨by decide +kernel, 2, by decide +kernel, ⟨2, rfl⟩⟩, ?_⟩
  rintro (h | ⟨_, m, h, hm⟩)
  · exact h (by decide +kernel)
  · have h4 : (longPart.foldl Last.after Last.none).format = some (.u16, 4) := by decide +kernel
    rw [h4] at h
    cases h
    exact absurd hm (by decide)

end Tedium
