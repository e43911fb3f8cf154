import Verif.Props.Concat
import Verif.Props.ExactWrites

/-! # C96: which files can be joined, exactly -/

namespace Tedium
open SegSpec WriteSpec PlanSpec Library

namespace Library

variable {a b : List Segment}

theorem mem_active {segs : List Segment} {p : Text} : p ∈ active segs ↔ ∃ o ∈ listedSince segs, o.rawDataIndex ≠ .none ∧ o.path = p := by
  unfold SegSpec.active activeOf
  rw [mem_firstOccurrences, List.mem_map]
  constructor
  · rintro ⟨o, ho, h⟩
    obtain ⟨h1, h2⟩ := List.mem_filter.mp ho
    exact ⟨o, h1, of_decide_eq_true h2, h⟩
  · rintro ⟨o, h1, h2, h⟩
    exact ⟨o, List.mem_filter.mpr ⟨h1, decide_eq_true h2⟩, h⟩

theorem listedSince_sub (segs : List Segment) : ∀ o ∈ listedSince segs, o ∈ entries segs := by
  induction segs using snocInduction with
  | nil => nofun
  | snoc segs s ih =>
    intro o ho
    rw [listedSince_snoc] at ho
    rw [entries_snoc]
    rcases List.mem_append.mp ho with ho | ho
    · split at ho
      · cases ho
      · exact List.mem_append_left _ (ih o ho)
    · exact List.mem_append_right _ ho

theorem active_listed {segs : List Segment} {p : Text} (h : p ∈ active segs) : Listed (entries segs) p := by
  obtain ⟨o, ho, _, hp⟩ := mem_active.mp h
  exact ⟨o, listedSince_sub segs o ho, hp⟩

/-- Segments without a new list go on with the list in force. -/
theorem listedSince_goes_on (a : List Segment) : ∀ (b : List Segment), (∀ s ∈ b, s.toc.containsNewObjectList = false) →
    listedSince (a ++ b) = listedSince a ++ listedSince b := by
  intro b
  induction b using snocInduction with
  | nil => intro _; rw [List.append_nil]; exact (List.append_nil _).symm
  | snoc b s ih =>
    intro h
    have hs := h s (List.mem_append_right _ (List.mem_singleton.mpr rfl))
    rw [← List.append_assoc, listedSince_snoc, listedSince_snoc, ih fun x hx => h x (List.mem_append_left _ hx), hs]
    exact List.append_assoc _ _ _

/-- A data segment that goes on with the list in force: either the channels listed before get samples from it, or it has no samples. -/
theorem goes_on {c : Text} (hact : c ∈ active a) (hval : 0 < valuesPerChunk a c) (hno : ∀ s ∈ b, s.toc.containsNewObjectList = false)
    (hc : ¬ Listed (entries b) c) (hz : samplesIn (a ++ b) c = 0) (p : Text) : samplesIn (a ++ b) p = 0 := by
  have h1 : c ∈ active (a ++ b) := by
    obtain ⟨o, ho, h⟩ := mem_active.mp hact
    rw [mem_active, listedSince_goes_on a b hno]
    exact ⟨o, List.mem_append_left _ ho, h⟩
  have h2 : valuesPerChunk (a ++ b) c = valuesPerChunk a c := by
    have : layoutOf (entries b) c = none := by
      unfold layoutOf
      rw [List.filter_eq_nil_iff.mpr fun o ho hp => hc ⟨o, ho, of_decide_eq_true hp⟩]
      rfl
    unfold valuesPerChunk
    rw [entries_append, layoutOf_append, this]
    rfl
  unfold samplesIn at hz ⊢
  rw [if_pos h1, h2] at hz
  rcases Nat.mul_eq_zero.mp hz with hz | hz
  · omega
  · rw [hz, Nat.mul_zero, ite_self]

theorem sum_le_of {α : Type} {f g : α → Nat} : ∀ {l : List α}, (∀ x ∈ l, f x ≤ g x) → (l.map f).sum ≤ (l.map g).sum
  | [], _ => Nat.le_refl _
  | x :: l, h => by
    rw [List.map_cons, List.map_cons, List.sum_cons, List.sum_cons]
    have h1 := h x List.mem_cons_self
    have h2 := sum_le_of (l := l) fun y hy => h y (List.mem_cons_of_mem _ hy)
    omega

theorem sum_lt_of {α : Type} {f g : α → Nat} : ∀ {l : List α}, (∀ x ∈ l, f x ≤ g x) → (∃ x ∈ l, f x < g x) → (l.map f).sum < (l.map g).sum
  | [], _, h => by obtain ⟨x, hx, _⟩ := h; cases hx
  | x :: l, h, hlt => by
    rw [List.map_cons, List.map_cons, List.sum_cons, List.sum_cons]
    have h1 := h x List.mem_cons_self
    have h2 := sum_le_of (l := l) fun y hy => h y (List.mem_cons_of_mem _ hy)
    obtain ⟨y, hy, hlt⟩ := hlt
    rcases List.mem_cons.mp hy with rfl | hy
    · omega
    · have h3 := sum_lt_of (l := l) (fun y hy => h y (List.mem_cons_of_mem _ hy)) ⟨y, hy, hlt⟩
      omega

theorem sum_zero {α : Type} {f : α → Nat} {l : List α} (h : (l.map f).sum = 0) : ∀ x ∈ l, f x = 0 := by
  intro x hx
  refine Classical.byContradiction fun hne => ?_
  have := sum_lt_of (f := fun _ => 0) (g := f) (l := l) (fun _ _ => Nat.zero_le _) ⟨x, hx, Nat.pos_of_ne_zero hne⟩
  omega

theorem sampleCount_join (a b : List Segment) (p : Text) :
    sampleCount (a ++ b) p = sampleCount a p + ((dataPrefixes b).map fun pre => samplesIn (a ++ pre) p).sum := by
  unfold sampleCount
  rw [dataPrefixes_join, List.map_append, List.sum_append, List.map_map]
  rfl

/-- If no channel has gained or lost samples, no segment goes on with the list of the segments before. -/
theorem standalone_of_counts {ix : Index} (hb : replay Index.new b = .ok ix) {c : Text} (hact : c ∈ active a)
    (hval : 0 < valuesPerChunk a c) (hc : ¬ Listed (entries b) c)
    (hone : sampleCount (a ++ b) c = sampleCount a c)
    (hdata : ∀ pre ∈ dataPrefixes b, ∃ p, 0 < samplesIn pre p ∧ sampleCount (a ++ b) p = sampleCount a p + sampleCount b p) :
    Standalone b := by
  have hzero : ∀ pre ∈ dataPrefixes b, samplesIn (a ++ pre) c = 0 := by
    rw [sampleCount_join] at hone
    exact sum_zero (by omega)
  have hpre : ∀ pre ∈ dataPrefixes b, pre ≠ [] ∧ (∃ ix, replay Index.new pre = .ok ix) ∧ ¬ Listed (entries pre) c := by
    intro pre hp
    obtain ⟨i, hi⟩ := List.mem_iff_getElem?.mp hp
    obtain ⟨⟨k, hk⟩, hne, _⟩ := dataPrefixes_take b i pre hi
    obtain ⟨ix', hix⟩ := replay_take hb (k + 1)
    rw [← hk] at hix
    refine ⟨hne, ⟨ix', hix⟩, ?_⟩
    rintro ⟨o, ho, hoc⟩
    refine hc ⟨o, ?_, hoc⟩
    rw [hk] at ho
    rw [← List.take_append_drop (k + 1) b, entries_append]
    exact List.mem_append_left _ ho
  intro pre hp
  refine Classical.byContradiction fun hn => ?_
  have hno : ∀ s ∈ pre, s.toc.containsNewObjectList = false := by
    intro s hs
    cases hh : s.toc.containsNewObjectList with
    | false => rfl
    | true => exact absurd ⟨s, hs, hh⟩ hn
  obtain ⟨p, hpos, hcount⟩ := hdata pre hp
  rw [sampleCount_join] at hcount
  have hle : ∀ q ∈ dataPrefixes b, samplesIn (a ++ q) p ≤ samplesIn q p := by
    intro q hq
    obtain ⟨hne, ⟨ix', hix⟩, hlc⟩ := hpre q hq
    by_cases hnew : ∃ s ∈ q, s.toc.containsNewObjectList = true
    · rw [(apart_of (a := a) hix hnew).samples hne p]
      exact Nat.le_refl _
    · rw [goes_on hact hval (fun s hs => by
        cases hh : s.toc.containsNewObjectList with
        | false => rfl
        | true => exact absurd ⟨s, hs, hh⟩ hnew) hlc (hzero q hq) p]
      exact Nat.zero_le _
  have := sum_lt_of hle ⟨pre, hp, by rw [goes_on hact hval hno (hpre pre hp).2.2 (hzero pre hp) p]; exact hpos⟩
  have h2 : sampleCount b p = ((dataPrefixes b).map fun pre => samplesIn pre p).sum := rfl
  omega

theorem prefix_listed {segs pre : List Segment} (h : pre ∈ dataPrefixes segs) {p : Text} (hp : Listed (entries pre) p) :
    Listed (entries segs) p := by
  obtain ⟨i, hi⟩ := List.mem_iff_getElem?.mp h
  obtain ⟨⟨k, hk⟩, _⟩ := dataPrefixes_take _ i pre hi
  obtain ⟨o, ho, hop⟩ := hp
  refine ⟨o, ?_, hop⟩
  rw [hk] at ho
  rw [← List.take_append_drop (k + 1) segs, entries_append]
  exact List.mem_append_left _ ho

theorem content_unlisted {segs : List Segment} {p : Text} (h : ¬ Listed (entries segs) p) (ty : Text → STy) (f : Bytes) :
    (storeIn ty f segs).content p = none := by
  rw [storeIn_content]
  cases hd : hasData segs p with
  | false => rfl
  | true =>
    obtain ⟨pre, hpre, hpa⟩ := hasData_iff.mp hd
    exact absurd (prefix_listed hpre (active_listed hpa)) h

theorem plus_count (s s' : Store) (h : s.Agrees s') (p : Text) : (s.plus s').count p = s.count p + s'.count p := by
  have hp : (s.plus s').content p = match s'.content p with
    | none => s.content p
    | some ⟨_, vals⟩ => some (extend vals (s.content p)) := rfl
  unfold Store.count
  rw [hp]
  cases h' : s'.content p with
  | none => dsimp only; rfl
  | some c' =>
    obtain ⟨ty', vals'⟩ := c'
    cases hs : s.content p with
    | none => dsimp only [extend]; omega
    | some c =>
      obtain ⟨ty, vals⟩ := c
      have : ty = ty' := h p _ _ hs h'
      subst this
      dsimp only [extend]
      rw [dif_pos rfl]
      dsimp only
      exact List.length_append

end Library

/-- A file with one sample in the channel `c`. -/
def probe (c : ChannelPath) : List Op := [.write .little .u8 [c] (vals8 [0]) .interleaved]

/-- **C96, the condition on the second file is exact.** Take a file in which every data segment has samples of a channel, and a channel it does not have. The file can be
    put behind every other file, such that each channel has as many samples as in both together, exactly if none of its segments with raw data goes on
    with a list of channels from before its first new list. (That then the properties and the samples themselves are those of both files
    is `join_partial`.) -/
theorem join_iff {al : Alloc} {fs' : List FileSegment} {t' : TdmsFile} {ty' : Text → STy} {last' : Last}
    (he' : Existing al fs' t' ty' last')
    (hdata : ∀ pre ∈ dataPrefixes (fs'.map FileSegment.segment), ∃ d : ChannelPath, 0 < samplesIn pre d.path)
    (c : ChannelPath) (hc : ¬ Listed (entries (fs'.map FileSegment.segment)) c.path) (hfit : Text.Fits c.path)
    (hroom : ((runOps al ⟨Index.new, []⟩ (probe c)).bytes ++ t'.bytes).length < 2 ^ 63) :
    (∀ (fs : List FileSegment) (t : TdmsFile) (ty : Text → STy) (last : Last), Existing al fs t ty last →
      (storeIn ty t.bytes (fs.map FileSegment.segment)).Agrees (storeIn ty' t'.bytes (fs'.map FileSegment.segment)) →
      (t.bytes ++ t'.bytes).length < 2 ^ 63 →
      ∃ t'', TdmsFile.new al (t.bytes ++ t'.bytes) = .ok t'' ∧ ∀ d : ChannelPath,
        ((storeIn ty t.bytes (fs.map FileSegment.segment)).plus (storeIn ty' t'.bytes (fs'.map FileSegment.segment))).Answers al
          (.length d) ((Query.length d).run al t''))
      ↔ Standalone (fs'.map FileSegment.segment) := by
  constructor
  · intro h
    have hfits : ∀ op ∈ probe c, OpFits op := by
      intro op hop
      rw [List.mem_singleton.mp hop]
      refine ⟨⟨by decide, by decide⟩, show 1 < 2 ^ 32 by decide, fun d hd => ?_⟩
      rw [List.mem_singleton.mp hd]
      exact hfit
    have hdiv : Diverges Last.none.channels ([c].map ChannelPath.path) := Or.inl rfl
    have hcomp : Compatible Last.none (probe c) :=
      ⟨⟨⟨rfl, List.cons_ne_nil _ _, List.pairwise_singleton _ _, by decide, ⟨1, rfl⟩⟩, Or.inl hdiv⟩, trivial⟩
    have htypes : ∀ op ∈ probe c, ∀ op' ∈ probe c, ∀ p, Names p op → Names p op' → typeOf op = typeOf op' := by
      intro op ho op' ho' _ _ _
      rw [List.mem_singleton.mp ho, List.mem_singleton.mp ho']
    have hsz2 := hroom
    rw [List.length_append] at hsz2
    obtain ⟨fs, he, hs, _⟩ := history_existing he'.generous hcomp htypes hfits ⟨Or.inl hdiv, trivial⟩ (by omega)
    have hlast : (probe c).foldl Last.after Last.none = ⟨[c.path], some (.u8, 1)⟩ := by
      show Last.after Last.none (.write .little .u8 [c] (vals8 [0]) .interleaved) = _
      unfold Last.after
      dsimp only
      rw [if_pos hdiv, show (vals8 [0]).length / [c].length = 1 from (show 1 / 1 = 1 by decide)]
      rfl
    rw [hlast] at he
    obtain ⟨t, ht⟩ : ∃ t, t = runOps al ⟨Index.new, []⟩ (probe c) := ⟨_, rfl⟩
    rw [← ht] at he hs hroom hsz2
    have hact : c.path ∈ active (fs.map FileSegment.segment) := by
      rw [he.channels]
      exact List.mem_singleton.mpr rfl
    have hval : 0 < valuesPerChunk (fs.map FileSegment.segment) c.path := by
      obtain ⟨l, h1, _, h2, _⟩ := (he.format .u8 1 rfl).2.layout c.path (List.mem_singleton.mpr rfl)
      unfold valuesPerChunk
      rw [h1]
      dsimp only
      omega
    have hM := he.models (by omega)
    have hM' := he'.models (by omega)
    have hag : (storeIn (storeOf (probe c)).types t.bytes (fs.map FileSegment.segment)).Agrees
        (storeIn ty' t'.bytes (fs'.map FileSegment.segment)) := by
      intro p x x' hx hx'
      exfalso
      have hp : p = c.path := by
        refine Classical.byContradiction fun hp => ?_
        rw [hs, store_content_none (probe c) p fun op hop hn => by
          rw [List.mem_singleton.mp hop] at hn
          obtain ⟨d, hd, hdp⟩ := hn
          rw [List.mem_singleton.mp hd] at hdp
          exact hp hdp.symm] at hx
        cases hx
      rw [hp, content_unlisted hc] at hx'
      cases hx'
    obtain ⟨t'', hopen, hans⟩ := h fs t _ _ he hag (by rw [List.length_append] at hroom ⊢; omega)
    have hh := Holds.of_opened al he.generous he.fits he.opened
    have hh' := Holds.of_opened al he'.generous he'.fits he'.opened
    have hh'' : Holds (fs ++ fs') t'' := by
      refine .of_opened al he.generous (fun s hs => (List.mem_append.mp hs).elim (he.fits s) (he'.fits s)) ?_
      rw [List.flatMap_append, ← hh.bytes, ← hh'.bytes]
      exact hopen
    have hidx := hh''.index
    rw [List.map_append] at hidx
    have hlen : ∀ d : ChannelPath, Listed (entries (fs.map FileSegment.segment)) d.path ∨ Listed (entries (fs'.map FileSegment.segment)) d.path →
        sampleCount (fs.map FileSegment.segment ++ fs'.map FileSegment.segment) d.path
          = sampleCount (fs.map FileSegment.segment) d.path + sampleCount (fs'.map FileSegment.segment) d.path := by
      intro d hd
      have h1 := (hans d).1 hd
      rw [plus_count _ _ hag, ← hM.count, ← hM'.count] at h1
      change (t''.channelLength d).map Reply.length = _ at h1
      cases hl : t''.channelLength d with
      | error e => rw [hl] at h1; cases h1
      | ok n =>
        rw [hl] at h1
        injection h1 with h1
        injection h1 with h1
        rw [h1] at hl
        exact ((channelLength_count hidx d _).mp hl).2.1
    have hzero : sampleCount (fs'.map FileSegment.segment) c.path = 0 := by
      rw [hM'.count]
      unfold Store.count
      rw [content_unlisted hc]
    refine standalone_of_counts hh'.index hact hval hc ?_ ?_
    · rw [hlen c (Or.inl (active_listed hact)), hzero, Nat.add_zero]
    · intro pre hpre
      obtain ⟨d, hd⟩ := hdata pre hpre
      refine ⟨d.path, hd, hlen d (Or.inr ?_)⟩
      have hda : d.path ∈ active pre := by
        unfold samplesIn at hd
        split at hd
        · assumption
        · omega
      exact prefix_listed hpre (active_listed hda)
  · intro hst fs t ty last he hag hsz
    obtain ⟨t'', ty'', h1, h2, h3, h4⟩ := join_partial he he' hst hag hsz
    have hM := h3.models (by rw [h2]; exact hsz)
    rw [h4] at hM
    exact ⟨t'', h1, fun d => hM.answers_length d⟩

/-- The other hypotheses of `join_iff` hold of `windowFile` (see `windowFile_existing`) and of `listlessFile`, for the channel `z`; the first is standalone
    (`windowFile_standalone`), the second is not. -/
theorem join_iff_example :
    (∀ fs ∈ [windowFile, listlessFile],
      (∀ pre ∈ dataPrefixes (fs.map FileSegment.segment), ∃ d : ChannelPath, 0 < samplesIn pre d.path) ∧
      ¬ Listed (entries (fs.map FileSegment.segment)) (chan "z").path ∧
      ((session (probe (chan "z"))).bytes ++ fileOf fs).length < 2 ^ 63) ∧
    Text.Fits (chan "z").path ∧ ¬ Standalone (listlessFile.map FileSegment.segment) := by
  refine ⟨?_, show (utf8Enc _).length < 2 ^ 32 by decide +kernel, ?_⟩
  · intro fs hfs
    simp only [List.mem_cons, List.not_mem_nil, or_false] at hfs
    rcases hfs with rfl | rfl
    · refine ⟨?_, ?_, by decide +kernel⟩
      · have h : ∀ pre ∈ dataPrefixes (windowFile.map FileSegment.segment), 0 < samplesIn pre (chan "a").path := by decide +kernel
        exact fun pre hpre => ⟨chan "a", h pre hpre⟩
      · have h : ∀ o ∈ entries (windowFile.map FileSegment.segment), o.path ≠ (chan "z").path := by decide +kernel
        exact fun ⟨o, ho, hp⟩ => h o ho hp
    · refine ⟨?_, ?_, by decide +kernel⟩
      · have h : ∀ pre ∈ dataPrefixes (listlessFile.map FileSegment.segment), 0 < samplesIn pre (chan "c").path := by decide +kernel
        exact fun pre hpre => ⟨chan "c", h pre hpre⟩
      · have h : ∀ o ∈ entries (listlessFile.map FileSegment.segment), o.path ≠ (chan "z").path := by decide +kernel
        exact fun ⟨o, ho, hp⟩ => h o ho hp
  · intro h
    have h1 : listlessFile.map FileSegment.segment ∈ dataPrefixes (listlessFile.map FileSegment.segment) := by decide +kernel
    have h2 : ∀ s ∈ listlessFile.map FileSegment.segment, s.toc.containsNewObjectList = false := by decide +kernel
    obtain ⟨s, hs, hn⟩ := h _ h1
    rw [h2 s hs] at hn
    cases hn

end Tedium
