import Verif.Spec.Extends
import Verif.Props.Open
import Verif.Props.Buffers
import Verif.Props.Listing
import Verif.Proofs.Persist

/-!
# C59: files that are still growing, and files that were cut

`f` is what is there of a file now, `f ++ g` the file later. Both are any byte strings: nothing is assumed
about who wrote them. -/

namespace Tedium
open SegSpec WriteSpec ReadSpec

/-- What is read of a prefix of a file that can be opened: some of its segments, and then the end of the file, or
    a header that is not complete. -/
theorem parses_prefix {al : Alloc} {f g : Bytes} {pos : Nat} {segs : List Segment}
    (h : Parses al (f ++ g) pos segs (.err .endOfFile)) :
    ∃ pre post, segs = pre ++ post ∧
      ((Parses al f pos pre (.err .endOfFile) ∧ f.length < pos + endOf pre + 4) ∨
       (Parses al f pos pre (.err (.ioError .unexpectedEof)) ∧ pos + endOf pre + 4 ≤ f.length ∧
         ∃ s rest q, post = s :: rest ∧ Segment.read al (f ++ g) (pos + endOf pre) = .ok (s, q) ∧ f.length < q)) := by
  generalize hl : (Fail.err .endOfFile) = last at h
  induction h with
  | @done pos last hr =>
    subst hl
    refine ⟨[], [], rfl, Or.inl ?_⟩
    have hlen : f.length < pos + 4 := by
      have := (Segment.read_eof_iff al (f ++ g) pos).mp hr
      rw [List.length_append] at this
      omega
    exact ⟨.done ((Segment.read_eof_iff al f pos).mpr hlen), by simp only [endOf, List.map_nil, List.sum_nil]; omega⟩
  | @segment pos q s segs last hr _ ih =>
    subst hl
    by_cases hq : q ≤ f.length
    · have hrf : Segment.read al f pos = .ok (s, q) :=
        Segment.read_stable hr (by rw [List.take_append_of_le_length hq])
      obtain ⟨pre, post, hsplit, hcase⟩ := ih rfl
      have hend : pos + endOf (s :: pre) = pos + (28 + s.nextSegmentOffset) + endOf pre := by
        simp only [endOf, List.map_cons, List.sum_cons]; omega
      refine ⟨s :: pre, post, by rw [hsplit]; rfl, ?_⟩
      rw [hend]
      rcases hcase with ⟨h1, h2⟩ | ⟨h1, h2, h3⟩
      · exact Or.inl ⟨.segment hrf h1, h2⟩
      · exact Or.inr ⟨.segment hrf h1, h2, h3⟩
    · have hcut := Segment.read_cut hr f.length (by omega)
      rw [List.take_left' rfl] at hcut
      refine ⟨[], s :: segs, rfl, ?_⟩
      have hend : pos + endOf [] = pos := by simp [endOf]
      rw [hend]
      by_cases h4 : f.length < pos + 4
      · rw [if_pos h4] at hcut
        exact Or.inl ⟨.done hcut, h4⟩
      · rw [if_neg h4] at hcut
        exact Or.inr ⟨.done hcut, by omega, s, segs, q, rfl, hr, by omega⟩

/-- What is read of a file that has grown, when reading stopped at something other than the end of the file. -/
theorem parses_keep {al : Alloc} {f : Bytes} (g : Bytes) {pos : Nat} {segs : List Segment} {last : Fail}
    (h : Parses al f pos segs last) (h1 : last ≠ .err .endOfFile) (h2 : last ≠ .err (.ioError .unexpectedEof)) :
    Parses al (f ++ g) pos segs last := by
  induction h with
  | done hr => exact .done (Segment.read_keep g hr h1 h2)
  | segment hr _ ih =>
    have := (Segment.read_length hr).2
    exact .segment (Segment.read_stable hr (by rw [List.take_append_of_le_length (by omega)])) (ih h1 h2)

/-- The segments read of a file are read of the file when it has grown. -/
theorem parses_grow {al : Alloc} {f : Bytes} (g : Bytes) {pos : Nat} {segs : List Segment} {last : Fail}
    (h : Parses al f pos segs last) : ∃ more last', Parses al (f ++ g) pos (segs ++ more) last' := by
  induction h with
  | @done pos _ _ =>
    obtain ⟨segs, last, h⟩ := Parses.exists al (f ++ g) pos
    exact ⟨segs, last, h⟩
  | segment hr _ ih =>
    obtain ⟨more, last', h⟩ := ih
    have := (Segment.read_length hr).2
    exact ⟨more, last', .segment (Segment.read_stable hr (by rw [List.take_append_of_le_length (by omega)])) h⟩

/-- Reading stops in the first header that is cut after its tag. -/
theorem parses_cut {al : Alloc} {f g : Bytes} {s : Segment} {rest : List Segment} {last : Fail} {q : Nat} :
    ∀ (pre : List Segment) {pos : Nat}, Parses al (f ++ g) pos (pre ++ s :: rest) last →
    Segment.read al (f ++ g) (pos + endOf pre) = .ok (s, q) → pos + endOf pre + 4 ≤ f.length → f.length < q →
    ∃ a b, pre = a ++ b ∧ Parses al f pos a (.err (.ioError .unexpectedEof)) := by
  intro pre
  induction pre with
  | nil =>
    intro pos _ hr h4 hq
    have hend : pos + endOf [] = pos := by simp [endOf]
    rw [hend] at hr h4
    have hcut := Segment.read_cut hr f.length hq
    rw [List.take_left' rfl, if_neg (by omega)] at hcut
    exact ⟨[], [], rfl, .done hcut⟩
  | cons x pre ih =>
    intro pos h hr h4 hq
    have hend : pos + endOf (x :: pre) = pos + (28 + x.nextSegmentOffset) + endOf pre := by
      simp only [endOf, List.map_cons, List.sum_cons]; omega
    rw [hend] at hr h4
    cases h with
    | @segment _ q' _ _ _ hx hrest =>
      by_cases hq' : q' ≤ f.length
      · obtain ⟨a, b, hab, hp⟩ := ih hrest hr h4 hq
        exact ⟨x :: a, b, by rw [hab]; rfl,
          .segment (Segment.read_stable hx (by rw [List.take_append_of_le_length hq'])) hp⟩
      · have hcut := Segment.read_cut hx f.length (by omega)
        rw [List.take_left' rfl, if_neg (by omega)] at hcut
        exact ⟨[], x :: pre, rfl, .done hcut⟩

/-! ## Adding segments keeps everything -/

theorem fold_propOf (kept : List ObjectMetaData) : ∀ (objs : SMap ObjectData) (p n : Text) (v : PropertyValue),
    propOf objs p n = some v → ∃ v', propOf (kept.foldl (fun objs e =>
      objs.insert e.path (updatedObject (objs.get? e.path) e)) objs) p n = some v' := by
  induction kept with
  | nil => intro objs p n v h; exact ⟨v, h⟩
  | cons e es ih =>
    intro objs p n v h
    rw [List.foldl_cons]
    have h1 := propOf_insert objs e p n
    rw [h] at h1
    cases hx : (if e.path = p then lastValue e.properties n else none) with
    | none => rw [hx] at h1; exact ih _ p n v h1
    | some v' => rw [hx] at h1; exact ih _ p n v' h1

theorem addSegment_keeps_prop (ix : Index) (s : Segment) (p n : Text) (v : PropertyValue)
    (h : propOf ix.objects p n = some v) : ∃ v', propOf (ix.addSegment s).2.objects p n = some v' := by
  rw [addSegment_propOf]
  obtain ⟨kept, _, hk⟩ := afterObjects_objects ix s
  rw [hk]
  exact fold_propOf kept ix.objects p n v h

/-- What stays when the index goes from `ix` to `ix'`. -/
structure IndexGrows (ix ix' : Index) : Prop where
  blocks : ∃ bs, ix'.dataBlocks = ix.dataBlocks ++ bs
  objects : ∀ p o, ix.objects.get? p = some o →
    ∃ o', ix'.objects.get? p = some o' ∧ o.dataLocations <+: o'.dataLocations
  props : ∀ p n v, propOf ix.objects p n = some v → ∃ v', propOf ix'.objects p n = some v'

theorem IndexGrows.refl (ix : Index) : IndexGrows ix ix :=
  ⟨⟨[], (List.append_nil _).symm⟩, fun _ o h => ⟨o, h, List.prefix_rfl⟩, fun _ _ v h => ⟨v, h⟩⟩

theorem IndexGrows.trans {a b c : Index} (h : IndexGrows a b) (h' : IndexGrows b c) : IndexGrows a c where
  blocks := by
    obtain ⟨x, hx⟩ := h.blocks
    obtain ⟨y, hy⟩ := h'.blocks
    exact ⟨x ++ y, by rw [hy, hx, List.append_assoc]⟩
  objects := by
    intro p o ho
    obtain ⟨o1, h1, h2⟩ := h.objects p o ho
    obtain ⟨o2, h3, h4⟩ := h'.objects p o1 h1
    exact ⟨o2, h3, h2.trans h4⟩
  props := by
    intro p n v hv
    obtain ⟨v1, h1⟩ := h.props p n v hv
    exact h'.props p n v1 h1

theorem IndexGrows.addSegment (ix : Index) (s : Segment) : IndexGrows ix (ix.addSegment s).2 :=
  ⟨addSegment_blocks ix s, addSegment_grows ix s, addSegment_keeps_prop ix s⟩

theorem IndexGrows.replay {ix ix' : Index} {segs : List Segment} (h : SegSpec.replay ix segs = .ok ix') : IndexGrows ix ix' := by
  induction segs generalizing ix with
  | nil => cases h; exact .refl _
  | cons s segs ih =>
    have h1 := IndexGrows.addSegment ix s
    rw [show SegSpec.replay ix (s :: segs) = (match ix.addSegment s with
      | (.error e, _) => Except.error e
      | (.ok _, ix) => SegSpec.replay ix segs) from rfl] at h
    revert h h1
    cases ix.addSegment s with
    | mk r ix1 =>
      cases r with
      | error e => intro h; cases h
      | ok n => intro h h1; exact h1.trans (ih h)

theorem IndexGrows.runOps (al : Alloc) (ops : List Op) : ∀ (t : TdmsFile), IndexGrows t.index (runOps al t ops).index := by
  induction ops with
  | nil => intro t; exact .refl _
  | cons op ops ih =>
    intro t
    refine IndexGrows.trans ?_ (ih (op.run al t).2)
    rcases Op.run_index al t op with hi | ⟨s, hi⟩
    · rw [hi]; exact .refl _
    · rw [hi]; exact .addSegment _ s

theorem collectGroups_mem {ps : List Text} : ∀ {m m' : SMap Unit}, TdmsFile.collectGroups m ps = .ok m' → ∀ g,
    g ∈ SMap.keys m' ↔ g ∈ SMap.keys m ∨ ∃ p ∈ ps, pathGroupName p = .ok (some g) := by
  induction ps with
  | nil => intro m m' h g; cases h; simp
  | cons p ps ih =>
    intro m m' h g
    unfold TdmsFile.collectGroups at h
    cases hp : pathGroupName p with
    | error e => rw [hp] at h; cases h
    | ok o =>
      rw [hp] at h
      cases o with
      | none =>
        rw [ih h g]
        simp [hp]
      | some g' =>
        rw [ih h g]
        simp only [SMap.mem_keys, SMap.get?_insert, List.mem_cons, exists_eq_or_imp, hp, Except.ok.injEq, Option.some.injEq]
        by_cases hg : g' = g
        · simp [hg]
        · simp [hg]

theorem filterChannels_mem {ps : List Text} : ∀ {cs : List ChannelPath}, TdmsFile.filterChannels ps = .ok cs → ∀ c,
    c ∈ cs ↔ ∃ p ∈ ps, ChannelPath.tryFrom p = .ok c := by
  induction ps with
  | nil => intro cs h c; cases h; simp
  | cons p ps ih =>
    intro cs h c
    unfold TdmsFile.filterChannels at h
    cases hp : ChannelPath.tryFrom p with
    | error e =>
      rw [hp] at h
      cases e with
      | err e => rw [ih h c]; simp [hp]
      | panic _ => cases h
      | hang => cases h
    | ok c0 =>
      rw [hp] at h
      cases hr : TdmsFile.filterChannels ps with
      | error e => rw [hr] at h; cases h
      | ok cs0 =>
        rw [hr] at h
        cases h
        rw [List.mem_cons, ih hr c]
        simp only [List.mem_cons, exists_eq_or_imp, hp, Except.ok.injEq]
        constructor
        · rintro (rfl | h)
          · exact Or.inl rfl
          · exact Or.inr h
        · rintro (rfl | h)
          · exact Or.inl rfl
          · exact Or.inr h

/-- If the bytes and the index grow, then the file extends the other. -/
theorem extends_of_grows {al : Alloc} {t t' : TdmsFile} (hs : Session al t) (hs' : Session al t')
    (hb : t.bytes <+: t'.bytes) (hi : IndexGrows t.index t'.index) : Extends al t t' := by
  have hg : Grows t t' := ⟨⟨_, (List.prefix_iff_eq_append.mp hb).symm⟩, hi.blocks⟩
  have hloc : ∀ c ls, t.index.getChannelDataPositions c = some ls →
      ∃ more, t'.index.getChannelDataPositions c = some (ls ++ more) := by
    intro c ls h
    unfold Index.getChannelDataPositions at h ⊢
    cases ho : t.index.objects.get? c.path with
    | none => rw [ho] at h; cases h
    | some o =>
      rw [ho] at h
      cases h
      obtain ⟨o', h1, more, h2⟩ := hi.objects c.path o ho
      exact ⟨more, by rw [h1]; exact congrArg some h2.symm⟩
  have hkeys : ∀ p, p ∈ t.index.objects.keys → p ∈ t'.index.objects.keys := by
    intro p hp
    rw [SMap.mem_keys] at hp ⊢
    obtain ⟨o, ho⟩ := hp
    obtain ⟨o', ho', _⟩ := hi.objects p o ho
    exact ⟨o', ho'⟩
  constructor
  · intro path h
    exact (has_iff t' path.path).mpr (hkeys _ ((has_iff t path.path).mp h))
  · intro path name v h
    unfold TdmsFile.readProperty Index.getObjectProperty at h ⊢
    cases ho : t.index.objects.get? path.path with
    | none => rw [ho] at h; cases h
    | some o =>
      rw [ho] at h
      have hp : propOf t.index.objects path.path name = some v := by
        unfold propOf
        rw [ho]
        exact Except.ok.inj h
      obtain ⟨v', hv'⟩ := hi.props _ _ _ hp
      unfold propOf at hv'
      cases ho' : t'.index.objects.get? path.path with
      | none => rw [ho'] at hv'; cases hv'
      | some o' => rw [ho'] at hv'; exact ⟨v', congrArg Except.ok hv'⟩
  · intro gs gs' h h' g hgm
    unfold TdmsFile.listGroups at h h'
    cases hm : TdmsFile.collectGroups [] t.index.allPaths with
    | error e => rw [hm] at h; cases h
    | ok m =>
      cases hm' : TdmsFile.collectGroups [] t'.index.allPaths with
      | error e => rw [hm'] at h'; cases h'
      | ok m' =>
        rw [hm] at h
        rw [hm'] at h'
        cases h
        cases h'
        rcases (collectGroups_mem hm g).mp hgm with h | ⟨p, hp, hpg⟩
        · cases h
        · exact (collectGroups_mem hm' g).mpr (Or.inr ⟨p, hkeys p hp, hpg⟩)
  · intro group cs cs' h h' c hc
    obtain ⟨p, hp, hpc⟩ := (filterChannels_mem h c).mp hc
    refine (filterChannels_mem h' c).mpr ⟨p, ?_, hpc⟩
    unfold Index.pathsStartingWith at hp ⊢
    rw [SMap.range_scan (SMap.sorted_keys hs.reach.inv.sorted), List.mem_filter] at hp
    rw [SMap.range_scan (SMap.sorted_keys hs'.reach.inv.sorted), List.mem_filter]
    exact ⟨hkeys p hp.1, hp.2⟩
  · intro c n r h h'
    unfold TdmsFile.channelLength Index.channelLength at h h'
    cases ho : t.index.objects.get? c.path with
    | none => rw [ho] at h; cases h
    | some o =>
      obtain ⟨o', ho', more, hmore⟩ := hi.objects _ o ho
      rw [ho] at h
      rw [ho'] at h'
      dsimp only at h h'
      split at h
      · split at h'
        · cases h
          cases h'
          exact ⟨_, rfl, by rw [← hmore, List.map_append, List.sum_append]; omega⟩
        · cases h'
      · cases h
  · intro ty c start n vals hn h hfull
    obtain ⟨ls, vs, hc, hx⟩ := read_exec (by omega) (h.2 vals hfull)
    rw [hfull] at hx
    obtain rfl := delivers_unique h (exec_delivers hn hc hx)
    obtain ⟨more, hm⟩ := hloc c ls hc
    exact exec_delivers hn hm (execOne_full (STy.mono al ty) hg ls more hn hx (by omega))
  · intro ty c start n m vals vals' hle h h'
    by_cases hn : 0 < n
    · obtain ⟨a, _, _⟩ := ty.two_values
      obtain ⟨ls, vs, hc, hx⟩ := read_exec (by simpa using hn) (h.2 (List.replicate n a) (by simp))
      obtain ⟨ls', vs', hc', hx'⟩ := read_exec (by simp; omega) (h'.2 (List.replicate m a) (by simp))
      obtain ⟨more, hm⟩ := hloc c ls hc
      rw [hm] at hc'
      cases hc'
      rw [List.length_replicate] at hx hx'
      rw [delivers_unique h (exec_delivers hn hc hx), delivers_unique h' (exec_delivers (by omega) hm hx')]
      exact execOne_grows (STy.mono al ty) hg ls more hle hx hx'
    · have h1 := h.1
      obtain rfl : vals = [] := List.length_eq_zero_iff.mp (by omega)
      exact List.nil_prefix

/-! ## C59 -/

/-- **C59, nothing is taken back.** If the file can be opened now and can be opened when it has grown, then it has then
    all that it has now: objects, property names, groups, channels, at least the lengths, and the samples. No
    assumption on who wrote the file, where it was cut, or what was appended. -/
theorem growing_file_extends {al : Alloc} {f g : Bytes} {t t' : TdmsFile} (h : TdmsFile.new al f = .ok t)
    (h' : TdmsFile.new al (f ++ g) = .ok t') : Extends al t t' := by
  obtain ⟨hb, segs, hp, hr⟩ := opened h
  obtain ⟨hb', segs', hp', hr'⟩ := opened h'
  refine extends_of_grows (.opened h) (.opened h') (by rw [hb, hb']; exact List.prefix_append f g) ?_
  obtain ⟨more, last, hm⟩ := parses_grow g hp
  obtain ⟨rfl, _⟩ := hp'.unique hm
  rw [replay_append, hr] at hr'
  exact IndexGrows.replay hr'

/-- **C59, errors are final.** If the file cannot be opened, and not because it ends too early, it cannot be
    opened, with the same error, whatever is appended. -/
theorem growing_file_rejected {al : Alloc} {f : Bytes} {e : Fail} (h : TdmsFile.new al f = .error e)
    (he : e ≠ .err (.ioError .unexpectedEof)) (g : Bytes) : TdmsFile.new al (f ++ g) = .error e := by
  obtain ⟨segs, last, hp⟩ := Parses.exists al f 0
  unfold TdmsFile.new at h ⊢
  rw [buildIndex_eq hp] at h
  unfold openResult at h
  cases hr : replay Index.new segs with
  | error e' =>
    rw [hr] at h
    cases h
    obtain ⟨more, last', hm⟩ := parses_grow g hp
    rw [buildIndex_eq hm]
    unfold openResult
    rw [replay_append, hr]
    rfl
  | ok ix =>
    rw [hr] at h
    dsimp only at h
    split at h
    · cases h
    · rename_i hl
      cases h
      rw [buildIndex_eq (parses_keep g hp hl he)]
      unfold openResult
      rw [hr]
      dsimp only
      rw [if_neg hl]
      rfl

/-- **C59, a part of a good file.** If the file can be opened when it is complete, then every part of it from the
    start can be opened, or opening it ends with `UnexpectedEof`. -/
theorem growing_file_opens {al : Alloc} {f g : Bytes} {t' : TdmsFile} (h : TdmsFile.new al (f ++ g) = .ok t') :
    (∃ t, TdmsFile.new al f = .ok t ∧ Extends al t t') ∨ TdmsFile.new al f = R.err (.ioError .unexpectedEof) := by
  cases hf : TdmsFile.new al f with
  | ok t => exact Or.inl ⟨t, rfl, growing_file_extends hf h⟩
  | error e =>
    by_cases he : e = .err (.ioError .unexpectedEof)
    · rw [he]; exact Or.inr rfl
    · rw [growing_file_rejected hf he g] at h; cases h

/-- **C59, which parts.** `UnexpectedEof` is the answer exactly when the cut falls into the header of one of the
    segments of the complete file, after its tag: between the fourth byte and the end of its metadata. -/
theorem growing_file_cut {al : Alloc} {f g : Bytes} {t' : TdmsFile} (h : TdmsFile.new al (f ++ g) = .ok t')
    {segs : List Segment} (hp : Parses al (f ++ g) 0 segs (.err .endOfFile)) :
    TdmsFile.new al f = R.err (.ioError .unexpectedEof) ↔
      ∃ pre s post q, segs = pre ++ s :: post ∧ Segment.read al (f ++ g) (endOf pre) = .ok (s, q) ∧
        endOf pre + 4 ≤ f.length ∧ f.length < q := by
  obtain ⟨_, segs', hp', hr'⟩ := opened h
  obtain ⟨rfl, _⟩ := hp.unique hp'
  have hpre : ∀ a b, segs = a ++ b → ∃ ix, replay Index.new a = .ok ix := by
    intro a b hab
    rw [hab, replay_append] at hr'
    cases hra : replay Index.new a with
    | error e => rw [hra] at hr'; cases hr'
    | ok ix => exact ⟨ix, rfl⟩
  constructor
  · intro hf
    obtain ⟨pre, post, hsplit, hcase⟩ := parses_prefix hp
    rw [Nat.zero_add] at hcase
    rcases hcase with ⟨h1, _⟩ | ⟨_, h4, s, rest, q, hpost, hr, hq⟩
    · obtain ⟨ix, hix⟩ := hpre pre post hsplit
      unfold TdmsFile.new at hf
      rw [buildIndex_eq h1] at hf
      unfold openResult at hf
      rw [hix] at hf
      cases hf
    · exact ⟨pre, s, rest, q, by rw [hsplit, hpost], hr, h4, hq⟩
  · rintro ⟨pre, s, post, q, hsplit, hr, h4, hq⟩
    rw [hsplit] at hp
    obtain ⟨a, b, hab, hpa⟩ := parses_cut pre hp (by rw [Nat.zero_add]; exact hr) (by omega) hq
    obtain ⟨ix, hix⟩ := hpre a (b ++ s :: post) (by rw [hsplit, hab, List.append_assoc])
    unfold TdmsFile.new
    rw [buildIndex_eq hpa]
    unfold openResult
    rw [hix]
    rfl

/-- **C26, C59, what is seen.** A file that can be opened is cut, and what is left can be opened. Then it shows the first
    segments of the file, and exactly those of which at least the tag is left (so the header is complete, by
    `growing_file_cut`). -/
theorem cut_file_segments {al : Alloc} {f g : Bytes} {t t' : TdmsFile} (h : TdmsFile.new al f = .ok t)
    (h' : TdmsFile.new al (f ++ g) = .ok t') {segs : List Segment} (hp : Parses al (f ++ g) 0 segs (.err .endOfFile)) :
    ∃ pre post, segs = pre ++ post ∧ replay Index.new pre = .ok t.index ∧ replay Index.new segs = .ok t'.index ∧
      f.length < endOf pre + 4 ∧ ∀ a s b, pre = a ++ s :: b → endOf a + 32 ≤ f.length := by
  obtain ⟨_, segs', hp', hr'⟩ := opened h'
  obtain ⟨rfl, _⟩ := hp.unique hp'
  obtain ⟨_, pre, hpf, hr⟩ := opened h
  obtain ⟨pre', post, hsplit, hcase⟩ := parses_prefix hp
  rw [Nat.zero_add] at hcase
  rcases hcase with ⟨h1, h2⟩ | ⟨h1, _⟩
  · obtain ⟨rfl, _⟩ := hpf.unique h1
    refine ⟨pre, post, hsplit, hr, hr', h2, ?_⟩
    have key : ∀ (a : List Segment) (pos : Nat) (s : Segment) (b : List Segment),
        Parses al f pos (a ++ s :: b) (.err .endOfFile) → pos + endOf a + 32 ≤ f.length := by
      intro a
      induction a with
      | nil =>
        intro pos s b h
        cases h with
        | segment hr _ => have := Segment.read_length hr; simp only [endOf, List.map_nil, List.sum_nil]; omega
      | cons x a ih =>
        intro pos s b h
        cases h with
        | segment _ hrest =>
          have := ih _ s b hrest
          simp only [endOf, List.map_cons, List.sum_cons] at this ⊢
          omega
    rintro a s b rfl
    have := key a 0 s b hpf
    omega
  · have := (hpf.unique h1).2
    cases this

/-- **C52 as a whole.** After any calls, successful or not, a file has all that it had before. -/
theorem later_calls_extend {al : Alloc} {t : TdmsFile} (ht : Session al t) (ops : List Op) :
    Extends al t (runOps al t ops) := by
  refine extends_of_grows ht (ht.runOps ops) ?_ (IndexGrows.runOps al ops t)
  obtain ⟨g, hg⟩ := (later al ops t).1.1
  exact ⟨g, hg.symm⟩

/-- Four parts of a file of 142 bytes that holds two calls: the first call; the first call and half a header; everything
    but the last sample; and something else than a segment after the first call. -/
theorem growing_file_example :
    let f := (session [writeU16 ["a"] [1, 2], writeU16 ["b"] [3]]).bytes
    let ask := fun (g : Bytes) (c : String) => (TdmsFile.new anyAlloc g).bind (·.channelLength (chan c))
    let read := fun (g : Bytes) (c : String) (n : Nat) => (TdmsFile.new anyAlloc g).bind (·.u16s c n)
    f.length = 142 ∧
    (ask (f.take 72) "a" = .ok (some 2) ∧ ask (f.take 72) "b" = .ok none ∧ read (f.take 72) "a" 2 = .ok (vals16 [1, 2])) ∧
    (ask f "a" = .ok (some 2) ∧ ask f "b" = .ok (some 1) ∧ read f "a" 2 = .ok (vals16 [1, 2])) ∧
    TdmsFile.new anyAlloc (f.take 90) = R.err (.ioError .unexpectedEof) ∧
    (ask (f.take 141) "b" = .ok (some 1) ∧ read (f.take 141) "b" 1 = R.err (.ioError .unexpectedEof)) ∧
    TdmsFile.new anyAlloc (f.take 72 ++ [1, 2, 3, 4]) = R.err (.headerPatternNotMatched [1, 2, 3, 4]) ∧
    (∀ g, TdmsFile.new anyAlloc (f.take 72 ++ [1, 2, 3, 4] ++ g) = R.err (.headerPatternNotMatched [1, 2, 3, 4])) := by
  intro f ask read
  have h : TdmsFile.new anyAlloc (f.take 72 ++ [1, 2, 3, 4]) = R.err (.headerPatternNotMatched [1, 2, 3, 4]) := by
    decide +kernel
  refine ⟨?_, ?_, ?_, ?_, ?_, h, fun g => growing_file_rejected h (by simp) g⟩ <;> decide +kernel

end Tedium
