import Verif.Props.Grammar
import Verif.Props.Read

/-! # C16, C17 for files written by anyone, and C61: which objects can be named -/

namespace Tedium
open SegSpec

theorem pathGroupName_denotes {s : Text} {o : Obj} (h : Denotes s o) : pathGroupName s = .ok o.inGroup := by
  unfold pathGroupName; rw [parsePath_denotes h]

theorem pathGroupName_stumbles {s : Text} (h : Stumbles s) : pathGroupName s = R.panic .sliceRange := by
  unfold pathGroupName; rw [parsePath_stumbles h]

theorem pathGroupName_some {s : Text} {g : Text} : pathGroupName s = .ok (some g) ↔
    ∃ o, Denotes s o ∧ o.inGroup = some g := by
  constructor
  · intro h
    rcases parsePath_coverage s with ⟨o, ho⟩ | hs | he
    · rw [pathGroupName_denotes ho] at h
      exact ⟨o, ho, Except.ok.inj h⟩
    · rw [pathGroupName_stumbles hs] at h; cases h
    · unfold pathGroupName at h; rw [he] at h; cases h
  · rintro ⟨o, ho, hg⟩
    rw [pathGroupName_denotes ho, hg]

theorem pathGroupName_ok {s : Text} (h : ¬ Stumbles s) : ∃ o, pathGroupName s = .ok o := by
  rcases parsePath_coverage s with ⟨o, ho⟩ | hs | he
  · exact ⟨_, pathGroupName_denotes ho⟩
  · exact absurd hs h
  · exact ⟨none, by unfold pathGroupName; rw [he]⟩

theorem collectGroups_total {ps : List Text} : ∀ (m : SMap Unit), SMap.Sorted m →
    ((∀ p ∈ ps, ¬ Stumbles p) → ∃ m', TdmsFile.collectGroups m ps = .ok m' ∧ SMap.Sorted m') ∧
    ((∃ p ∈ ps, Stumbles p) → TdmsFile.collectGroups m ps = R.panic .sliceRange) := by
  induction ps with
  | nil => exact fun m hm => ⟨fun _ => ⟨m, rfl, hm⟩, fun ⟨p, hp, _⟩ => (by cases hp)⟩
  | cons p ps ih =>
    intro m hm
    unfold TdmsFile.collectGroups
    by_cases hst : Stumbles p
    · rw [pathGroupName_stumbles hst]
      exact ⟨fun h => absurd hst (h p List.mem_cons_self), fun _ => rfl⟩
    · obtain ⟨o, ho⟩ := pathGroupName_ok hst
      rw [ho]
      have key : ∀ m1, SMap.Sorted m1 →
          ((∀ q ∈ p :: ps, ¬ Stumbles q) → ∃ m', TdmsFile.collectGroups m1 ps = .ok m' ∧ SMap.Sorted m') ∧
          ((∃ q ∈ p :: ps, Stumbles q) → TdmsFile.collectGroups m1 ps = R.panic .sliceRange) := by
        intro m1 hm1
        refine ⟨fun h => (ih m1 hm1).1 (fun q hq => h q (List.mem_cons_of_mem _ hq)), ?_⟩
        rintro ⟨q, hq, hqs⟩
        rcases List.mem_cons.mp hq with rfl | hq
        · exact absurd hqs hst
        · exact (ih m1 hm1).2 ⟨q, hq, hqs⟩
      cases o with
      | none => exact key m hm
      | some g => exact key _ (SMap.sorted_insert hm g ())

/-- **C16, exactly**, for every file and session: `list_groups` panics if the path of some object has a lone quote
    as one of its components (and quoted names before it). Otherwise it returns, in strictly ascending order,
    the groups that some path of the file denotes, or denotes a channel of. -/
theorem list_groups_exactly {al : Alloc} {t : TdmsFile} (_hs : Session al t) :
    ((∃ s, t.Has s ∧ Stumbles s) → t.listGroups = R.panic .sliceRange) ∧
    ((∀ s, t.Has s → ¬ Stumbles s) → ∃ gs, t.listGroups = .ok gs ∧ gs.Pairwise (fun a b => textCmp a b = .lt) ∧
      ∀ g, g ∈ gs ↔ ∃ s o, t.Has s ∧ Denotes s o ∧ o.inGroup = some g) := by
  have htot := collectGroups_total (ps := t.index.allPaths) [] SMap.sorted_nil
  have hall : ∀ s, s ∈ t.index.allPaths ↔ t.Has s := fun s => (has_iff t s).symm
  constructor
  · rintro ⟨s, hs, hst⟩
    unfold TdmsFile.listGroups
    rw [htot.2 ⟨s, (hall s).mpr hs, hst⟩]; rfl
  · intro h
    obtain ⟨m, hm, hsm⟩ := htot.1 (fun p hp => h p ((hall p).mp hp))
    refine ⟨m.keys, by unfold TdmsFile.listGroups; rw [hm]; rfl, SMap.sorted_keys hsm, fun g => ?_⟩
    rw [collectGroups_mem hm g]
    constructor
    · rintro (hh | ⟨p, hp, hpg⟩)
      · cases hh
      · obtain ⟨o, ho, hg⟩ := pathGroupName_some.mp hpg
        exact ⟨p, o, (hall p).mp hp, ho, hg⟩
    · rintro ⟨s, o, hs, ho, hg⟩
      exact Or.inr ⟨s, (hall s).mpr hs, pathGroupName_some.mpr ⟨o, ho, hg⟩⟩

theorem channelTryFrom_cases (s : Text) :
    (∃ g c, Denotes s (.channel g c) ∧ ChannelPath.tryFrom s = .ok (ChannelPath.new g c)) ∨
    (Stumbles s ∧ ChannelPath.tryFrom s = R.panic .sliceRange) ∨
    ((¬ ∃ g c, Denotes s (.channel g c)) ∧ ¬ Stumbles s ∧ ∃ e, ChannelPath.tryFrom s = R.err e) := by
  obtain ⟨h1, h2, h3⟩ := parse_channel_exactly s
  cases ht : ChannelPath.tryFrom s with
  | ok p =>
    obtain ⟨g, c, hd, rfl⟩ := (h1 p).mp ht
    exact Or.inl ⟨g, c, hd, rfl⟩
  | error f =>
    cases f with
    | hang =>
      exfalso
      rcases parsePath_coverage s with ⟨o, ho⟩ | hs | he
      · unfold ChannelPath.tryFrom at ht
        rw [tryFrom_denotes ho] at ht
        have ht' : ChannelPath.ofPropertyPath o.toPath = .error .hang := ht
        rw [ofPropertyPath_denoted ho] at ht'
        cases o <;> cases ht'
      · unfold ChannelPath.tryFrom at ht; rw [tryFrom_stumbles hs] at ht; cases ht
      · unfold ChannelPath.tryFrom PropertyPath.tryFrom at ht; rw [he] at ht; cases ht
    | panic k =>
      obtain ⟨rfl, hs⟩ := (h2 k).mp ht
      exact Or.inr (Or.inl ⟨hs, rfl⟩)
    | err e =>
      refine Or.inr (Or.inr ⟨?_, ?_, e, rfl⟩)
      · rintro ⟨g, c, hd⟩
        have := (h1 _).mpr ⟨g, c, hd, rfl⟩
        rw [ht] at this; cases this
      · intro hs
        have := (h2 _).mpr ⟨rfl, hs⟩
        rw [ht] at this; cases this

/-- Each channel path is the one its string denotes. -/
inductive ReadsAs : List Text → List ChannelPath → Prop where
  | nil : ReadsAs [] []
  | cons {s : Text} {g c : Text} {ss : List Text} {cs : List ChannelPath} :
      Denotes s (.channel g c) → ReadsAs ss cs → ReadsAs (s :: ss) (ChannelPath.new g c :: cs)

theorem filterChannels_exactly {ps : List Text} :
    ((∃ p ∈ ps, Stumbles p) → TdmsFile.filterChannels ps = R.panic .sliceRange) ∧
    ((∀ p ∈ ps, ¬ Stumbles p) → ∃ ss cs, TdmsFile.filterChannels ps = .ok cs ∧ ss.Sublist ps ∧
      (∀ s, s ∈ ss ↔ s ∈ ps ∧ ∃ g c, Denotes s (.channel g c)) ∧ ReadsAs ss cs) := by
  induction ps with
  | nil => exact ⟨fun ⟨p, hp, _⟩ => (by cases hp), fun _ => ⟨[], [], rfl, .slnil, by simp, .nil⟩⟩
  | cons p ps ih =>
    unfold TdmsFile.filterChannels
    rcases channelTryFrom_cases p with ⟨g, c, hd, ht⟩ | ⟨hs, ht⟩ | ⟨hn, hns, e, ht⟩
    · rw [ht]
      constructor
      · rintro ⟨q, hq, hqs⟩
        rcases List.mem_cons.mp hq with rfl | hq
        · exact (not_denotes_stumbles hd hqs).elim
        · rw [ih.1 ⟨q, hq, hqs⟩]; rfl
      · intro h
        obtain ⟨ss, cs, h1, h2, h3, h4⟩ := ih.2 (fun q hq => h q (List.mem_cons_of_mem _ hq))
        refine ⟨p :: ss, _ :: cs, by rw [h1]; rfl, h2.cons_cons p, fun s => ?_, .cons hd h4⟩
        rw [List.mem_cons, List.mem_cons, h3 s]
        constructor
        · rintro (rfl | ⟨h5, h6⟩)
          · exact ⟨Or.inl rfl, g, c, hd⟩
          · exact ⟨Or.inr h5, h6⟩
        · rintro ⟨h5 | h5, h6⟩
          · exact Or.inl h5
          · exact Or.inr ⟨h5, h6⟩
    · rw [ht]
      exact ⟨fun _ => rfl, fun h => absurd hs (h p List.mem_cons_self)⟩
    · rw [ht]
      constructor
      · rintro ⟨q, hq, hqs⟩
        rcases List.mem_cons.mp hq with rfl | hq
        · exact absurd hqs hns
        · exact ih.1 ⟨q, hq, hqs⟩
      · intro h
        obtain ⟨ss, cs, h1, h2, h3, h4⟩ := ih.2 (fun q hq => h q (List.mem_cons_of_mem _ hq))
        refine ⟨ss, cs, h1, h2.cons p, fun s => ?_, h4⟩
        rw [h3 s, List.mem_cons]
        constructor
        · rintro ⟨h5, h6⟩; exact ⟨Or.inr h5, h6⟩
        · rintro ⟨h5 | h5, h6⟩
          · subst h5; exact absurd h6 hn
          · exact ⟨h5, h6⟩

/-- **C17, exactly**, for every file, session and path given (also that of the file, or of a channel):
    listing panics if some path of the file that starts with the given path has a lone quote as a component.
    Otherwise it returns the channels denoted by the paths of the file that start with the given path, one for
    each of these, in strictly ascending order of these. -/
theorem list_channels_exactly {al : Alloc} {t : TdmsFile} (hs : Session al t) (p : PropertyPath) :
    ((∃ s, t.Has s ∧ p.path <+: s ∧ Stumbles s) → t.listChannelsInGroup p = R.panic .sliceRange) ∧
    ((∀ s, t.Has s → p.path <+: s → ¬ Stumbles s) → ∃ ss cs, t.listChannelsInGroup p = .ok cs ∧
      ss.Pairwise (fun a b => textCmp a b = .lt) ∧
      (∀ s, s ∈ ss ↔ t.Has s ∧ p.path <+: s ∧ ∃ g c, Denotes s (.channel g c)) ∧ ReadsAs ss cs) := by
  have hsorted := SMap.sorted_keys hs.reach.inv.sorted
  have hmem : ∀ s, s ∈ t.index.pathsStartingWith p.path ↔ t.Has s ∧ p.path <+: s := by
    intro s
    unfold Index.pathsStartingWith
    rw [SMap.range_scan hsorted, List.mem_filter, has_iff, SMap.isPrefixOf_iff]
  obtain ⟨h1, h2⟩ := filterChannels_exactly (ps := t.index.pathsStartingWith p.path)
  constructor
  · rintro ⟨s, hh, hp, hst⟩
    exact h1 ⟨s, (hmem s).mpr ⟨hh, hp⟩, hst⟩
  · intro h
    obtain ⟨ss, cs, h3, h4, h5, h6⟩ := h2 (fun s hs => h s ((hmem s).mp hs).1 ((hmem s).mp hs).2)
    refine ⟨ss, cs, h3, ?_, fun s => ?_, h6⟩
    · refine List.Pairwise.sublist h4 ?_
      unfold Index.pathsStartingWith
      rw [SMap.range_scan hsorted]
      exact hsorted.filter _
    · rw [h5 s, hmem s, and_assoc]

/-- Every channel of the file is listed under the path of the file. -/
theorem list_all_channels {al : Alloc} {t : TdmsFile} (hs : Session al t) {cs : List ChannelPath}
    (h : t.listChannelsInGroup .file = .ok cs) (c : ChannelPath) :
    c ∈ cs ↔ ∃ s g n, t.Has s ∧ Denotes s (.channel g n) ∧ c = ChannelPath.new g n := by
  have hsorted := SMap.sorted_keys hs.reach.inv.sorted
  rw [filterChannels_mem h c]
  constructor
  · rintro ⟨p, hp, hc⟩
    unfold Index.pathsStartingWith at hp
    rw [SMap.range_scan hsorted, List.mem_filter] at hp
    obtain ⟨g, n, hd, rfl⟩ := ((parse_channel_exactly p).1 c).mp hc
    exact ⟨p, g, n, (has_iff t p).mpr hp.1, hd, rfl⟩
  · rintro ⟨s, g, n, hh, hd, rfl⟩
    refine ⟨s, ?_, ((parse_channel_exactly s).1 _).mpr ⟨g, n, hd, rfl⟩⟩
    unfold Index.pathsStartingWith
    rw [SMap.range_scan hsorted, List.mem_filter]
    refine ⟨(has_iff t s).mp hh, SMap.isPrefixOf_iff.mpr ?_⟩
    cases hd
    exact ⟨_, rfl⟩

/-! ## C61 -/

/-- No quotes in the names. -/
def Obj.QuoteFree : Obj → Prop
  | .root => True
  | .group g => '\'' ∉ g
  | .channel g c => '\'' ∉ g ∧ '\'' ∉ c

/-- A path of a file is the path the library builds for an object exactly when it is the path string of an object
    without quotes in its names. -/
theorem nameable_iff (s : Text) : (∃ o : Obj, o.toPath.path = s) ↔ ∃ o : Obj, o.QuoteFree ∧ o.written = s := by
  constructor
  · rintro ⟨o, rfl⟩
    cases o with
    | root => exact ⟨.root, trivial, rfl⟩
    | group g => exact ⟨.group (escapeName g), quote_not_mem_escapeName g, (path_group g).symm⟩
    | channel g c =>
      exact ⟨.channel (escapeName g) (escapeName c), ⟨quote_not_mem_escapeName g, quote_not_mem_escapeName c⟩,
        (path_channel g c).symm⟩
  · rintro ⟨o, hq, rfl⟩
    refine ⟨o, ?_⟩
    cases o with
    | root => rfl
    | group g => rw [show (Obj.group g).toPath = PropertyPath.group g from rfl, path_group, escapeName_of_no_quote hq]; rfl
    | channel g c =>
      rw [show (Obj.channel g c).toPath = PropertyPath.channel g c from rfl, path_channel,
        escapeName_of_no_quote hq.1, escapeName_of_no_quote hq.2]; rfl

theorem denotes_written {s : Text} {o : Obj} (h : Denotes s o) : o.written = s := by cases h <;> rfl

theorem toPath_written {o : Obj} (h : o.QuoteFree) : o.toPath.path = o.written := by
  cases o with
  | root => rfl
  | group g => rw [show (Obj.group g).toPath = PropertyPath.group g from rfl, path_group, escapeName_of_no_quote h]; rfl
  | channel g c =>
    rw [show (Obj.channel g c).toPath = PropertyPath.channel g c from rfl, path_channel,
      escapeName_of_no_quote h.1, escapeName_of_no_quote h.2]; rfl

theorem count_written_eq {o : Obj} (h : o.toPath.path = o.written) : o.QuoteFree := by
  have cnt := congrArg (List.count '\'') h
  cases o with
  | root => trivial
  | group g =>
    rw [show (Obj.group g).toPath = PropertyPath.group g from rfl, quotes_group] at cnt
    simp [Obj.written, inQuotes, List.count_append] at cnt
    exact List.count_eq_zero.mp (by omega)
  | channel g c =>
    rw [show (Obj.channel g c).toPath = PropertyPath.channel g c from rfl, quotes_channel] at cnt
    simp [Obj.written, inQuotes, List.count_append] at cnt
    exact ⟨List.count_eq_zero.mp (by omega), List.count_eq_zero.mp (by omega)⟩

/-- A path the library builds denotes an object without quotes in its names, if it denotes an object. -/
theorem quoteFree_of_built {o o' : Obj} {s : Text} (h : o'.toPath.path = s) (hd : Denotes s o) : o.QuoteFree := by
  have hq : o'.toPath.path.count '\'' = o.written.count '\'' := by rw [h, denotes_written hd]
  have hs : o'.toPath.path.count '/' = o.written.count '/' := by rw [h, denotes_written hd]
  cases hd with
  | root => trivial
  | @group g hg =>
    have hg0 := List.count_eq_zero.mpr hg
    simp only [Obj.written, inQuotes, List.count_cons, List.count_append, List.count_nil, hg0] at hq hs
    cases o' with
    | root => rw [show Obj.root.toPath = PropertyPath.file from rfl, quotes_file] at hq; simp at hq
    | group g' =>
      rw [show (Obj.group g').toPath = PropertyPath.group g' from rfl, quotes_group] at hq
      exact List.count_eq_zero.mp (by simp at hq; omega)
    | channel g' c' =>
      rw [show (Obj.channel g' c').toPath = PropertyPath.channel g' c' from rfl, path_channel] at hs
      simp [List.count_append] at hs
  | @channel g c hg hc =>
    simp only [Obj.written, inQuotes, List.count_cons, List.count_append, List.count_nil] at hq
    cases o' with
    | root => rw [show Obj.root.toPath = PropertyPath.file from rfl, quotes_file] at hq; simp at hq
    | group g' =>
      rw [show (Obj.group g').toPath = PropertyPath.group g' from rfl, quotes_group] at hq
      simp at hq
      omega
    | channel g' c' =>
      rw [show (Obj.channel g' c').toPath = PropertyPath.channel g' c' from rfl, quotes_channel] at hq
      simp at hq
      exact ⟨List.count_eq_zero.mp (by omega), List.count_eq_zero.mp (by omega)⟩

/-- **C61** (guarded by "no quotes in the names in the file", see `listed_channels_counterexample`). Every
    channel that is listed is an object of the file with the very path that is returned, so that `channel_length`
    and the reads find it. -/
theorem listed_channels_found_partial {al : Alloc} {t : TdmsFile} (hs : Session al t) {p : PropertyPath}
    {cs : List ChannelPath} (h : t.listChannelsInGroup p = .ok cs)
    (hq : ∀ s o, t.Has s → Denotes s o → o.QuoteFree) {c : ChannelPath} (hc : c ∈ cs) :
    t.Has c.path ∧ t.channelLength c ≠ .ok none := by
  have hsorted := SMap.sorted_keys hs.reach.inv.sorted
  obtain ⟨s, hsm, hsc⟩ := (filterChannels_mem h c).mp hc
  unfold Index.pathsStartingWith at hsm
  rw [SMap.range_scan hsorted, List.mem_filter] at hsm
  obtain ⟨g, n, hd, rfl⟩ := ((parse_channel_exactly s).1 c).mp hsc
  have hh := (has_iff t s).mpr hsm.1
  have hpath : (ChannelPath.new g n).path = s :=
    (toPath_written (hq s _ hh hd)).trans (denotes_written hd)
  refine ⟨by rw [hpath]; exact hh, ?_⟩
  unfold TdmsFile.channelLength Index.channelLength
  rw [hpath]
  have hk := SMap.mem_keys.mp hsm.1
  cases ho : t.index.objects.get? s with
  | none => rw [ho] at hk; simp at hk
  | some o =>
    dsimp only
    split <;> (intro hh; cases hh)

/-- The call writes to the object with this path. -/
def Op.Mentions (path : Text) : Op → Prop
  | .write _ _ channels _ _ => path ∈ channels.map ChannelPath.path
  | .props _ p _ => path = p.path

theorem fold_insert_has (kept : List ObjectMetaData) : ∀ (objs : SMap ObjectData) (p : Text),
    (kept.foldl (fun objs e => objs.insert e.path (updatedObject (objs.get? e.path) e)) objs).get? p ≠ none →
    objs.get? p ≠ none ∨ ∃ e ∈ kept, e.path = p := by
  induction kept with
  | nil => exact fun objs p h => Or.inl h
  | cons x xs ih =>
    intro objs p h
    rcases ih _ p h with h | ⟨e, he, hp⟩
    · rw [SMap.get?_insert] at h
      by_cases hx : x.path = p
      · exact Or.inr ⟨x, List.mem_cons_self, hx⟩
      · left
        simpa [hx, Ne.symm hx] using h
    · exact Or.inr ⟨e, List.mem_cons_of_mem _ he, hp⟩

theorem addSegment_has {ix : Index} {s : Segment} {p : Text} (h : (ix.addSegment s).2.objects.get? p ≠ none) :
    ix.objects.get? p ≠ none ∨ ∃ e ∈ entriesOf s, e.path = p := by
  obtain ⟨ls, hls⟩ := addSegment_objects ix s p
  rw [hls, ne_eq, Option.map_eq_none_iff] at h
  obtain ⟨kept, ⟨pre, hpre, hk⟩, heq⟩ := afterObjects_objects ix s
  rw [heq] at h
  rcases fold_insert_has kept _ p h with h | ⟨e, he, hp⟩
  · exact Or.inl h
  · exact Or.inr ⟨e, hpre.subset (hk.subset he), hp⟩

theorem has_get (t : TdmsFile) (p : Text) : t.Has p ↔ t.index.objects.get? p ≠ none := by
  unfold TdmsFile.Has TdmsFile.readAllProperties Index.getObjectProperties
  rw [ne_eq, Option.map_eq_none_iff]

/-- A call brings no objects into the file but those it writes to. -/
theorem call_objects {al : Alloc} {t : TdmsFile} {op : Op} {p : Text} (h : (op.run al t).2.Has p) :
    t.Has p ∨ op.Mentions p := by
  rw [has_get] at h ⊢
  cases op with
  | props e path ps =>
    change (t.writeProperties e path ps).2.index.objects.get? p ≠ none at h
    unfold TdmsFile.writeProperties writeSegment at h
    dsimp only at h
    rcases addSegment_has h with h | ⟨x, hx, hp⟩
    · exact Or.inl h
    · right
      simp only [entriesOf, List.mem_cons, List.not_mem_nil, or_false] at hx
      subst hx
      exact hp.symm
  | write e ty channels vals layout =>
    show _ ∨ p ∈ channels.map ChannelPath.path
    change (t.writeChannels (ty.storage al) e channels vals layout).2.index.objects.get? p ≠ none at h
    unfold TdmsFile.writeChannels at h
    split at h
    · exact Or.inl h
    split at h
    · exact Or.inl h
    dsimp only at h
    unfold writeSegment at h
    dsimp only at h
    rcases addSegment_has h with h | ⟨x, hx, hp⟩
    · exact Or.inl h
    · right
      unfold entriesOf at hx
      dsimp only at hx
      split at hx
      · rename_i m hm
        split at hm
        · cases hm
        · cases hm
          dsimp only at hx
          rw [List.mem_map] at hx
          obtain ⟨⟨q, i⟩, hy, rfl⟩ := hx
          unfold Index.checkWriteValues at hy
          dsimp only at hy
          rw [List.mem_map] at hy
          obtain ⟨⟨q', f⟩, hz, hq⟩ := hy
          cases hq
          rw [← hp]
          exact (List.of_mem_zip hz).1
      · cases hx

/-- The objects of a file after any calls are those it had, and objects written to. -/
theorem history_objects {al : Alloc} {t : TdmsFile} {ops : List Op} {p : Text} (h : (runOps al t ops).Has p) :
    t.Has p ∨ ∃ op ∈ ops, op.Mentions p := by
  induction ops generalizing t with
  | nil => exact Or.inl h
  | cons op ops ih =>
    rw [runOps_cons] at h
    rcases ih h with h | ⟨o, ho, hp⟩
    · rcases call_objects h with h | h
      · exact Or.inl h
      · exact Or.inr ⟨op, List.mem_cons_self, h⟩
    · exact Or.inr ⟨o, List.mem_cons_of_mem _ ho, hp⟩

/-- **C61, for files made by the library**: in a file that was created and written to under paths built by the
    library, every listed channel is found. -/
theorem listed_channels_found_created {al : Alloc} {ops : List Op}
    (hops : ∀ op ∈ ops, ∀ s, op.Mentions s → ∃ o : Obj, o.toPath.path = s) {p : PropertyPath}
    {cs : List ChannelPath} (h : (runOps al ⟨Index.new, []⟩ ops).listChannelsInGroup p = .ok cs) {c : ChannelPath}
    (hc : c ∈ cs) : (runOps al ⟨Index.new, []⟩ ops).Has c.path ∧
      (runOps al ⟨Index.new, []⟩ ops).channelLength c ≠ .ok none := by
  refine listed_channels_found_partial ((Session.created (al := al) (t := ⟨Index.new, []⟩) rfl).runOps ops) h ?_ hc
  intro s o hs hd
  rcases history_objects hs with h0 | ⟨op, hop, hm⟩
  · rw [has_get] at h0; exact absurd rfl h0
  · obtain ⟨o', ho'⟩ := hops op hop s hm
    exact quoteFree_of_built ho' hd

/-- The guard of C61 is exact: an object of the file with a quote in its names is not found under any path that the library
    builds. -/
theorem unnameable_object {s : Text} {o : Obj} (hd : Denotes s o) : (∃ o' : Obj, o'.toPath.path = s) ↔ o.QuoteFree :=
  ⟨fun ⟨_, h⟩ => quoteFree_of_built h hd, fun h => ⟨o, (toPath_written h).trans (denotes_written hd)⟩⟩

/-- A file as other programs write it, with the quote in the name of group `it's` doubled, and with a
    channel `c` with two values. -/
def quoteFile : List FileSegment :=
  let md : MetaData := { objects := [
    { path := "/'it''s'".toList, properties := [("u".toList, .i32 1)], rawDataIndex := .none },
    { path := "/'it''s'/'c'".toList, properties := []
      rawDataIndex := .rawData { dataType := .u8, numberOfValues := 2 } },
    { path := "/'plain'/'c'".toList, properties := [], rawDataIndex := .none }] }
  [{ endian := .little
     toc := { containsMetaData := true, containsRawData := true, containsNewObjectList := true }
     version := 4713, rawOffset := md.size, metaData := md, rest := [5, 6] }]

/-- C61 in full is false, and so is C17 for files written by other programs: the channel of group `it's` is listed in the group `it`, and the path that is
    returned, or any other that the library builds, does not lead to it. -/
theorem listed_channels_counterexample : ∃ t, TdmsFile.new anyAlloc (fileOf quoteFile) = .ok t ∧
    t.Has "/'it''s'/'c'".toList ∧
    t.listGroups = .ok ["it''s".toList, "plain".toList] ∧
    t.listChannelsInGroup (.group "it".toList) = .ok [.new "it''s".toList "c".toList] ∧
    t.channelLength (.new "it''s".toList "c".toList) = .ok none ∧
    t.readChannel (STy.u8.storage anyAlloc) (.new "it''s".toList "c".toList) [] =
      R.err (.missingObject (ChannelPath.new "it''s".toList "c".toList).path) ∧
    (¬ ∃ o : Obj, o.toPath.path = "/'it''s'/'c'".toList) ∧
    t.listChannelsInGroup .file = .ok [.new "it''s".toList "c".toList, .new "plain".toList "c".toList] := by
  obtain ⟨t, ht⟩ := exists_ok (x := TdmsFile.new anyAlloc (fileOf quoteFile)) (by decide +kernel)
  have via : ∀ {α : Type} (f : TdmsFile → R α), f t = (TdmsFile.new anyAlloc (fileOf quoteFile) >>= f) := by
    intro α f; rw [ht]; rfl
  have hn : ¬ ∃ o : Obj, o.toPath.path = "/'it''s'/'c'".toList := by
    intro h
    have hd : Denotes "/'it''s'/'c'".toList (.channel "it''s".toList "c".toList) :=
      .channel (g := "it''s".toList) (c := "c".toList) (by decide) (by decide)
    exact ((unnameable_object hd).mp h).1 (by decide)
  refine ⟨t, ht, ?_, ?_, ?_, ?_, ?_, hn, ?_⟩
  · rw [has_iff]
    have := via (fun t => .ok t.index.objects.keys)
    rw [Except.ok.inj (this.trans (show _ = Except.ok
      ["/'it''s'".toList, "/'it''s'/'c'".toList, "/'plain'/'c'".toList] by decide +kernel))]
    decide
  · rw [via TdmsFile.listGroups]; decide +kernel
  · rw [via (fun t => t.listChannelsInGroup _)]; decide +kernel
  · rw [via (fun t => t.channelLength _)]; decide +kernel
  · rw [via (fun t => t.readChannel (STy.u8.storage anyAlloc) _ [])]; decide +kernel
  · rw [via (fun t => t.listChannelsInGroup _)]; decide +kernel

/-- A session that meets the hypotheses of `listed_channels_found_created` and
    of the listing theorems: names with quotes and slashes, written by the library. -/
theorem listed_channels_example :
    let t := runOps anyAlloc ⟨Index.new, []⟩ listingOps
    (∀ op ∈ listingOps, ∀ s, op.Mentions s → ∃ o : Obj, o.toPath.path = s) ∧
    t.listChannelsInGroup .file = .ok [.new "a".toList "x".toList, .new "a".toList "y".toList,
      .new "ab".toList "x".toList] ∧
    (∀ s, t.Has s → ¬ Stumbles s) := by
  refine ⟨?_, by decide +kernel, ?_⟩
  · intro op hop s hm
    simp only [listingOps, List.mem_cons, List.not_mem_nil, or_false] at hop
    rcases hop with rfl | rfl | rfl | rfl | rfl <;> simp [Op.Mentions] at hm <;> subst hm
    · exact ⟨.channel "ab".toList "x".toList, rfl⟩
    · exact ⟨.channel "a".toList "y".toList, rfl⟩
    · exact ⟨.channel "a".toList "x".toList, rfl⟩
    · exact ⟨.root, rfl⟩
    · exact ⟨.group "c'".toList, rfl⟩
  · intro s hs hst
    rw [has_iff] at hs
    have hk : (runOps anyAlloc ⟨Index.new, []⟩ listingOps).index.objects.keys
        = [Obj.root, .channel "a".toList "x".toList, .channel "a".toList "y".toList,
           .channel "ab".toList "x".toList, .group "c'".toList].map (·.toPath.path) := by decide +kernel
    rw [hk] at hs
    obtain ⟨o, ho, rfl⟩ := List.mem_map.mp hs
    have hp := tryFrom_stumbles hst
    simp only [List.mem_cons, List.not_mem_nil, or_false] at ho
    rcases ho with rfl | rfl | rfl | rfl | rfl <;> revert hp <;> decide +kernel

end Tedium
