import Verif.Proofs.Session
import Verif.Props.Paths

/-!
# C16, C17: listing groups and channels

The objects of a file are those for which `read_all_properties` does not return `None`; by
`missing_objects` (C15) these are the objects that occur in its segments.
-/

namespace Tedium
open SegSpec

/-- The file has an object with this path. -/
def TdmsFile.Has (t : TdmsFile) (path : Text) : Prop := t.readAllProperties ⟨path⟩ ≠ none

/-- The names of the object contain no slash. -/
def Obj.SlashFree : Obj → Prop
  | .root => True
  | .group g => '/' ∉ g
  | .channel g c => '/' ∉ g ∧ '/' ∉ c

/-- The name of the group the object is or belongs to. -/
def Obj.groupOf : Obj → Option Text
  | .root => none
  | .group g => some (normName g)
  | .channel g _ => some (normName g)

/-- Every object of the file is the file, a group or a channel, with names without slashes. -/
def TdmsFile.Clean (t : TdmsFile) : Prop :=
  ∀ path, t.Has path → ∃ o : Obj, o.SlashFree ∧ o.toPath.path = path

theorem has_iff (t : TdmsFile) (path : Text) : t.Has path ↔ path ∈ t.index.objects.keys := by
  unfold TdmsFile.Has TdmsFile.readAllProperties Index.getObjectProperties
  rw [SMap.mem_keys, ne_eq, Option.map_eq_none_iff]
  cases t.index.objects.get? path <;> simp

theorem pathGroupName_toPath {o : Obj} (h : o.SlashFree) :
    pathGroupName o.toPath.path = .ok o.groupOf := by
  unfold pathGroupName
  cases o with
  | root => rfl
  | group g => rw [show (Obj.group g).toPath = PropertyPath.group g from rfl, parsePath_group h]; rfl
  | channel g c =>
    rw [show (Obj.channel g c).toPath = PropertyPath.channel g c from rfl, parsePath_channel h.1 h.2]; rfl

theorem collectGroups_spec (ps : List Text) (m : SMap Unit) (hm : SMap.Sorted m)
    (h : ∀ p ∈ ps, ∃ o : Obj, o.SlashFree ∧ o.toPath.path = p) :
    ∃ m', TdmsFile.collectGroups m ps = .ok m' ∧ SMap.Sorted m' ∧
      ∀ g, g ∈ SMap.keys m' ↔ g ∈ SMap.keys m ∨ ∃ p ∈ ps, ∃ o : Obj, o.SlashFree ∧ o.toPath.path = p ∧
        o.groupOf = some g := by
  induction ps generalizing m with
  | nil => exact ⟨m, rfl, hm, fun g => by simp⟩
  | cons p ps ih =>
    obtain ⟨o, ho, hop⟩ := h p (by simp)
    have hp := pathGroupName_toPath ho
    rw [hop] at hp
    have huniq : ∀ o' : Obj, o'.SlashFree → o'.toPath.path = p → o'.groupOf = o.groupOf := by
      intro o' ho' hp'
      have h1 := pathGroupName_toPath ho'
      rw [hp', hp] at h1
      injection h1 with h1
      exact h1.symm
    unfold TdmsFile.collectGroups
    rw [hp]
    cases hg : o.groupOf with
    | none =>
      obtain ⟨m', h1, h2, h3⟩ := ih m hm (fun q hq => h q (by simp [hq]))
      refine ⟨m', h1, h2, fun g => ?_⟩
      rw [h3 g]
      constructor
      · rintro (hh | ⟨q, hq, hh⟩)
        · exact Or.inl hh
        · exact Or.inr ⟨q, by simp [hq], hh⟩
      · rintro (hh | ⟨q, hq, o', ho', hp', hg'⟩)
        · exact Or.inl hh
        · rcases List.mem_cons.mp hq with hq | hq
          · subst hq; rw [huniq o' ho' hp', hg] at hg'; cases hg'
          · exact Or.inr ⟨q, hq, o', ho', hp', hg'⟩
    | some g0 =>
      obtain ⟨m', h1, h2, h3⟩ := ih (m.insert g0 ()) (SMap.sorted_insert hm g0 ())
        (fun q hq => h q (by simp [hq]))
      refine ⟨m', h1, h2, fun g => ?_⟩
      rw [h3 g]
      have hk : g ∈ SMap.keys (m.insert g0 ()) ↔ g = g0 ∨ g ∈ SMap.keys m := by
        rw [SMap.mem_keys, SMap.mem_keys]
        simp only [SMap.get?_insert]
        by_cases hgg : g = g0
        · subst hgg; simp
        · simp [hgg, Ne.symm hgg]
      rw [hk]
      constructor
      · rintro ((rfl | hh) | ⟨q, hq, hh⟩)
        · exact Or.inr ⟨p, by simp, o, ho, hop, hg⟩
        · exact Or.inl hh
        · exact Or.inr ⟨q, by simp [hq], hh⟩
      · rintro (hh | ⟨q, hq, o', ho', hp', hg'⟩)
        · exact Or.inl (Or.inr hh)
        · rcases List.mem_cons.mp hq with hq | hq
          · subst hq
            rw [huniq o' ho' hp', hg] at hg'
            injection hg' with hg'
            exact Or.inl (Or.inl hg'.symm)
          · exact Or.inr ⟨q, hq, o', ho', hp', hg'⟩

/-- **C16** (guarded by "no slash in the names of the file's objects", see
    `list_groups_counterexample`). In any session, `list_groups` returns in strictly ascending order
    exactly the names of the groups that are objects or have a channel that is an object. -/
theorem list_groups_partial {al : Alloc} {t : TdmsFile} (_hs : Session al t) (hc : t.Clean) :
    ∃ gs, t.listGroups = .ok gs ∧ gs.Pairwise (fun a b => textCmp a b = .lt) ∧
      ∀ g, g ∈ gs ↔ ∃ o : Obj, o.SlashFree ∧ t.Has o.toPath.path ∧ o.groupOf = some g := by
  obtain ⟨m, h1, h2, h3⟩ := collectGroups_spec t.index.allPaths [] SMap.sorted_nil
    (fun p hp => hc p ((has_iff t p).mpr hp))
  refine ⟨m.keys, by unfold TdmsFile.listGroups; rw [h1]; rfl, SMap.sorted_keys h2, fun g => ?_⟩
  rw [h3 g]
  constructor
  · rintro (hh | ⟨p, hp, o, ho, hop, hg⟩)
    · cases hh
    · exact ⟨o, ho, (has_iff _ _).mpr (by rw [hop]; exact hp), hg⟩
  · rintro ⟨o, ho, hh, hg⟩
    exact Or.inr ⟨_, (has_iff _ _).mp hh, o, ho, rfl, hg⟩

theorem filterChannels_spec (ps : List Text)
    (h : ∀ p ∈ ps, (∃ c, ChannelPath.tryFrom p = .ok c ∧ c.path = p) ∨ ∃ e, ChannelPath.tryFrom p = R.err e) :
    ∃ cs, TdmsFile.filterChannels ps = .ok cs ∧ (cs.map ChannelPath.path).Sublist ps ∧
      ∀ c, c ∈ cs ↔ c.path ∈ ps ∧ ChannelPath.tryFrom c.path = .ok c := by
  induction ps with
  | nil => exact ⟨[], rfl, List.Sublist.refl _, by simp⟩
  | cons p ps ih =>
    obtain ⟨cs, h1, h2, h3⟩ := ih (fun q hq => h q (by simp [hq]))
    unfold TdmsFile.filterChannels
    rcases h p (by simp) with ⟨c0, hc0, hp0⟩ | ⟨e, he⟩
    · rw [hc0, h1]
      refine ⟨c0 :: cs, rfl, ?_, fun c => ?_⟩
      · rw [List.map_cons, hp0]; exact h2.cons_cons p
      · rw [List.mem_cons, h3 c, List.mem_cons]
        constructor
        · rintro (rfl | ⟨h4, h5⟩)
          · exact ⟨Or.inl hp0, by rw [hp0]; exact hc0⟩
          · exact ⟨Or.inr h4, h5⟩
        · rintro ⟨rfl | h4, h5⟩
          · rw [hc0] at h5; injection h5 with h5; exact Or.inl h5.symm
          · exact Or.inr ⟨h4, h5⟩
    · rw [he, h1]
      refine ⟨cs, rfl, h2.cons p, fun c => ?_⟩
      rw [h3 c, List.mem_cons]
      constructor
      · rintro ⟨h4, h5⟩; exact ⟨Or.inr h4, h5⟩
      · rintro ⟨rfl | h4, h5⟩
        · rw [he] at h5; cases h5
        · exact ⟨h4, h5⟩

theorem group_prefix_channel {g g' c : Text} :
    (PropertyPath.group g).path <+: (PropertyPath.channel g' c).path ↔ escapeName g = escapeName g' := by
  rw [path_group, path_channel]
  constructor
  · rintro ⟨t, ht⟩
    simp only [List.cons_append, List.cons.injEq, true_and, List.append_assoc] at ht
    exact (append_sep_inj (quote_not_mem_escapeName g) (quote_not_mem_escapeName g') ht).1
  · intro h
    rw [h]
    exact ⟨'/' :: '\'' :: (escapeName c ++ ['\'']), by simp only [List.append_assoc, List.cons_append, List.nil_append]⟩

/-- **C17** (same guard). In any session, listing the channels of a group returns, ordered by path and
    without duplicates, exactly the channels of that group that are objects of the file; never a
    channel of another group whose name merely starts the same. -/
theorem list_channels_partial {al : Alloc} {t : TdmsFile} (hs : Session al t) (hc : t.Clean) (g : Text) :
    ∃ cs, t.listChannelsInGroup (PropertyPath.group g) = .ok cs ∧
      (cs.map ChannelPath.path).Pairwise (fun a b => textCmp a b = .lt) ∧
      ∀ c, c ∈ cs ↔ t.Has c.path ∧ ∃ name, c = ChannelPath.new g name := by
  have hsorted := SMap.sorted_keys hs.reach.inv.sorted
  have hobj : ∀ p ∈ t.index.pathsStartingWith (PropertyPath.group g).path,
      p ∈ t.index.objects.keys ∧ (PropertyPath.group g).path <+: p := by
    intro p hp
    unfold Index.pathsStartingWith at hp
    rw [SMap.range_scan hsorted, List.mem_filter] at hp
    exact ⟨hp.1, SMap.isPrefixOf_iff.mp hp.2⟩
  have hcases : ∀ p ∈ t.index.pathsStartingWith (PropertyPath.group g).path,
      (∃ c, ChannelPath.tryFrom p = .ok c ∧ c.path = p) ∨ ∃ e, ChannelPath.tryFrom p = R.err e := by
    intro p hp
    obtain ⟨o, ho, hop⟩ := hc p ((has_iff t p).mpr (hobj p hp).1)
    subst hop
    cases o with
    | root => exact Or.inr ⟨_, (parse_print_partial [] [] (by simp) (by simp)).2.2.2.2.2⟩
    | group g' => exact Or.inr ⟨_, (parse_print_partial g' [] ho (by simp)).2.2.2.2.1⟩
    | channel g' c' => exact Or.inl ⟨_, (parse_print_partial g' c' ho.1 ho.2).2.2.2.1, rfl⟩
  obtain ⟨cs, h1, h2, h3⟩ := filterChannels_spec _ hcases
  refine ⟨cs, h1, ?_, fun c => ?_⟩
  · refine List.Pairwise.sublist h2 ?_
    unfold Index.pathsStartingWith
    rw [SMap.range_scan hsorted]
    exact hsorted.filter _
  · rw [h3 c]
    constructor
    · rintro ⟨h4, h5⟩
      obtain ⟨hk, hpre⟩ := hobj _ h4
      have hh := (has_iff t _).mpr hk
      refine ⟨hh, ?_⟩
      obtain ⟨o, ho, hop⟩ := hc _ hh
      rw [← hop] at h5 hpre
      cases o with
      | root => rw [show Obj.root.toPath = PropertyPath.file from rfl,
          (parse_print_partial [] [] (by simp) (by simp)).2.2.2.2.2] at h5; cases h5
      | group g' => rw [show (Obj.group g').toPath = PropertyPath.group g' from rfl,
          (parse_print_partial g' [] ho (by simp)).2.2.2.2.1] at h5; cases h5
      | channel g' c' =>
        have h6 := (parse_print_partial g' c' ho.1 ho.2).2.2.2.1
        rw [show (Obj.channel g' c').toPath.path = (ChannelPath.new g' c').path from rfl, h6] at h5
        injection h5 with h5
        refine ⟨c', ?_⟩
        have := group_prefix_channel.mp hpre
        rw [← h5]
        unfold ChannelPath.new PropertyPath.channel
        rw [this]
    · rintro ⟨hh, name, rfl⟩
      obtain ⟨o, ho, hop⟩ := hc _ hh
      have hk := (has_iff t _).mp hh
      have hno : o.norm = (Obj.channel g name).norm := (paths_never_collide o (.channel g name)).mp hop
      have hfree : '/' ∉ g ∧ '/' ∉ name := by
        cases o with
        | root => cases hno
        | group g' => cases hno
        | channel g' c' =>
          simp only [Obj.norm, Obj.channel.injEq, normName_eq] at hno
          constructor
          · rw [← slash_mem_escapeName, ← hno.1, slash_mem_escapeName]; exact ho.1
          · rw [← slash_mem_escapeName, ← hno.2, slash_mem_escapeName]; exact ho.2
      refine ⟨?_, (parse_print_partial g name hfree.1 hfree.2).2.2.2.1⟩
      unfold Index.pathsStartingWith
      rw [SMap.range_scan hsorted, List.mem_filter]
      exact ⟨hk, SMap.isPrefixOf_iff.mpr (group_prefix_channel.mpr rfl)⟩

/-- A session that meets the hypotheses: groups `a` and `ab` (a common prefix), channels in both. -/
def listingOps : List Op :=
  [.props .little (.channel "ab".toList "x".toList) [],
   .props .little (.channel "a".toList "y".toList) [],
   .write .little .i32 [.new "a".toList "x".toList] [(1 : BitVec 32)] .interleaved,
   .props .little .file [("p".toList, .boolean true)],
   .props .little (.group "c'".toList) []]

/-- An allocator that never refuses. -/
def anyAlloc : Alloc := fun _ => true

theorem listing_example : ∃ t, Session anyAlloc t ∧ t.Clean ∧
    t.listGroups = .ok ["a".toList, "ab".toList, "c\"".toList] ∧
    t.listChannelsInGroup (.group "a".toList)
      = .ok [.new "a".toList "x".toList, .new "a".toList "y".toList] := by
  refine ⟨runOps anyAlloc ⟨Index.new, []⟩ listingOps, ?_, ?_, ?_, ?_⟩
  · exact (Session.created (al := anyAlloc) (t := ⟨Index.new, []⟩) rfl).runOps listingOps
  · intro path hp
    rw [has_iff] at hp
    have hk : (runOps anyAlloc ⟨Index.new, []⟩ listingOps).index.objects.keys
        = [Obj.root, .channel "a".toList "x".toList, .channel "a".toList "y".toList,
           .channel "ab".toList "x".toList, .group "c'".toList].map (·.toPath.path) := by decide +kernel
    rw [hk] at hp
    obtain ⟨o, ho, rfl⟩ := List.mem_map.mp hp
    refine ⟨o, ?_, rfl⟩
    simp only [List.mem_cons, List.not_mem_nil, or_false] at ho
    rcases ho with rfl | rfl | rfl | rfl | rfl <;> simp only [Obj.SlashFree] <;> decide
  · decide +kernel
  · decide +kernel

/-- C16 and C17 are false in full: a group called `a/b` and a channel called `c/d` are not listed. -/
theorem listing_counterexample : ∃ t, Session anyAlloc t ∧
    t.Has (Obj.group "a/b".toList).toPath.path ∧ t.Has (Obj.channel "g".toList "c/d".toList).toPath.path ∧
    t.listGroups = .ok [] ∧ t.listChannelsInGroup (.group "g".toList) = .ok [] := by
  refine ⟨runOps anyAlloc ⟨Index.new, []⟩ [.props .little (.group "a/b".toList) [],
    .props .little (.channel "g".toList "c/d".toList) []], ?_, ?_, ?_, ?_, ?_⟩
  · exact (Session.created (al := anyAlloc) (t := ⟨Index.new, []⟩) rfl).runOps _
  · rw [has_iff]; exact List.mem_of_elem_eq_true (by decide +kernel)
  · rw [has_iff]; exact List.mem_of_elem_eq_true (by decide +kernel)
  · decide +kernel
  · decide +kernel

/-- Listing can even panic: a group called `/` is accepted by the writer, and from then on
    `list_groups` panics. -/
theorem listing_panics_counterexample : ∃ t, Session anyAlloc t ∧
    t.listGroups = R.panic .sliceRange := by
  refine ⟨runOps anyAlloc ⟨Index.new, []⟩ [.props .little (.group "/".toList) []], ?_, ?_⟩
  · exact (Session.created (al := anyAlloc) (t := ⟨Index.new, []⟩) rfl).runOps _
  · decide +kernel

end Tedium
