import Verif.Spec.Grammar
import Verif.Props.Listing
import Verif.Props.Growing

/-! # Path strings, exactly -/

namespace Tedium

/-! ## Parsing -/

theorem inQuotes_noSlash {n : Text} (h : '/' ∉ n) : '/' ∉ inQuotes n := by
  unfold inQuotes; simp [h]

theorem splitOn_lone {rest : Text} (h : Lone rest) : ∃ more, splitOn '/' rest = ['\''] :: more := by
  rcases h with rfl | ⟨more, rfl⟩
  · exact ⟨[], by decide⟩
  · exact ⟨splitOn '/' more, by rw [show '\'' :: '/' :: more = ['\''] ++ '/' :: more from rfl,
      splitOn_append_sep _ _ _ (by decide)]⟩

/-- The part of the parser behind the first slash. -/
theorem parsePath_slash {rest : Text} (h : rest ≠ []) : parsePath ('/' :: rest) = (do
    let (group, rest') ← nextPart ('/' :: rest) (splitOn '/' rest)
    let (channel, rest') ← nextPart ('/' :: rest) rest'
    match rest' with
    | [] => return (group, channel)
    | p :: _ => do
      let _ ← parseName p
      R.err (.invalidObjectPath ('/' :: rest))) := by
  unfold parsePath
  rw [if_neg (by simp [startsWithChar]), if_neg (by
    intro hh; apply h; cases rest with
    | nil => rfl
    | cons x xs => simp at hh)]
  rw [show (splitOn '/' ('/' :: rest)).drop 1 = splitOn '/' rest by simp [splitOn]]
  rfl

theorem nextPart_inQuotes (path n : Text) (ps : List Text) :
    nextPart path (inQuotes n :: ps) = .ok (some n, ps) := nextPart_quoted path n ps

theorem nextPart_lone (path : Text) (ps : List Text) : nextPart path (['\''] :: ps) = R.panic .sliceRange := by
  rw [nextPart_cons, parseName_lone]; rfl

theorem parsePath_denotes {s : Text} {o : Obj} (h : Denotes s o) : parsePath s =
    .ok (o.inGroup, match (generalizing := false) o with | .channel _ c => some c | _ => none) := by
  cases h with
  | root => rfl
  | group hg =>
    rw [parsePath_slash (by simp [inQuotes]), splitOn_of_not_mem _ _ (inQuotes_noSlash hg), nextPart_inQuotes]
    rfl
  | channel hg hc =>
    rw [parsePath_slash (by simp [inQuotes]), splitOn_append_sep _ _ _ (inQuotes_noSlash hg),
      splitOn_of_not_mem _ _ (inQuotes_noSlash hc), nextPart_inQuotes]
    show (do let (channel, rest') ← nextPart _ [_]; _) = _
    rw [nextPart_inQuotes]
    rfl

theorem parsePath_stumbles {s : Text} (h : Stumbles s) : parsePath s = R.panic .sliceRange := by
  cases h with
  | first hl =>
    obtain ⟨more, hm⟩ := splitOn_lone hl
    rw [parsePath_slash (by rintro rfl; cases hl with | inl h => cases h | inr h => obtain ⟨_, h⟩ := h; cases h),
      hm, nextPart_lone]; rfl
  | @second g rest hg hl =>
    obtain ⟨more, hm⟩ := splitOn_lone hl
    rw [parsePath_slash (by simp [inQuotes]), splitOn_append_sep _ _ _ (inQuotes_noSlash hg), hm, nextPart_inQuotes]
    simp only [bind, Except.bind]
    rw [nextPart_lone]
  | third hg hc hl =>
    obtain ⟨more, hm⟩ := splitOn_lone hl
    rw [parsePath_slash (by simp [inQuotes]), splitOn_append_sep _ _ _ (inQuotes_noSlash hg),
      splitOn_append_sep _ _ _ (inQuotes_noSlash hc), hm, nextPart_inQuotes]
    simp only [bind, Except.bind]
    rw [nextPart_inQuotes]
    simp only [parseName_lone]

theorem splitOn_cases (rest : Text) : ∃ p, '/' ∉ p ∧ ((rest = p ∧ splitOn '/' rest = [p]) ∨
    ∃ more, rest = p ++ '/' :: more ∧ splitOn '/' rest = p :: splitOn '/' more) := by
  by_cases h : '/' ∈ rest
  · obtain ⟨a, b, hab, hna⟩ := exists_first h
    exact ⟨a, hna, Or.inr ⟨b, hab, by rw [hab, splitOn_append_sep _ _ _ hna]⟩⟩
  · exact ⟨rest, h, Or.inl ⟨rfl, splitOn_of_not_mem _ _ h⟩⟩

theorem parseName_cases (p : Text) : p = ['\''] ∨ (∃ n, p = inQuotes n) ∨ parseName p = .ok none := by
  by_cases hl : p = ['\'']
  · exact Or.inl hl
  · obtain ⟨o, ho⟩ := parseName_not_panic hl
    cases o with
    | none => exact Or.inr (Or.inr ho)
    | some n => exact Or.inr (Or.inl ⟨n, parseName_some ho⟩)

theorem parsePath_coverage (s : Text) :
    (∃ o, Denotes s o) ∨ Stumbles s ∨ parsePath s = R.err (.invalidObjectPath s) := by
  match s with
  | [] => exact Or.inr (Or.inr rfl)
  | x :: rest =>
    by_cases hx : x = '/'
    case neg => exact Or.inr (Or.inr (by unfold parsePath; rw [if_pos (by simp [startsWithChar, hx])]))
    subst hx
    by_cases hr : rest = []
    · subst hr; exact Or.inl ⟨_, .root⟩
    rw [parsePath_slash hr]
    have bad : ∀ (p : Text) (ps : List Text), parseName p = .ok none →
        nextPart ('/' :: rest) (p :: ps) = R.err (.invalidObjectPath ('/' :: rest)) := by
      intro p ps h
      rw [nextPart_cons, h]; rfl
    obtain ⟨p, hp, hsplit⟩ := splitOn_cases rest
    rcases parseName_cases p with rfl | ⟨g, rfl⟩ | hnone
    · refine Or.inr (Or.inl (.first ?_))
      rcases hsplit with ⟨h, _⟩ | ⟨more, h, _⟩
      · exact Or.inl h
      · exact Or.inr ⟨more, h⟩
    · have hg : '/' ∉ g := fun hh => hp (by unfold inQuotes; simp [hh])
      rcases hsplit with ⟨h, _⟩ | ⟨rest2, h, hs⟩
      · rw [h]; exact Or.inl ⟨_, .group hg⟩
      · rw [hs, nextPart_inQuotes]
        obtain ⟨p2, hp2, hsplit2⟩ := splitOn_cases rest2
        rcases parseName_cases p2 with rfl | ⟨c, rfl⟩ | hnone
        · refine Or.inr (Or.inl ?_)
          rw [h]
          refine .second hg ?_
          rcases hsplit2 with ⟨h, _⟩ | ⟨more, h, _⟩
          · exact Or.inl h
          · exact Or.inr ⟨more, h⟩
        · have hc : '/' ∉ c := fun hh => hp2 (by unfold inQuotes; simp [hh])
          rcases hsplit2 with ⟨h2, _⟩ | ⟨rest3, h2, hs2⟩
          · rw [h, h2]; exact Or.inl ⟨_, .channel hg hc⟩
          · obtain ⟨p3, hp3, hsplit3⟩ := splitOn_cases rest3
            rcases parseName_cases p3 with rfl | hok
            · refine Or.inr (Or.inl ?_)
              rw [h, h2]
              refine .third hg hc ?_
              rcases hsplit3 with ⟨h, _⟩ | ⟨more, h, _⟩
              · exact Or.inl h
              · exact Or.inr ⟨more, h⟩
            · refine Or.inr (Or.inr ?_)
              show (do let (channel, rest') ← nextPart _ (splitOn '/' rest2); _) = _
              rw [hs2, nextPart_inQuotes]
              obtain ⟨v, hv⟩ : ∃ v, parseName p3 = .ok v := by
                rcases hok with ⟨n, rfl⟩ | hok
                · exact ⟨_, parseName_quoted n⟩
                · exact ⟨_, hok⟩
              obtain ⟨tl, htl⟩ : ∃ tl, splitOn '/' rest3 = p3 :: tl := by
                rcases hsplit3 with ⟨_, h⟩ | ⟨_, _, h⟩
                · exact ⟨_, h⟩
                · exact ⟨_, h⟩
              rw [htl]
              show (do let _ ← parseName p3; _) = _
              rw [hv]; rfl
        · refine Or.inr (Or.inr ?_)
          obtain ⟨tl, htl⟩ : ∃ tl, splitOn '/' rest2 = p2 :: tl := by
            rcases hsplit2 with ⟨_, h⟩ | ⟨_, _, h⟩
            · exact ⟨_, h⟩
            · exact ⟨_, h⟩
          rw [htl]
          show (do let (channel, rest') ← nextPart _ (p2 :: tl); _) = _
          rw [bad _ _ hnone]; rfl
    · refine Or.inr (Or.inr ?_)
      obtain ⟨tl, htl⟩ : ∃ tl, splitOn '/' rest = p :: tl := by
        rcases hsplit with ⟨_, h⟩ | ⟨_, _, h⟩
        · exact ⟨_, h⟩
        · exact ⟨_, h⟩
      rw [htl, bad _ _ hnone]; rfl

theorem tryFrom_denotes {s : Text} {o : Obj} (h : Denotes s o) : PropertyPath.tryFrom s = .ok o.toPath := by
  unfold PropertyPath.tryFrom
  rw [parsePath_denotes h]
  cases o <;> rfl

theorem tryFrom_stumbles {s : Text} (h : Stumbles s) : PropertyPath.tryFrom s = R.panic .sliceRange := by
  unfold PropertyPath.tryFrom
  rw [parsePath_stumbles h]; rfl

theorem denotes_unique {s : Text} {o o' : Obj} (h : Denotes s o) (h' : Denotes s o') : o = o' := by
  have := (parsePath_denotes h).symm.trans (parsePath_denotes h')
  have := Except.ok.inj this
  cases o <;> cases o' <;> simp_all [Obj.inGroup]

theorem not_denotes_stumbles {s : Text} {o : Obj} (h : Denotes s o) (h' : Stumbles s) : False := by
  have := (parsePath_denotes h).symm.trans (parsePath_stumbles h')
  cases this

/-- **C04, exactly.** For every string: converting it to a path gives the path of the object it denotes, panics
    exactly when one of the first three components is a lone quote behind quoted names, and is
    refused with `InvalidObjectPath` otherwise. -/
theorem parse_exactly (s : Text) :
    (∀ p, PropertyPath.tryFrom s = .ok p ↔ ∃ o, Denotes s o ∧ p = o.toPath) ∧
    (∀ k, PropertyPath.tryFrom s = R.panic k ↔ k = .sliceRange ∧ Stumbles s) ∧
    (∀ e, PropertyPath.tryFrom s = R.err e ↔
      e = .invalidObjectPath s ∧ ¬ Stumbles s ∧ ¬ ∃ o, Denotes s o) := by
  rcases parsePath_coverage s with ⟨o, ho⟩ | hs | he
  · rw [tryFrom_denotes ho]
    refine ⟨fun p => ⟨fun h => ⟨o, ho, (Except.ok.inj h).symm⟩, ?_⟩, fun k => ⟨fun h => (by cases h), ?_⟩,
      fun e => ⟨fun h => (by cases h), ?_⟩⟩
    · rintro ⟨o', ho', rfl⟩; rw [denotes_unique ho ho']
    · rintro ⟨_, h⟩; exact (not_denotes_stumbles ho h).elim
    · rintro ⟨_, _, h⟩; exact absurd ⟨o, ho⟩ h
  · rw [tryFrom_stumbles hs]
    refine ⟨fun p => ⟨fun h => (by cases h), ?_⟩, fun k => ⟨fun h => ⟨(by cases h; rfl), hs⟩, ?_⟩,
      fun e => ⟨fun h => (by cases h), ?_⟩⟩
    · rintro ⟨o', ho', _⟩; exact (not_denotes_stumbles ho' hs).elim
    · rintro ⟨rfl, _⟩; rfl
    · rintro ⟨_, h, _⟩; exact absurd hs h
  · have ht : PropertyPath.tryFrom s = R.err (.invalidObjectPath s) := by
      unfold PropertyPath.tryFrom; rw [he]; rfl
    have hno : ¬ ∃ o, Denotes s o := by
      rintro ⟨o, ho⟩; rw [parsePath_denotes ho] at he; cases he
    have hns : ¬ Stumbles s := by
      intro hs; rw [parsePath_stumbles hs] at he; cases he
    rw [ht]
    refine ⟨fun p => ⟨fun h => (by cases h), ?_⟩, fun k => ⟨fun h => (by cases h), ?_⟩,
      fun e => ⟨fun h => ⟨(by cases h; rfl), hns, hno⟩, ?_⟩⟩
    · rintro ⟨o', ho', _⟩; exact absurd ⟨o', ho'⟩ hno
    · rintro ⟨_, h⟩; exact absurd h hns
    · rintro ⟨rfl, _⟩; rfl

theorem ofPropertyPath_denoted {s : Text} {o : Obj} (h : Denotes s o) : ChannelPath.ofPropertyPath o.toPath =
    (match (generalizing := false) o with | .channel g c => .ok (ChannelPath.new g c) | _ => R.err (.invalidChannelPath o.toPath.path)) := by
  unfold ChannelPath.ofPropertyPath
  cases h with
  | root => rfl
  | group hg =>
    rw [show (Obj.group _).toPath = PropertyPath.group _ from rfl, isChannel_group hg]; rfl
  | channel hg hc =>
    rw [show (Obj.channel _ _).toPath = PropertyPath.channel _ _ from rfl, isChannel_channel hg hc]; rfl

/-- **C05, exactly**, for strings. Converting a string to a channel path gives the path of the channel it denotes. It
    panics exactly when converting to a path panics. A string that denotes the file or a group is refused
    with `InvalidChannelPath`, any other with `InvalidObjectPath`. -/
theorem parse_channel_exactly (s : Text) :
    (∀ p, ChannelPath.tryFrom s = .ok p ↔ ∃ g c, Denotes s (.channel g c) ∧ p = ChannelPath.new g c) ∧
    (∀ k, ChannelPath.tryFrom s = R.panic k ↔ k = .sliceRange ∧ Stumbles s) ∧
    (∀ e, ChannelPath.tryFrom s = R.err e ↔
      (e = .invalidObjectPath s ∧ ¬ Stumbles s ∧ ¬ ∃ o, Denotes s o) ∨
      ∃ o, Denotes s o ∧ (∀ g c, o ≠ .channel g c) ∧ e = .invalidChannelPath o.toPath.path) := by
  unfold ChannelPath.tryFrom
  have hex := parse_exactly s
  cases ht : PropertyPath.tryFrom s with
  | error f =>
    rw [ht] at hex
    have hno : ¬ ∃ o, Denotes s o := by
      rintro ⟨o, ho⟩; rw [tryFrom_denotes ho] at ht; cases ht
    refine ⟨fun p => ⟨fun h => (by cases h), ?_⟩, fun k => ?_, fun e => ?_⟩
    · rintro ⟨g, c, h, _⟩; exact absurd ⟨_, h⟩ hno
    · have := hex.2.1 k
      unfold R.panic at this ⊢
      rw [Except.error.injEq] at this
      show Except.error f = _ ↔ _
      rw [Except.error.injEq]
      exact this
    · have := hex.2.2 e
      unfold R.err at this ⊢
      rw [Except.error.injEq] at this
      show Except.error f = _ ↔ _
      rw [Except.error.injEq]
      refine this.trans ⟨Or.inl, ?_⟩
      rintro (h | ⟨o, ho, _⟩)
      · exact h
      · exact absurd ⟨o, ho⟩ hno
  | ok q =>
    obtain ⟨o, ho, rfl⟩ := (hex.1 q).mp ht
    have hns : ¬ Stumbles s := not_denotes_stumbles ho
    show (∀ p, ChannelPath.ofPropertyPath _ = .ok p ↔ _) ∧ (∀ k, ChannelPath.ofPropertyPath _ = _ ↔ _) ∧
      (∀ e, ChannelPath.ofPropertyPath _ = _ ↔ _)
    rw [ofPropertyPath_denoted ho]
    refine ⟨fun p => ⟨fun h => ?_, ?_⟩, fun k => ⟨fun h => ?_, fun h => absurd h.2 hns⟩, fun e => ⟨fun h => ?_, ?_⟩⟩
    · cases o with
      | channel g c => exact ⟨g, c, ho, (Except.ok.inj h).symm⟩
      | root => cases h
      | group g => cases h
    · rintro ⟨g, c, h, rfl⟩
      have := denotes_unique ho h
      subst this; rfl
    · cases o <;> cases h
    · cases o with
      | channel g c => cases h
      | root => exact Or.inr ⟨_, ho, fun _ _ h => (by cases h), (by cases h; rfl)⟩
      | group g => exact Or.inr ⟨_, ho, fun _ _ h => (by cases h), (by cases h; rfl)⟩
    · rintro (h | ⟨o', ho', hch, rfl⟩)
      · exact absurd ⟨o, ho⟩ h.2.2
      · have := denotes_unique ho ho'
        subst this
        cases o with
        | channel g c => exact absurd rfl (hch g c)
        | root => rfl
        | group g => rfl

/-- **C05, exactly**, for paths: a `PropertyPath` is taken for a channel path exactly when it has two slashes in all. -/
theorem channel_path_iff (o : Obj) (p : ChannelPath) : ChannelPath.ofPropertyPath o.toPath = .ok p ↔
    p = ⟨o.toPath⟩ ∧ (match o with
      | .root => False
      | .group g => g.count '/' = 1
      | .channel g c => '/' ∉ g ∧ '/' ∉ c) := by
  have cnt : ∀ n : Text, (escapeName n).count '/' = n.count '/' := by
    intro n
    unfold escapeName
    induction n with
    | nil => rfl
    | cons x xs ih =>
      rw [List.map_cons, List.count_cons, List.count_cons, ih]
      by_cases hx : x = '\''
      · subst hx; rfl
      · rw [if_neg hx]
  unfold ChannelPath.ofPropertyPath
  have hch : o.toPath.isChannel = true ↔ (match o with
      | .root => False
      | .group g => g.count '/' = 1
      | .channel g c => '/' ∉ g ∧ '/' ∉ c) := by
    cases o with
    | root => exact ⟨fun h => (by cases h), fun h => h.elim⟩
    | group g =>
      simp only [Obj.toPath, PropertyPath.isChannel, PropertyPath.pathDepth, path_group, decide_eq_true_eq,
        List.count_cons, List.count_append, cnt, List.count_nil]
      simp
    | channel g c =>
      simp only [Obj.toPath, PropertyPath.isChannel, PropertyPath.pathDepth, path_channel, decide_eq_true_eq,
        List.count_cons, List.count_append, cnt, List.count_nil]
      rw [← List.count_eq_zero, ← List.count_eq_zero]
      simp
      omega
  by_cases h : o.toPath.isChannel = true
  · rw [h]
    exact ⟨fun hh => ⟨(Except.ok.inj hh).symm, hch.mp h⟩, fun hh => by rw [hh.1]; rfl⟩
  · rw [if_pos (by simpa using h)]
    exact ⟨fun hh => (by cases hh), fun hh => absurd (hch.mpr hh.2) h⟩

/-- Strings of the three kinds: a name with a quote inside, an empty name, lone quotes at each place, and refused
    strings. -/
theorem parse_exactly_cases :
    Denotes "/'it's'/''".toList (.channel "it's".toList []) ∧
    PropertyPath.tryFrom "/'it's'/''".toList = .ok ⟨"/'it\"s'/''".toList⟩ ∧
    Stumbles "/'a'/'/x".toList ∧ Stumbles "/'a'/'b'/'".toList ∧
    PropertyPath.tryFrom "/'a'/'b'/'".toList = R.panic .sliceRange ∧
    PropertyPath.tryFrom "/'a'/b/'".toList = R.err (.invalidObjectPath "/'a'/b/'".toList) ∧
    PropertyPath.tryFrom "/'a'/'b'/''".toList = R.err (.invalidObjectPath "/'a'/'b'/''".toList) := by
  refine ⟨.channel (g := "it's".toList) (c := []) (by decide) (by decide), by decide +kernel,
    .second (g := "a".toList) (by decide) (Or.inr ⟨"x".toList, rfl⟩),
    .third (g := "a".toList) (c := "b".toList) (by decide) (by decide) (Or.inl rfl), by decide +kernel,
    by decide +kernel, by decide +kernel⟩

end Tedium
