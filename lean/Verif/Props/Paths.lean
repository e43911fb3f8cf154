import Verif.Proofs.Paths

/-! # C01-C05: object paths -/

namespace Tedium

/-- The path the library builds for an object (`PropertyPath::file/group/channel`). -/
def Obj.toPath : Obj → PropertyPath
  | .root => PropertyPath.file
  | .group g => PropertyPath.group g
  | .channel g c => PropertyPath.channel g c

/-! ## C01 -/

/-- **C01.** Two objects get the same path string exactly when they are the same object up to
    the kind of quotes in their names. -/
theorem paths_never_collide (o o' : Obj) : o.toPath.path = o'.toPath.path ↔ o.norm = o'.norm := by
  have inj : ∀ p q : PropertyPath, p.path = q.path → p = q := by
    intro p q h; cases p; cases q; simpa using h
  constructor
  · intro h
    cases o <;> cases o' <;> simp only [Obj.toPath] at h
    · rfl
    · have := congrArg (List.count '\'') h; rw [quotes_file, quotes_group] at this; cases this
    · have := congrArg (List.count '\'') h; rw [quotes_file, quotes_channel] at this; cases this
    · have := congrArg (List.count '\'') h; rw [quotes_file, quotes_group] at this; cases this
    · rw [Obj.norm, Obj.norm, normName_eq, normName_eq, group_inj (inj _ _ h)]
    · have := congrArg (List.count '\'') h; rw [quotes_group, quotes_channel] at this; cases this
    · have := congrArg (List.count '\'') h; rw [quotes_file, quotes_channel] at this; cases this
    · have := congrArg (List.count '\'') h; rw [quotes_group, quotes_channel] at this; cases this
    · obtain ⟨h1, h2⟩ := channel_inj (inj _ _ h)
      simp only [Obj.norm, normName_eq, h1, h2]
  · intro h
    cases o <;> cases o' <;> simp only [Obj.norm, reduceCtorEq, Obj.group.injEq, Obj.channel.injEq,
      normName_eq] at h
    · rfl
    · simp only [Obj.toPath, path_group, h]
    · simp only [Obj.toPath, path_channel, h]

/-- Names that need care: quotes and slashes in them do not make a group look like a channel. -/
example : (Obj.group "a'/'b".toList).toPath.path ≠ (Obj.channel "a".toList "b".toList).toPath.path := by
  rw [ne_eq, paths_never_collide]; decide
example : (Obj.channel "a'b".toList "c".toList).toPath.path
    = (Obj.channel "a\"b".toList "c".toList).toPath.path := by
  rw [paths_never_collide]; decide

/-! ## C02 -/

/-- **C02** (guarded by "no slash in the names"; the guard is exact, see
    `group_name_iff` and `channel_name_iff`). The names of a path are the names it was built
    from, and the accessors of a channel path do not panic. -/
theorem names_recovered_partial (g c : Text) (hg : '/' ∉ g) (hc : '/' ∉ c) :
    PropertyPath.file.groupName = .ok none ∧ PropertyPath.file.channelName = .ok none ∧
    (PropertyPath.group g).groupName = .ok (some (normName g)) ∧
    (PropertyPath.group g).channelName = .ok none ∧
    (PropertyPath.channel g c).groupName = .ok (some (normName g)) ∧
    (PropertyPath.channel g c).channelName = .ok (some (normName c)) ∧
    (ChannelPath.new g c).groupName = .ok (normName g) ∧
    (ChannelPath.new g c).channelName = .ok (normName c) := by
  have hG : (PropertyPath.channel g c).groupName = .ok (some (normName g)) := by
    unfold PropertyPath.groupName
    rw [components_channel hg hc, nthLevel_quoted_zero]; rfl
  have hC : (PropertyPath.channel g c).channelName = .ok (some (normName c)) := by
    unfold PropertyPath.channelName
    rw [components_channel hg hc, nthLevel_quoted_succ, nthLevel_quoted_zero]; rfl
  refine ⟨by decide, by decide, ?_, ?_, hG, hC, ?_, ?_⟩
  · unfold PropertyPath.groupName
    rw [components_group hg, nthLevel_quoted_zero]; rfl
  · unfold PropertyPath.channelName
    rw [components_group hg, nthLevel_quoted_succ]; rfl
  · unfold ChannelPath.groupName ChannelPath.new
    simp only [hG]; rfl
  · unfold ChannelPath.channelName ChannelPath.new
    simp only [hC]; rfl

example : '/' ∉ "Group 'one'".toList ∧ '/' ∉ "Ünïcode \" channel".toList := by decide

/-- The guard of C02 is exact for groups: the name comes back exactly when it has no slash. -/
theorem group_name_iff (g : Text) :
    (PropertyPath.group g).groupName = .ok (some (normName g)) ↔ '/' ∉ g := by
  constructor
  · intro h hs
    unfold PropertyPath.groupName at h
    rw [splitOn_group_path] at h
    exact nthLevel_unquoted 0 _ (components_slash_unquoted g hs) _ h
  · intro h; exact (names_recovered_partial g [] h (by simp)).2.2.1

/-- The guard of C02 is exact for channels: both names come back exactly when neither has a
    slash. -/
theorem channel_name_iff (g c : Text) :
    ((PropertyPath.channel g c).groupName = .ok (some (normName g)) ∧
      (PropertyPath.channel g c).channelName = .ok (some (normName c))) ↔ '/' ∉ g ∧ '/' ∉ c := by
  constructor
  · rintro ⟨_, h⟩
    unfold PropertyPath.channelName at h
    rw [splitOn_channel_path] at h
    by_cases hg : '/' ∈ g
    · exfalso
      have key : ∀ vs : List Text, (∀ v ∈ vs, ∀ m, v ≠ '\'' :: (m ++ ['\''])) → ∀ ws : List Text, ∀ x,
          PropertyPath.nthLevel 1 (vs ++ ws) = .ok (some x) → PropertyPath.nthLevel 1 ws = .ok (some x) := by
        intro vs
        induction vs with
        | nil => intro _ ws x hx; simpa using hx
        | cons v vs ih =>
          intro hv ws x hx
          rw [List.cons_append] at hx
          unfold PropertyPath.nthLevel at hx
          split at hx
          · rename_i hcnd
            have hp : parseName v = (do let inner ← stripEnds v; return some inner) := by
              unfold parseName
              rw [if_neg]
              simpa using hcnd
            cases hs : stripEnds v with
            | error e => rw [hs] at hx; cases hx
            | ok m =>
              rw [hs] at hp
              exact absurd (parseName_some hp) (hv v (by simp) m)
          · exact ih (fun w hw => hv w (by simp [hw])) ws x hx
      have h2 := key _ (components_slash_unquoted g hg) _ _ h
      by_cases hc : '/' ∈ c
      · exact nthLevel_unquoted 1 _ (components_slash_unquoted c hc) _ h2
      · have hc' : '/' ∉ escapeName c := fun hh => hc ((slash_mem_escapeName c).mp hh)
        rw [splitOn_of_not_mem _ _ (slash_not_mem_quoted hc'), nthLevel_quoted_succ] at h2
        cases h2
    · refine ⟨hg, fun hc => ?_⟩
      have hg' : '/' ∉ escapeName g := fun hh => hg ((slash_mem_escapeName g).mp hh)
      rw [splitOn_of_not_mem _ _ (slash_not_mem_quoted hg'), List.singleton_append,
        nthLevel_quoted_succ] at h
      exact nthLevel_unquoted 0 _ (components_slash_unquoted c hc) _ h
  · rintro ⟨hg, hc⟩
    have := names_recovered_partial g c hg hc
    exact ⟨this.2.2.2.2.1, this.2.2.2.2.2.1⟩

/-- C02 in full is false: a slash in a group name loses the name, and a group named `/`
    makes `group_name` panic. -/
theorem names_recovered_counterexample :
    (PropertyPath.group "a/b".toList).groupName = .ok none ∧
    (PropertyPath.channel "a/b".toList "c".toList).groupName = .ok (some "c".toList) ∧
    (PropertyPath.group "/".toList).groupName = R.panic .sliceRange ∧
    (ChannelPath.new "g".toList "a/b".toList).channelName = R.panic .expect := by decide +kernel

/-! ## C03 -/

theorem nextPart_quoted (path n : Text) (ps : List Text) :
    nextPart path (('\'' :: (n ++ ['\''])) :: ps) = .ok (some n, ps) := by
  rw [nextPart_cons]
  rw [parseName_quoted]; rfl

theorem parsePath_group {g : Text} (h : '/' ∉ g) :
    parsePath (PropertyPath.group g).path = .ok (some (escapeName g), none) := by
  unfold parsePath
  have hs : startsWithChar '/' (PropertyPath.group g).path = true := by
    rw [path_group]; simp [startsWithChar]
  have hl : ¬ (PropertyPath.group g).path.length = 1 := by rw [path_group]; simp
  rw [hs, if_neg (by simp), if_neg hl, components_group h, nextPart_quoted]
  rfl

theorem parsePath_channel {g c : Text} (hg : '/' ∉ g) (hc : '/' ∉ c) :
    parsePath (PropertyPath.channel g c).path = .ok (some (escapeName g), some (escapeName c)) := by
  unfold parsePath
  have hs : startsWithChar '/' (PropertyPath.channel g c).path = true := by
    rw [path_channel]; simp [startsWithChar]
  have hl : ¬ (PropertyPath.channel g c).path.length = 1 := by rw [path_channel]; simp
  rw [hs, if_neg (by simp), if_neg hl, components_channel hg hc, nextPart_quoted]
  show (do let (channel, rest) ← nextPart _ [_]; _) = _
  rw [nextPart_quoted]
  rfl

theorem group_escape (g : Text) : PropertyPath.group (escapeName g) = PropertyPath.group g := by
  unfold PropertyPath.group; rw [escapeName_idem]
theorem channel_escape (g c : Text) :
    PropertyPath.channel (escapeName g) (escapeName c) = PropertyPath.channel g c := by
  unfold PropertyPath.channel; rw [escapeName_idem, escapeName_idem]

theorem tryFrom_group {g : Text} (h : '/' ∉ g) :
    PropertyPath.tryFrom (PropertyPath.group g).path = .ok (PropertyPath.group g) := by
  unfold PropertyPath.tryFrom
  rw [parsePath_group h]
  show Except.ok (PropertyPath.group (escapeName g)) = _
  rw [group_escape]

theorem tryFrom_channel {g c : Text} (hg : '/' ∉ g) (hc : '/' ∉ c) :
    PropertyPath.tryFrom (PropertyPath.channel g c).path = .ok (PropertyPath.channel g c) := by
  unfold PropertyPath.tryFrom
  rw [parsePath_channel hg hc]
  show Except.ok (PropertyPath.channel (escapeName g) (escapeName c)) = _
  rw [channel_escape]

theorem count_slash_escape {n : Text} (h : '/' ∉ n) : (escapeName n).count '/' = 0 :=
  List.count_eq_zero.mpr (fun hh => h ((slash_mem_escapeName n).mp hh))

theorem isChannel_channel {g c : Text} (hg : '/' ∉ g) (hc : '/' ∉ c) :
    (PropertyPath.channel g c).isChannel = true := by
  simp [PropertyPath.isChannel, PropertyPath.pathDepth, path_channel, List.count_append,
    count_slash_escape hg, count_slash_escape hc]

theorem isChannel_group {g : Text} (hg : '/' ∉ g) : (PropertyPath.group g).isChannel = false := by
  simp [PropertyPath.isChannel, PropertyPath.pathDepth, path_group, List.count_append,
    count_slash_escape hg]

/-- **C03** (guarded by "no slash in the names"; exact, see `parse_print_iff`). Parsing the
    printed path gives the path back; a channel path parses as a channel path and the others
    are rejected as channel paths. -/
theorem parse_print_partial (g c : Text) (hg : '/' ∉ g) (hc : '/' ∉ c) :
    PropertyPath.tryFrom PropertyPath.file.path = .ok PropertyPath.file ∧
    PropertyPath.tryFrom (PropertyPath.group g).path = .ok (PropertyPath.group g) ∧
    PropertyPath.tryFrom (PropertyPath.channel g c).path = .ok (PropertyPath.channel g c) ∧
    ChannelPath.tryFrom (ChannelPath.new g c).path = .ok (ChannelPath.new g c) ∧
    ChannelPath.tryFrom (PropertyPath.group g).path
      = R.err (.invalidChannelPath (PropertyPath.group g).path) ∧
    ChannelPath.tryFrom PropertyPath.file.path
      = R.err (.invalidChannelPath PropertyPath.file.path) := by
  refine ⟨by decide, tryFrom_group hg, tryFrom_channel hg hc, ?_, ?_, by decide⟩
  · unfold ChannelPath.tryFrom ChannelPath.new ChannelPath.path
    simp only [tryFrom_channel hg hc]
    show ChannelPath.ofPropertyPath (PropertyPath.channel g c) = _
    unfold ChannelPath.ofPropertyPath
    rw [isChannel_channel hg hc]; rfl
  · unfold ChannelPath.tryFrom
    rw [tryFrom_group hg]
    show ChannelPath.ofPropertyPath (PropertyPath.group g) = _
    unfold ChannelPath.ofPropertyPath
    rw [isChannel_group hg]; rfl

example : '/' ∉ "it's".toList ∧ '/' ∉ "".toList := by decide

/-- A component that is not quoted stops the parser. -/
theorem nextPart_unquoted {path p : Text} {ps : List Text}
    (h : ∀ m, p ≠ '\'' :: (m ++ ['\''])) : ∀ r, nextPart path (p :: ps) ≠ .ok r := by
  intro r hr
  rw [nextPart_cons] at hr
  cases hp : parseName p with
  | error e => rw [hp] at hr; cases hr
  | ok o =>
    rw [hp] at hr
    cases o with
    | none => cases hr
    | some m => exact h m (parseName_some hp)

/-- The guard of C03 is exact. -/
theorem parse_print_iff (g c : Text) :
    ((∃ p, PropertyPath.tryFrom (PropertyPath.group g).path = .ok p) ↔ '/' ∉ g) ∧
    ((∃ p, PropertyPath.tryFrom (PropertyPath.channel g c).path = .ok p) ↔ '/' ∉ g ∧ '/' ∉ c) := by
  have pp : ∀ {path : Text} {p : PropertyPath}, PropertyPath.tryFrom path = .ok p →
      path.length ≠ 1 →
      ∃ r, (do
        let (group, rest) ← nextPart path ((splitOn '/' path).drop 1)
        let (channel, rest) ← nextPart path rest
        match rest with
        | [] => return (group, channel)
        | p :: _ => do
          let _ ← parseName p
          R.err (.invalidObjectPath path) : R (Option Text × Option Text)) = .ok r := by
    intro path p h hl
    unfold PropertyPath.tryFrom at h
    cases hp : parsePath path with
    | error e => rw [hp] at h; cases h
    | ok r =>
      refine ⟨r, ?_⟩
      unfold parsePath at hp
      split at hp
      · cases hp
      · exact hp
  have first : ∀ {path : Text} {x : Text} {ps : List Text}, (splitOn '/' path).drop 1 = x :: ps →
      (∀ m, x ≠ '\'' :: (m ++ ['\''])) → path.length ≠ 1 →
      ∀ p, PropertyPath.tryFrom path ≠ .ok p := by
    intro path x ps hd hx hl p h
    obtain ⟨r, hr⟩ := pp h hl
    rw [hd] at hr
    cases hn : nextPart path (x :: ps) with
    | error e => rw [hn] at hr; cases hr
    | ok r2 => exact nextPart_unquoted hx r2 hn
  have headOf : ∀ (n : Text) (post : List Text), '/' ∈ n →
      ∃ x ps, splitOn '/' ('\'' :: (escapeName n ++ ['\''])) ++ post = x :: ps ∧
        ∀ m, x ≠ '\'' :: (m ++ ['\'']) := by
    intro n post hn
    cases hs : splitOn '/' ('\'' :: (escapeName n ++ ['\''])) with
    | nil => exact absurd hs (splitOn_ne_nil _ _)
    | cons x ps =>
      exact ⟨x, ps ++ post, rfl, components_slash_unquoted n hn x (by rw [hs]; simp)⟩
  refine ⟨⟨?_, fun h => ⟨_, tryFrom_group h⟩⟩, ⟨?_, fun h => ⟨_, tryFrom_channel h.1 h.2⟩⟩⟩
  · rintro ⟨p, hp⟩ hs
    obtain ⟨x, ps, hx, hm⟩ := headOf g [] hs
    rw [List.append_nil] at hx
    exact first (by rw [splitOn_group_path]; exact hx) hm (by rw [path_group]; simp) p hp
  · rintro ⟨p, hp⟩
    have hl : (PropertyPath.channel g c).path.length ≠ 1 := by rw [path_channel]; simp
    by_cases hg : '/' ∈ g
    · exfalso
      obtain ⟨x, ps, hx, hm⟩ := headOf g (splitOn '/' ('\'' :: (escapeName c ++ ['\'']))) hg
      exact first (by rw [splitOn_channel_path]; exact hx) hm hl p hp
    · refine ⟨hg, fun hc => ?_⟩
      have hg' : '/' ∉ escapeName g := fun hh => hg ((slash_mem_escapeName g).mp hh)
      obtain ⟨x, ps, hx, hm⟩ := headOf c [] hc
      rw [List.append_nil] at hx
      obtain ⟨r, hr⟩ := pp hp hl
      rw [splitOn_channel_path, splitOn_of_not_mem _ _ (slash_not_mem_quoted hg'),
        List.singleton_append, nextPart_quoted, hx] at hr
      have hr' : (do
        let (channel, rest) ← nextPart (PropertyPath.channel g c).path (x :: ps)
        match rest with
        | [] => return (some (escapeName g), channel)
        | p :: _ => do
          let _ ← parseName p
          R.err (.invalidObjectPath (PropertyPath.channel g c).path) : R (Option Text × Option Text))
          = .ok r := hr
      cases hn : nextPart (PropertyPath.channel g c).path (x :: ps) with
      | error e => rw [hn] at hr'; cases hr'
      | ok r2 => exact nextPart_unquoted hm r2 hn

/-- C03 in full is false: the path printed for a group called `a/b` is not accepted. -/
theorem parse_print_counterexample :
    PropertyPath.tryFrom (PropertyPath.group "a/b".toList).path
      = R.err (.invalidObjectPath "/'a/b'".toList) := by decide +kernel

/-! ## C04 -/

/-- **C04** (guarded: between two slashes, or after the last one, the string does not have a
    lone quote). Then parsing succeeds or returns an error, it does not panic. -/
theorem parse_never_panics_partial (s : Text)
    (h : ∀ pre post, s = pre ++ '/' :: '\'' :: post → ∃ ch, post.head? = some ch ∧ ch ≠ '/') :
    ((∃ p, PropertyPath.tryFrom s = .ok p) ∨ ∃ e, PropertyPath.tryFrom s = R.err e) ∧
    ((∃ p, ChannelPath.tryFrom s = .ok p) ∨ ∃ e, ChannelPath.tryFrom s = R.err e) := by
  have one : (∃ p, PropertyPath.tryFrom s = .ok p) ∨ ∃ e, PropertyPath.tryFrom s = R.err e := by
    have hpp : (∃ r, parsePath s = .ok r ∧ ¬ (r.1 = none ∧ r.2 ≠ none)) ∨ ∃ e, parsePath s = R.err e := by
      unfold parsePath
      split
      · exact Or.inr ⟨_, rfl⟩
      · rename_i hst
        simp only [Bool.not_eq_true', Bool.not_eq_false] at hst
        split
        · exact Or.inl ⟨_, rfl, by simp⟩
        · have hcomp : ∀ v ∈ (splitOn '/' s).drop 1, v ≠ ['\''] := by
            intro v hv hq
            cases s with
            | nil => simp [startsWithChar] at hst
            | cons x xs =>
              simp only [startsWithChar, List.head?_cons, Option.some.injEq, decide_eq_true_eq] at hst
              subst hst
              simp only [splitOn, if_true, List.drop_one, List.tail_cons] at hv
              obtain ⟨_, a, b, hab, ha, hb⟩ := mem_splitOn hv
              subst hq
              have hpost : ∃ pre, '/' :: xs = pre ++ '/' :: '\'' :: b := by
                rcases ha with ha | ⟨a', ha⟩
                · exact ⟨[], by rw [hab, ha]; simp⟩
                · exact ⟨'/' :: a', by rw [hab, ha]; simp⟩
              obtain ⟨pre, hpre⟩ := hpost
              obtain ⟨ch, hch, hne⟩ := h pre b hpre
              rcases hb with hb | ⟨b', hb⟩
              · rw [hb] at hch; simp at hch
              · rw [hb] at hch; simp at hch; exact hne hch.symm
          generalize (splitOn '/' s).drop 1 = vs at hcomp
          cases vs with
          | nil => exact Or.inl ⟨_, rfl, by simp⟩
          | cons v vs =>
            obtain ⟨o, ho⟩ := parseName_not_panic (hcomp v (by simp))
            cases o with
            | none => refine Or.inr ⟨.invalidObjectPath s, ?_⟩; rw [nextPart_cons]; rw [ho]; rfl
            | some n =>
              have e1 : nextPart s (v :: vs) = .ok (some n, vs) := by rw [nextPart_cons]; rw [ho]; rfl
              rw [e1]
              cases vs with
              | nil => exact Or.inl ⟨_, rfl, by simp⟩
              | cons w ws =>
                obtain ⟨o2, ho2⟩ := parseName_not_panic (hcomp w (by simp))
                cases o2 with
                | none =>
                  refine Or.inr ⟨.invalidObjectPath s, ?_⟩
                  show (do let (channel, rest) ← nextPart s (w :: ws); _) = _
                  rw [nextPart_cons]; rw [ho2]; rfl
                | some n2 =>
                  have e2 : nextPart s (w :: ws) = .ok (some n2, ws) := by
                    rw [nextPart_cons]; rw [ho2]; rfl
                  cases ws with
                  | nil =>
                    refine Or.inl ⟨(some n, some n2), ?_, by simp⟩
                    show (do let (channel, rest) ← nextPart s [w]; _) = _
                    rw [e2]; rfl
                  | cons u us =>
                    obtain ⟨o3, ho3⟩ := parseName_not_panic (hcomp u (by simp))
                    refine Or.inr ⟨.invalidObjectPath s, ?_⟩
                    show (do let (channel, rest) ← nextPart s (w :: u :: us); _) = _
                    rw [e2]
                    show (do let _ ← parseName u; R.err (.invalidObjectPath s)) = _
                    rw [ho3]; rfl
    unfold PropertyPath.tryFrom
    rcases hpp with ⟨⟨a, b⟩, hr, hne⟩ | ⟨e, he⟩
    · rw [hr]
      cases a with
      | none =>
        cases b with
        | none => exact Or.inl ⟨_, rfl⟩
        | some b => exact absurd ⟨rfl, by simp⟩ hne
      | some a => cases b <;> exact Or.inl ⟨_, rfl⟩
    · rw [he]; exact Or.inr ⟨e, rfl⟩
  refine ⟨one, ?_⟩
  unfold ChannelPath.tryFrom
  rcases one with ⟨p, hp⟩ | ⟨e, he⟩
  · rw [hp]
    show (∃ q, ChannelPath.ofPropertyPath p = .ok q) ∨ ∃ e, ChannelPath.ofPropertyPath p = R.err e
    unfold ChannelPath.ofPropertyPath
    split
    · exact Or.inr ⟨_, rfl⟩
    · exact Or.inl ⟨_, rfl⟩
  · rw [he]; exact Or.inr ⟨e, rfl⟩

/-- A string that meets the guard of C04 (shown for a string with quotes after slashes). -/
example : ∀ pre post, ("/'a'".toList : Text) = pre ++ '/' :: '\'' :: post →
    ∃ ch, post.head? = some ch ∧ ch ≠ '/' := by
  intro pre post h
  match pre with
  | [] => simp at h; exact ⟨'a', by simp [← h], by decide⟩
  | [_] => simp at h
  | [_, _] => simp at h
  | [_, _, _] => simp at h
  | _ :: _ :: _ :: _ :: t => simp at h

/-- C04 in full is false: the two-character path `/'` makes the parser panic. -/
theorem parse_never_panics_counterexample :
    PropertyPath.tryFrom "/'".toList = R.panic .sliceRange ∧
    ChannelPath.tryFrom "/'a'/'".toList = R.panic .sliceRange := by decide +kernel

/-! ## C05 -/

/-- **C05, conversion from a string** (holds for all strings): a string accepted as a channel
    path gives the path of a channel whose names are returned by the accessors. -/
theorem channel_path_from_str (s : Text) (p : ChannelPath) (h : ChannelPath.tryFrom s = .ok p) :
    ∃ g c, p = ChannelPath.new g c ∧ p.groupName = .ok (normName g) ∧
      p.channelName = .ok (normName c) := by
  unfold ChannelPath.tryFrom at h
  cases hp : PropertyPath.tryFrom s with
  | error e => rw [hp] at h; cases h
  | ok q =>
    rw [hp] at h
    have h' : ChannelPath.ofPropertyPath q = .ok p := h
    unfold ChannelPath.ofPropertyPath at h'
    split at h'
    · cases h'
    · rename_i hc
      have hpq : p = ⟨q⟩ := by cases h'; rfl
      simp only [Bool.not_eq_true', Bool.not_eq_false] at hc
      unfold PropertyPath.tryFrom at hp
      cases hr : parsePath s with
      | error e => rw [hr] at hp; cases hp
      | ok r =>
        rw [hr] at hp
        -- every accepted component is free of slashes
        have comp : ∀ v ∈ (splitOn '/' s).drop 1, ∀ n, parseName v = .ok (some n) → '/' ∉ n := by
          intro v hv n hn hs
          have hv' : v ∈ splitOn '/' s := List.mem_of_mem_drop hv
          have := (mem_splitOn hv').1
          rw [parseName_some hn] at this
          exact this (by simp [hs])
        have np : ∀ vs, (∀ v ∈ vs, ∀ n, parseName v = .ok (some n) → '/' ∉ n) → ∀ o rest,
            nextPart s vs = .ok (o, rest) →
            (o = none ∧ rest = [] ∧ vs = []) ∨ (∃ n w, o = some n ∧ vs = w :: rest ∧ '/' ∉ n) := by
          intro vs hvs o rest hn
          cases vs with
          | nil => cases hn; exact Or.inl ⟨rfl, rfl, rfl⟩
          | cons v vs =>
            rw [nextPart_cons] at hn
            cases hpn : parseName v with
            | error e => rw [hpn] at hn; cases hn
            | ok o2 =>
              rw [hpn] at hn
              cases o2 with
              | none => cases hn
              | some n => cases hn; exact Or.inr ⟨n, v, rfl, rfl, hvs v (by simp) n hpn⟩
        unfold parsePath at hr
        split at hr
        · cases hr
        · split at hr
          · cases hr; cases hp
            exact absurd hc (by decide)
          · cases hn : nextPart s ((splitOn '/' s).drop 1) with
            | error e => rw [hn] at hr; cases hr
            | ok r1 =>
              obtain ⟨o1, rest1⟩ := r1
              rw [hn] at hr
              have hr' : (do let (channel, rest) ← nextPart s rest1
                             match rest with
                             | [] => return (o1, channel)
                             | p :: _ => do
                               let _ ← parseName p
                               R.err (.invalidObjectPath s) : R (Option Text × Option Text)) = .ok r := hr
              cases hn2 : nextPart s rest1 with
              | error e => rw [hn2] at hr'; cases hr'
              | ok r2 =>
                obtain ⟨o2, rest2⟩ := r2
                rw [hn2] at hr'
                have hr2 : r = (o1, o2) := by
                  cases rest2 with
                  | nil => cases hr'; rfl
                  | cons u us =>
                    have : (do let _ ← parseName u; R.err (.invalidObjectPath s) :
                        R (Option Text × Option Text)) = .ok r := hr'
                    cases hu : parseName u <;> rw [hu] at this <;> cases this
                rcases np _ comp _ _ hn with ⟨h1, h2, _⟩ | ⟨g, w, h1, h2, hgs⟩
                · rw [h2] at hn2
                  cases hn2
                  rw [hr2, h1] at hp
                  cases hp
                  exact absurd hc (by decide)
                · have comp2 : ∀ v ∈ rest1, ∀ n, parseName v = .ok (some n) → '/' ∉ n :=
                    fun v hv => comp v (by rw [h2]; simp [hv])
                  rcases np _ comp2 _ _ hn2 with ⟨h3, h4, _⟩ | ⟨c, w2, h3, h4, hcs⟩
                  · rw [hr2, h1, h3] at hp
                    cases hp
                    rw [isChannel_group hgs] at hc
                    cases hc
                  · rw [hr2, h1, h3] at hp
                    cases hp
                    have := names_recovered_partial g c hgs hcs
                    exact ⟨g, c, hpq, by rw [hpq]; exact this.2.2.2.2.2.2.1,
                      by rw [hpq]; exact this.2.2.2.2.2.2.2⟩

example : ChannelPath.tryFrom "/'g'/'c'".toList = .ok (ChannelPath.new "g".toList "c".toList) := by
  decide +kernel

/-- **C05, conversion from a `PropertyPath`** (guarded by "no slash in the names"): it succeeds
    exactly for channels, with the same path. -/
theorem channel_path_from_property_path_partial (o : Obj)
    (h : match o with | .root => True | .group g => '/' ∉ g | .channel g c => '/' ∉ g ∧ '/' ∉ c)
    (p : ChannelPath) :
    ChannelPath.ofPropertyPath o.toPath = .ok p ↔
      ∃ g c, o = .channel g c ∧ p = ChannelPath.new g c := by
  unfold ChannelPath.ofPropertyPath
  cases o with
  | root =>
    rw [if_pos (by decide)]
    constructor
    · intro hh; cases hh
    · rintro ⟨g, c, hh, _⟩; cases hh
  | group g =>
    simp only at h
    rw [show (Obj.group g).toPath = PropertyPath.group g from rfl, isChannel_group h]
    constructor
    · intro hh; cases hh
    · rintro ⟨g, c, hh, _⟩; cases hh
  | channel g c =>
    simp only at h
    rw [show (Obj.channel g c).toPath = PropertyPath.channel g c from rfl, isChannel_channel h.1 h.2]
    constructor
    · intro hh; cases hh; exact ⟨g, c, rfl, rfl⟩
    · rintro ⟨g', c', hh, hp⟩; cases hh; rw [hp]; rfl

/-- C05 in full is false: a *group* called `a/b` is accepted as a channel path, and asking for
    its names panics; a channel called `a/b` is refused. -/
theorem channel_path_counterexample :
    (∃ p, ChannelPath.ofPropertyPath (PropertyPath.group "a/b".toList) = .ok p ∧
      p.groupName = R.panic .expect) ∧
    ChannelPath.ofPropertyPath (PropertyPath.channel "g".toList "a/b".toList)
      = R.err (.invalidChannelPath "/'g'/'a/b'".toList) := by
  exact ⟨⟨_, rfl, by decide +kernel⟩, by decide +kernel⟩

end Tedium
