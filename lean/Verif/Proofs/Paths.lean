import Verif.Model.Paths
import Verif.Spec.Objects

/-! # Helper lemmas: paths -/

namespace Tedium

theorem normName_eq (n : Text) : normName n = escapeName n := rfl

theorem quote_not_mem_escapeName (n : Text) : '\'' ∉ escapeName n := by
  unfold escapeName
  intro h
  rw [List.mem_map] at h
  obtain ⟨c, _, hc⟩ := h
  split at hc
  · simp at hc
  · rename_i h1; exact h1 hc

theorem slash_mem_escapeName (n : Text) : '/' ∈ escapeName n ↔ '/' ∈ n := by
  unfold escapeName
  rw [List.mem_map]
  constructor
  · rintro ⟨c, hc, h⟩
    split at h
    · simp at h
    · rwa [← h]
  · intro h
    exact ⟨'/', h, by simp⟩

theorem escapeName_idem (n : Text) : escapeName (escapeName n) = escapeName n := by
  unfold escapeName
  rw [List.map_map]
  apply List.map_congr_left
  intro c _
  simp only [Function.comp]
  split <;> simp_all

theorem escapeName_of_no_quote {n : Text} (h : '\'' ∉ n) : escapeName n = n := by
  unfold escapeName
  conv => rhs; rw [← List.map_id n]
  apply List.map_congr_left
  intro c hc
  split
  · rename_i h1; subst h1; exact absurd hc h
  · rfl

/-- Splitting at the first occurrence of a separator is unique. -/
theorem append_sep_inj {α : Type} {q : α} {a a' b b' : List α} (ha : q ∉ a) (ha' : q ∉ a')
    (h : a ++ q :: b = a' ++ q :: b') : a = a' ∧ b = b' := by
  induction a generalizing a' with
  | nil =>
    cases a' with
    | nil => simpa using h
    | cons x xs =>
      simp only [List.nil_append, List.cons_append, List.cons.injEq] at h
      exact absurd (by rw [h.1]; simp) ha'
  | cons x xs ih =>
    cases a' with
    | nil =>
      simp only [List.nil_append, List.cons_append, List.cons.injEq] at h
      exact absurd (by rw [h.1]; simp) ha
    | cons y ys =>
      simp only [List.cons_append, List.cons.injEq] at h
      obtain ⟨h1, h2⟩ := ih (fun hh => ha (by simp [hh])) (fun hh => ha' (by simp [hh])) h.2
      exact ⟨by rw [h.1, h1], h2⟩

theorem exists_first {α : Type} [DecidableEq α] {q : α} {l : List α} (h : q ∈ l) :
    ∃ a b, l = a ++ q :: b ∧ q ∉ a := by
  induction l with
  | nil => cases h
  | cons x xs ih =>
    by_cases hx : x = q
    · exact ⟨[], xs, by simp [hx], by simp⟩
    · have : q ∈ xs := by
        rcases List.mem_cons.mp h with h | h
        · exact absurd h.symm hx
        · exact h
      obtain ⟨a, b, hab, hna⟩ := ih this
      refine ⟨x :: a, b, by simp [hab], ?_⟩
      simp only [List.mem_cons, not_or]
      exact ⟨fun hh => hx hh.symm, hna⟩

/-! ## Splitting -/

theorem splitOn_ne_nil (c : Char) (s : Text) : splitOn c s ≠ [] := by
  induction s with
  | nil => simp [splitOn]
  | cons x xs ih =>
    unfold splitOn
    split
    · simp
    · split <;> simp

theorem splitOn_append_sep (c : Char) (a b : Text) (h : c ∉ a) :
    splitOn c (a ++ c :: b) = a :: splitOn c b := by
  induction a with
  | nil => simp [splitOn]
  | cons x xs ih =>
    have hx : x ≠ c := fun hh => h (by simp [hh])
    have hxs : c ∉ xs := fun hh => h (by simp [hh])
    simp only [List.cons_append, splitOn, hx, if_false, ih hxs]

theorem splitOn_of_not_mem (c : Char) (a : Text) (h : c ∉ a) : splitOn c a = [a] := by
  induction a with
  | nil => rfl
  | cons x xs ih =>
    have hx : x ≠ c := fun hh => h (by simp [hh])
    have hxs : c ∉ xs := fun hh => h (by simp [hh])
    simp only [splitOn, hx, if_false, ih hxs]

/-- every piece lies between separators -/
theorem mem_splitOn {c : Char} {s p : Text} (h : p ∈ splitOn c s) :
    c ∉ p ∧ ∃ a b, s = a ++ p ++ b ∧ (a = [] ∨ ∃ a', a = a' ++ [c]) ∧ (b = [] ∨ ∃ b', b = c :: b') := by
  by_cases hc : c ∈ s
  · obtain ⟨a, b, hab, hna⟩ := exists_first hc
    have hlen : b.length < s.length := by rw [hab]; simp; omega
    rw [hab, splitOn_append_sep c a b hna] at h
    rcases List.mem_cons.mp h with h | h
    · subst h
      exact ⟨hna, [], c :: b, by simp [hab], Or.inl rfl, Or.inr ⟨b, rfl⟩⟩
    · obtain ⟨h1, a2, b2, h2, h3, h4⟩ := mem_splitOn h
      refine ⟨h1, a ++ c :: a2, b2, by rw [hab, h2]; simp, Or.inr ?_, h4⟩
      rcases h3 with h3 | ⟨a3, h3⟩
      · exact ⟨a, by simp [h3]⟩
      · exact ⟨a ++ c :: a3, by simp [h3]⟩
  · rw [splitOn_of_not_mem c s hc] at h
    simp only [List.mem_cons, List.not_mem_nil, or_false] at h
    subst h
    exact ⟨hc, [], [], by simp, Or.inl rfl, Or.inl rfl⟩
termination_by s.length

theorem splitOn_append (c : Char) (a b : Text) :
    ∃ l x y m, splitOn c a = l ++ [x] ∧ splitOn c b = y :: m ∧ splitOn c (a ++ b) = l ++ (x ++ y) :: m := by
  induction a with
  | nil =>
    cases hb : splitOn c b with
    | nil => exact absurd hb (splitOn_ne_nil c b)
    | cons y m => exact ⟨[], [], y, m, by simp [splitOn], rfl, by simpa using hb⟩
  | cons z zs ih =>
    obtain ⟨l, x, y, m, h1, h2, h3⟩ := ih
    by_cases hz : z = c
    · exact ⟨[] :: l, x, y, m, by simp [splitOn, hz, h1], h2, by simp [splitOn, hz, h3]⟩
    · cases l with
      | nil =>
        exact ⟨[], z :: x, y, m, by simp [splitOn, hz, h1], h2, by simp [splitOn, hz, h3]⟩
      | cons w ws =>
        exact ⟨(z :: w) :: ws, x, y, m, by simp [splitOn, hz, h1], h2, by simp [splitOn, hz, h3]⟩

/-! ## Quoted components -/

theorem startsWith_quoted (n : Text) : startsWithChar '\'' ('\'' :: (n ++ ['\''])) = true := by
  simp [startsWithChar]

theorem endsWith_quoted (n : Text) : endsWithChar '\'' ('\'' :: (n ++ ['\''])) = true := by
  unfold endsWithChar
  rw [show '\'' :: (n ++ ['\'']) = ('\'' :: n) ++ ['\''] by simp, List.getLast?_append]
  simp

theorem stripEnds_quoted (n : Text) : stripEnds ('\'' :: (n ++ ['\''])) = .ok n := by
  simp [stripEnds]

theorem parseName_quoted (n : Text) : parseName ('\'' :: (n ++ ['\''])) = .ok (some n) := by
  unfold parseName
  rw [startsWith_quoted, endsWith_quoted, stripEnds_quoted]
  rfl

/-- A component that is accepted is a quoted name. -/
theorem parseName_some {p n : Text} (h : parseName p = .ok (some n)) : p = '\'' :: (n ++ ['\'']) := by
  unfold parseName at h
  split at h
  · cases h
  · rename_i hc
    simp only [Bool.or_eq_true, Bool.not_eq_true', not_or, Bool.not_eq_false] at hc
    obtain ⟨hs, he⟩ := hc
    unfold stripEnds at h
    by_cases hl : p.length < 2
    · rw [if_pos hl] at h; cases h
    · rw [if_neg hl] at h
      have hn : n = p.tail.dropLast := by cases h; rfl
      unfold startsWithChar at hs
      unfold endsWithChar at he
      simp only [decide_eq_true_eq] at hs he
      cases p with
      | nil => simp at hl
      | cons x xs =>
        simp only [List.head?_cons, Option.some.injEq] at hs
        subst hs
        have hxs : xs ≠ [] := by intro hh; simp [hh] at hl
        have : xs.getLast? = some '\'' := by
          rw [List.getLast?_cons] at he
          simp only [Option.some.injEq] at he
          rw [List.getLast?_eq_some_getLast hxs] at he ⊢
          simpa using he
        rw [List.getLast?_eq_some_getLast hxs] at this
        simp only [Option.some.injEq] at this
        rw [hn, List.tail_cons]
        congr 1
        rw [← this]
        exact (List.dropLast_concat_getLast hxs).symm

/-- `parse_name` panics only on a lone quote. -/
theorem parseName_not_panic {p : Text} (h : p ≠ ['\'']) : ∃ o, parseName p = .ok o := by
  unfold parseName
  split
  · exact ⟨none, rfl⟩
  · rename_i hc
    simp only [Bool.or_eq_true, Bool.not_eq_true', not_or, Bool.not_eq_false] at hc
    obtain ⟨hs, he⟩ := hc
    unfold stripEnds
    have : ¬ p.length < 2 := by
      intro hl
      unfold startsWithChar at hs
      simp only [decide_eq_true_eq] at hs
      match p, hl with
      | [], _ => simp at hs
      | [x], _ =>
        simp only [List.head?_cons, Option.some.injEq] at hs
        subst hs
        exact h rfl
    rw [if_neg this]
    exact ⟨some _, rfl⟩

theorem parseName_lone : parseName ['\''] = R.panic .sliceRange := by decide

theorem nextPart_cons (path p : Text) (ps : List Text) :
    nextPart path (p :: ps) = (do
      match ← parseName p with
      | some n => return (some n, ps)
      | none => R.err (.invalidObjectPath path)) := rfl

/-! ## The three shapes -/

theorem path_file : PropertyPath.file.path = ['/'] := rfl

theorem path_group (g : Text) :
    (PropertyPath.group g).path = '/' :: ('\'' :: (escapeName g ++ ['\''])) := rfl

theorem path_channel (g c : Text) :
    (PropertyPath.channel g c).path =
      '/' :: (('\'' :: (escapeName g ++ ['\''])) ++ '/' :: ('\'' :: (escapeName c ++ ['\'']))) := by
  simp [PropertyPath.channel]

theorem count_quote_escape (n : Text) : (escapeName n).count '\'' = 0 :=
  List.count_eq_zero.mpr (quote_not_mem_escapeName n)

theorem quotes_file : PropertyPath.file.path.count '\'' = 0 := by decide
theorem quotes_group (g : Text) : (PropertyPath.group g).path.count '\'' = 2 := by
  rw [path_group]
  simp [List.count_append, count_quote_escape]
theorem quotes_channel (g c : Text) : (PropertyPath.channel g c).path.count '\'' = 4 := by
  rw [path_channel]
  simp [List.count_append, count_quote_escape]

theorem group_inj {g g' : Text} (h : PropertyPath.group g = PropertyPath.group g') :
    escapeName g = escapeName g' := by
  have := congrArg PropertyPath.path h
  rw [path_group, path_group] at this
  simpa using this

theorem channel_inj {g g' c c' : Text} (h : PropertyPath.channel g c = PropertyPath.channel g' c') :
    escapeName g = escapeName g' ∧ escapeName c = escapeName c' := by
  have := congrArg PropertyPath.path h
  rw [path_channel, path_channel] at this
  simp only [List.cons.injEq, true_and, List.append_assoc, List.cons_append, List.nil_append] at this
  obtain ⟨h1, h2⟩ := append_sep_inj (quote_not_mem_escapeName g) (quote_not_mem_escapeName g') this
  refine ⟨h1, ?_⟩
  simpa using h2

theorem slash_not_mem_quoted {n : Text} (h : '/' ∉ n) : '/' ∉ '\'' :: (n ++ ['\'']) := by
  simp [h]

theorem components_group {g : Text} (h : '/' ∉ g) :
    (splitOn '/' (PropertyPath.group g).path).drop 1 = ['\'' :: (escapeName g ++ ['\''])] := by
  have h' : '/' ∉ escapeName g := fun hh => h ((slash_mem_escapeName g).mp hh)
  rw [path_group]
  simp only [splitOn, if_true, List.drop_one, List.tail_cons]
  exact splitOn_of_not_mem _ _ (slash_not_mem_quoted h')

theorem components_channel {g c : Text} (h : '/' ∉ g) (hc : '/' ∉ c) :
    (splitOn '/' (PropertyPath.channel g c).path).drop 1
      = ['\'' :: (escapeName g ++ ['\'']), '\'' :: (escapeName c ++ ['\''])] := by
  have h' : '/' ∉ escapeName g := fun hh => h ((slash_mem_escapeName g).mp hh)
  have hc' : '/' ∉ escapeName c := fun hh => hc ((slash_mem_escapeName c).mp hh)
  rw [path_channel]
  simp only [splitOn, if_true, List.drop_one, List.tail_cons]
  rw [splitOn_append_sep _ _ _ (slash_not_mem_quoted h'),
    splitOn_of_not_mem _ _ (slash_not_mem_quoted hc')]

/-! ## Levels -/

theorem nthLevel_quoted_zero (n : Text) (vs : List Text) :
    PropertyPath.nthLevel 0 (('\'' :: (n ++ ['\''])) :: vs) = .ok (some n) := by
  unfold PropertyPath.nthLevel
  rw [startsWith_quoted, endsWith_quoted, stripEnds_quoted]
  rfl

theorem nthLevel_quoted_succ (k : Nat) (n : Text) (vs : List Text) :
    PropertyPath.nthLevel (k + 1) (('\'' :: (n ++ ['\''])) :: vs) = PropertyPath.nthLevel k vs := by
  conv => lhs; unfold PropertyPath.nthLevel
  rw [startsWith_quoted, endsWith_quoted, stripEnds_quoted]
  rfl

/-- Components of which none is quoted: the search finds nothing or panics. -/
theorem nthLevel_unquoted (n : Nat) (vs : List Text) (h : ∀ v ∈ vs, ∀ m, v ≠ '\'' :: (m ++ ['\''])) :
    ∀ x, PropertyPath.nthLevel n vs ≠ .ok (some x) := by
  induction vs with
  | nil => intro x; simp [PropertyPath.nthLevel]
  | cons v vs ih =>
    intro x hx
    unfold PropertyPath.nthLevel at hx
    split at hx
    · rename_i hc
      have hp : parseName v = (do let inner ← stripEnds v; return some inner) := by
        unfold parseName
        rw [if_neg]
        simpa using hc
      cases hs : stripEnds v with
      | error e => rw [hs] at hx; cases hx
      | ok m =>
        rw [hs] at hp
        exact absurd (parseName_some hp) (h v (by simp) m)
    · exact ih (fun w hw => h w (by simp [hw])) x hx

/-- A text without quotes followed by one quote has no quoted component. -/
theorem splitOn_tail_unquoted (s : Text) (h : '\'' ∉ s) :
    ∀ v ∈ splitOn '/' (s ++ ['\'']), ∀ m, v ≠ '\'' :: (m ++ ['\'']) := by
  intro v hv m hm
  obtain ⟨_, a, b, hab, _, _⟩ := mem_splitOn hv
  have := congrArg (List.count '\'') hab
  subst hm
  simp [List.count_append, List.count_eq_zero.mpr h] at this
  omega

/-- The same in front of a quote. -/
theorem splitOn_head_unquoted (s : Text) (h : '\'' ∉ s) :
    ∀ v ∈ splitOn '/' ('\'' :: s), ∀ m, v ≠ '\'' :: (m ++ ['\'']) := by
  intro v hv m hm
  obtain ⟨_, a, b, hab, _, _⟩ := mem_splitOn hv
  have := congrArg (List.count '\'') hab
  subst hm
  simp [List.count_append, List.count_eq_zero.mpr h] at this
  omega

/-- A quoted name with a slash in it has no quoted component. -/
theorem components_slash_unquoted (n : Text) (h : '/' ∈ n) :
    ∀ v ∈ splitOn '/' ('\'' :: (escapeName n ++ ['\''])), ∀ m, v ≠ '\'' :: (m ++ ['\'']) := by
  obtain ⟨a, b, hab, hna⟩ := exists_first ((slash_mem_escapeName n).mpr h)
  have hq := quote_not_mem_escapeName n
  rw [hab] at hq
  have hqa : '\'' ∉ a := fun hh => hq (by simp [hh])
  have hqb : '\'' ∉ b := fun hh => hq (by simp [hh])
  have hna' : '/' ∉ '\'' :: a := by simp [hna]
  intro v hv m hm
  rw [hab, show '\'' :: ((a ++ '/' :: b) ++ ['\'']) = ('\'' :: a) ++ '/' :: (b ++ ['\'']) by simp,
    splitOn_append_sep _ _ _ hna'] at hv
  rcases List.mem_cons.mp hv with hv | hv
  · have h1 : v ∈ splitOn '/' ('\'' :: a) := by rw [splitOn_of_not_mem _ _ hna']; simp [hv]
    exact splitOn_head_unquoted a hqa v h1 m hm
  · exact splitOn_tail_unquoted b hqb v hv m hm

theorem splitOn_sep (q : Char) (a b : Text) : splitOn q (a ++ q :: b) = splitOn q a ++ splitOn q b := by
  induction a with
  | nil => simp [splitOn]
  | cons x xs ih =>
    simp only [List.cons_append, splitOn, ih]
    split
    · rfl
    · cases h : splitOn q xs with
      | nil => exact absurd h (splitOn_ne_nil _ _)
      | cons y ys => simp

theorem splitOn_channel_path (g c : Text) :
    (splitOn '/' (PropertyPath.channel g c).path).drop 1 =
      splitOn '/' ('\'' :: (escapeName g ++ ['\''])) ++ splitOn '/' ('\'' :: (escapeName c ++ ['\''])) := by
  rw [path_channel, splitOn, if_pos rfl, List.drop_one, List.tail_cons, splitOn_sep]

theorem splitOn_group_path (g : Text) :
    (splitOn '/' (PropertyPath.group g).path).drop 1 =
      splitOn '/' ('\'' :: (escapeName g ++ ['\''])) := by
  rw [path_group]
  simp [splitOn]

end Tedium
