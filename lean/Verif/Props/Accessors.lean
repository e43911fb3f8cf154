import Verif.Spec.Grammar
import Verif.Proofs.Paths

/-! # C02, exactly: what `group_name` and `channel_name` return, for all names -/

namespace Tedium

instance (n : Text) : Decidable (SlashAtEnd n) := inferInstanceAs (Decidable (_ ∨ _))

/-! ## The components of a quoted name -/

theorem nthLevel_lone (k : Nat) (vs : List Text) : PropertyPath.nthLevel k (['\''] :: vs) = R.panic .sliceRange := by
  cases k <;> rfl

theorem nthLevel_plain (k : Nat) {v : Text} (hv : v.head? ≠ some '\'') (vs : List Text) :
    PropertyPath.nthLevel k (v :: vs) = PropertyPath.nthLevel k vs := by
  conv => lhs; unfold PropertyPath.nthLevel
  rw [if_neg]
  unfold startsWithChar
  simp [hv]

theorem head_no_quote {v : Text} (h : '\'' ∉ v) : v.head? ≠ some '\'' := fun hh => h (List.mem_of_head? hh)

theorem nthLevel_rest (k : Nat) (ws : List Text) : ∀ (n : Nat) (b : Text), b.length ≤ n → '\'' ∉ b →
    PropertyPath.nthLevel k (splitOn '/' (b ++ ['\'']) ++ ws) =
      if b = [] ∨ b.getLast? = some '/' then R.panic .sliceRange else PropertyPath.nthLevel k ws := by
  intro n
  induction n with
  | zero =>
    intro b hb _
    obtain rfl := List.length_eq_zero_iff.mp (Nat.le_zero.mp hb)
    rw [if_pos (Or.inl rfl)]
    exact nthLevel_lone k ws
  | succ n ih =>
    intro b hb hq
    by_cases hs : '/' ∈ b
    · obtain ⟨a, b', rfl, hna⟩ := exists_first hs
      have hqa : '\'' ∉ a := fun h => hq (List.mem_append_left _ h)
      have hqb : '\'' ∉ b' := fun h => hq (List.mem_append_right _ (List.mem_cons_of_mem _ h))
      rw [List.append_assoc, List.cons_append, splitOn_append_sep _ _ _ hna, List.cons_append,
        nthLevel_plain k (head_no_quote hqa), ih b' (by simp only [List.length_append, List.length_cons] at hb; omega) hqb]
      have : (b' = [] ∨ b'.getLast? = some '/') ↔ (a ++ '/' :: b' = [] ∨ (a ++ '/' :: b').getLast? = some '/') := by
        cases b' with
        | nil => simp
        | cons x xs => simp [List.getLast?_append, List.getLast?_cons_cons]
      simp only [this]
    · by_cases hb0 : b = []
      · subst hb0
        rw [if_pos (Or.inl rfl)]
        exact nthLevel_lone k ws
      · rw [splitOn_of_not_mem _ _ (by simp [hs]), List.singleton_append, nthLevel_plain, if_neg]
        · rintro (h | h)
          · exact hb0 h
          · exact hs (List.mem_of_getLast? h)
        · cases b with
          | nil => exact absurd rfl hb0
          | cons x xs => exact head_no_quote (v := x :: xs) hq

theorem escapeName_ends (n : Text) : SlashAtEnd (escapeName n) ↔ SlashAtEnd n := by
  have key : ∀ x : Option Char, x.map (fun c => if c = '\'' then '"' else c) = some '/' ↔ x = some '/' := by
    intro x
    cases x with
    | none => simp
    | some c =>
      by_cases hc : c = '\''
      · subst hc; decide
      · simp [hc]
  unfold SlashAtEnd escapeName
  rw [List.head?_map, List.getLast?_map, key, key]

/-- A name with a slash: none of its parts is a quoted name, and the search stumbles or passes on. -/
theorem nthLevel_slash (k : Nat) (n : Text) (hs : '/' ∈ n) (ws : List Text) :
    PropertyPath.nthLevel k (splitOn '/' ('\'' :: (escapeName n ++ ['\''])) ++ ws) =
      if SlashAtEnd n then R.panic .sliceRange else PropertyPath.nthLevel k ws := by
  have hq := quote_not_mem_escapeName n
  have hiff := escapeName_ends n
  obtain ⟨a, b, hab, hna⟩ := exists_first ((slash_mem_escapeName n).mpr hs)
  rw [hab] at hq hiff
  have hqa : '\'' ∉ a := fun h => hq (List.mem_append_left _ h)
  have hqb : '\'' ∉ b := fun h => hq (List.mem_append_right _ (List.mem_cons_of_mem _ h))
  rw [hab, List.append_assoc, List.cons_append, ← List.cons_append, splitOn_append_sep _ _ _ (by simp [hna]), List.cons_append]
  by_cases ha : a = []
  · subst ha
    rw [nthLevel_lone, if_pos (hiff.mp (Or.inl rfl))]
  · have hpl : PropertyPath.nthLevel k (('\'' :: a) :: (splitOn '/' (b ++ ['\'']) ++ ws))
        = PropertyPath.nthLevel k (splitOn '/' (b ++ ['\'']) ++ ws) := by
      conv => lhs; unfold PropertyPath.nthLevel
      rw [if_neg]
      have : ('\'' :: a).getLast? ≠ some '\'' := by
        rw [List.getLast?_cons_of_ne_nil ha]
        exact fun h => hqa (List.mem_of_getLast? h)
      unfold endsWithChar
      simp [this]
    rw [hpl, nthLevel_rest k ws b.length b (Nat.le_refl _) hqb]
    have : (b = [] ∨ b.getLast? = some '/') ↔ SlashAtEnd n := by
      rw [← hiff]
      unfold SlashAtEnd
      have h0 : (a ++ '/' :: b).head? ≠ some '/' := by
        cases a with
        | nil => exact absurd rfl ha
        | cons x xs => exact fun h => hna (List.mem_of_head? (l := x :: xs) h)
      rw [or_iff_right h0]
      cases b with
      | nil => simp
      | cons x xs => simp [List.getLast?_append, List.getLast?_cons_cons]
    simp only [this]

/-! ## The accessors -/

/-- C02, exactly, for a group. A slash in the name loses it, and makes both accessors panic if the name begins or ends
    with it. -/
theorem group_accessors_exactly (g : Text) :
    (PropertyPath.group g).groupName =
      (if '/' ∉ g then .ok (some (normName g)) else if SlashAtEnd g then R.panic .sliceRange else .ok none) ∧
    (PropertyPath.group g).channelName =
      (if '/' ∈ g ∧ SlashAtEnd g then R.panic .sliceRange else .ok none) := by
  unfold PropertyPath.groupName PropertyPath.channelName
  rw [splitOn_group_path]
  by_cases h : '/' ∈ g
  · have h1 := nthLevel_slash 0 g h []
    have h2 := nthLevel_slash 1 g h []
    rw [List.append_nil] at h1 h2
    rw [h1, h2]
    by_cases h3 : SlashAtEnd g <;> simp [h, h3] <;> exact ⟨rfl, rfl⟩
  · have h' : '/' ∉ escapeName g := fun hh => h ((slash_mem_escapeName g).mp hh)
    rw [splitOn_of_not_mem _ _ (slash_not_mem_quoted h'), nthLevel_quoted_zero, nthLevel_quoted_succ, if_pos h,
      if_neg (fun hh => h hh.1)]
    exact ⟨rfl, rfl⟩

/-- C02, exactly, for a channel. `group_name` returns the name of the group if it has no slash. Otherwise both names
    are looked for among the rest, so that `group_name` can return the name of the channel. -/
theorem channel_accessors_exactly (g c : Text) :
    (PropertyPath.channel g c).groupName =
      (if '/' ∉ g then .ok (some (normName g)) else if SlashAtEnd g then R.panic .sliceRange
       else if '/' ∉ c then .ok (some (normName c)) else if SlashAtEnd c then R.panic .sliceRange else .ok none) ∧
    (PropertyPath.channel g c).channelName =
      (if '/' ∈ g ∧ SlashAtEnd g then R.panic .sliceRange else if '/' ∈ c ∧ SlashAtEnd c then R.panic .sliceRange
       else if '/' ∉ g ∧ '/' ∉ c then .ok (some (normName c)) else .ok none) := by
  unfold PropertyPath.groupName PropertyPath.channelName
  rw [splitOn_channel_path]
  have hc : ∀ k, PropertyPath.nthLevel k (splitOn '/' ('\'' :: (escapeName c ++ ['\'']))) =
      if '/' ∈ c then (if SlashAtEnd c then R.panic .sliceRange else .ok none)
      else if k = 0 then .ok (some (normName c)) else .ok none := by
    intro k
    by_cases h : '/' ∈ c
    · have h1 := nthLevel_slash k c h []
      rw [List.append_nil] at h1
      rw [h1, if_pos h]
      cases k <;> rfl
    · have h' : '/' ∉ escapeName c := fun hh => h ((slash_mem_escapeName c).mp hh)
      rw [splitOn_of_not_mem _ _ (slash_not_mem_quoted h'), if_neg h]
      cases k with
      | zero => rw [nthLevel_quoted_zero]; rfl
      | succ k => rw [nthLevel_quoted_succ]; cases k <;> rfl
  by_cases h : '/' ∈ g
  · rw [nthLevel_slash 0 g h, nthLevel_slash 1 g h, hc, hc]
    by_cases h2 : '/' ∈ c <;> by_cases h3 : SlashAtEnd g <;> by_cases h4 : SlashAtEnd c <;> simp [h, h2, h3, h4]
  · have h' : '/' ∉ escapeName g := fun hh => h ((slash_mem_escapeName g).mp hh)
    rw [splitOn_of_not_mem _ _ (slash_not_mem_quoted h'), List.singleton_append, nthLevel_quoted_zero, nthLevel_quoted_succ, hc]
    by_cases h2 : '/' ∈ c <;> by_cases h4 : SlashAtEnd c <;> simp [h, h2, h4] <;> rfl

/-- C02, exactly, for a `ChannelPath` that `ChannelPath::new` gives: where a name is lost `expect` panics. So `group_name`
    does not panic if and only if the group has no slash, or has one inside and the channel has none; and `channel_name`
    does not panic if and only if neither has a slash. -/
theorem channel_path_accessors_exactly (g c : Text) :
    ((∀ k, (ChannelPath.new g c).groupName ≠ R.panic k) ↔ '/' ∉ g ∨ (¬ SlashAtEnd g ∧ '/' ∉ c)) ∧
    ((∀ k, (ChannelPath.new g c).channelName ≠ R.panic k) ↔ '/' ∉ g ∧ '/' ∉ c) := by
  obtain ⟨h1, h2⟩ := channel_accessors_exactly g c
  unfold ChannelPath.groupName ChannelPath.channelName ChannelPath.new
  dsimp only
  rw [h1, h2]
  have hp : ∀ {α : Type} {k : PanicKind} {f : Option Text → R α}, ¬ ∀ k', ((R.panic k : R (Option Text)) >>= f) ≠ R.panic k' :=
    fun hh => hh _ rfl
  have hn : ¬ ∀ k', ((.ok none : R (Option Text)) >>= fun o => ChannelPath.expectSome o) ≠ R.panic k' :=
    fun hh => hh _ rfl
  have hs : ∀ x, ∀ k', ((.ok (some x) : R (Option Text)) >>= fun o => ChannelPath.expectSome o) ≠ R.panic k' := by
    intro x k' hh
    cases hh
  by_cases h : '/' ∈ g <;> by_cases h2 : '/' ∈ c <;> by_cases h3 : SlashAtEnd g <;> by_cases h4 : SlashAtEnd c <;>
    simp only [h, h2, h3, h4, not_true_eq_false, not_false_eq_true, if_true, if_false, and_true, and_false,
      or_true, or_false, iff_true, iff_false, or_self] <;>
    first
      | exact ⟨hp, hp⟩ | exact ⟨hn, hn⟩ | exact ⟨hs _, hs _⟩ | exact ⟨hs _, hp⟩ | exact ⟨hs _, hn⟩ | exact ⟨hn, hp⟩ | exact ⟨hp, hn⟩

/-- All cases occur. -/
theorem accessors_examples :
    (PropertyPath.group "a/b".toList).groupName = .ok none ∧ (PropertyPath.group "a/".toList).groupName = R.panic .sliceRange ∧
    (PropertyPath.channel "a/b".toList "c".toList).groupName = .ok (some "c".toList) ∧
    (PropertyPath.channel "a/b".toList "/c".toList).groupName = R.panic .sliceRange ∧
    (PropertyPath.channel "it's".toList "c/d".toList).groupName = .ok (some "it\"s".toList) ∧
    (PropertyPath.channel "a".toList "c/d".toList).channelName = .ok none ∧
    (PropertyPath.channel "a".toList "c/d/".toList).channelName = R.panic .sliceRange ∧
    SlashAtEnd "c/d/".toList ∧ ¬ SlashAtEnd "a/b".toList := by
  decide +kernel

end Tedium
