import Verif.Proofs.JointlyCells

/-! # Reads of several channels when a file grows -/

namespace Tedium
open PlanSpec SegSpec

theorem zipWith_append_nil (l : List (List (Nat × Cell))) (bufs : List Buffer) (h : l.length = bufs.length) :
    List.zipWith (· ++ ·) (bufs.map fun _ => []) l = l := by
  apply List.ext_getElem?
  intro s
  rw [List.getElem?_zipWith, List.getElem?_map]
  by_cases hs : s < bufs.length
  · rw [List.getElem?_eq_getElem hs, List.getElem?_eq_getElem (by omega : s < l.length)]
    rfl
  · rw [List.getElem?_eq_none (by omega : bufs.length ≤ s), List.getElem?_eq_none (by omega : l.length ≤ s)]
    rfl

theorem zipWith_append_assoc : ∀ (a b c : List (List (Nat × Cell))),
    List.zipWith (· ++ ·) (List.zipWith (· ++ ·) a b) c = List.zipWith (· ++ ·) a (List.zipWith (· ++ ·) b c)
  | [], _, _ => rfl
  | _ :: _, [], _ => rfl
  | _ :: _, _ :: _, [] => rfl
  | x :: a, y :: b, z :: c => by
    simp only [List.zipWith_cons_cons, List.append_assoc, zipWith_append_assoc a b c]

theorem stored_append (w start : Nat) (bufs : List Buffer) (more : List (List Segment)) :
    ∀ (pres : List (List Segment)) (prog : List Nat), stored w start bufs (pres ++ more) prog =
      match goesOn w start bufs pres prog with
      | none => stored w start bufs pres prog
      | some prog' => List.zipWith (· ++ ·) (stored w start bufs pres prog) (stored w start bufs more prog') := by
  intro pres
  induction pres with
  | nil =>
    intro prog
    rw [List.nil_append]
    unfold goesOn
    dsimp only
    rw [show stored w start bufs [] prog = bufs.map fun _ => [] from rfl, zipWith_append_nil _ _ (stored_length ..)]
  | cons pre pres ih =>
    intro prog
    rw [List.cons_append]
    generalize stored w start bufs more = g at ih ⊢
    unfold stored goesOn
    cases blockOf pre with
    | none => dsimp only; exact ih prog
    | some b =>
      dsimp only
      split
      · split
        · rfl
        · rw [ih]
          cases goesOn w start bufs pres (progressed pre start bufs prog
            (b.counted w ((takers pre start bufs prog).filterMap id))) with
          | none => rfl
          | some prog' =>
            dsimp only
            rw [zipWith_append_assoc]
      · exact ih prog

theorem readBlocks_append (w start : Nat) (bufs : List Buffer) (more : List (List Segment)) :
    ∀ (pres : List (List Segment)) (prog : List Nat), readBlocks w start bufs (pres ++ more) prog =
      match goesOn w start bufs pres prog with
      | none => readBlocks w start bufs pres prog
      | some prog' => readBlocks w start bufs pres prog ++ readBlocks w start bufs more prog' := by
  intro pres
  induction pres with
  | nil => intro prog; rfl
  | cons pre pres ih =>
    intro prog
    rw [List.cons_append]
    generalize readBlocks w start bufs more = g at ih ⊢
    unfold readBlocks goesOn
    cases blockOf pre with
    | none => dsimp only; exact ih prog
    | some b =>
      dsimp only
      split
      · split
        · rfl
        · rw [ih]
          cases goesOn w start bufs pres (progressed pre start bufs prog
            (b.counted w ((takers pre start bufs prog).filterMap id))) with
          | none => rfl
          | some prog' => rfl
      · exact ih prog

theorem dataPrefixes_append : ∀ (more segs : List Segment), ∃ pres,
    dataPrefixes (segs ++ more) = dataPrefixes segs ++ pres
  | [], segs => ⟨[], by rw [List.append_nil, List.append_nil]⟩
  | s :: more, segs => by
    obtain ⟨pres, hp⟩ := dataPrefixes_append more (segs ++ [s])
    rw [dataPrefixes_snoc, List.append_assoc, List.append_assoc] at hp
    exact ⟨_, hp⟩

end Tedium
