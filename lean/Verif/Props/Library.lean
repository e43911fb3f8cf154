import Verif.Proofs.Library

/-! # C88: the library is a store -/

namespace Tedium
open SegSpec WriteSpec Library

/-- **C88** (partial: the limits of C31, C32, C16, C17 and C37 on the calls of the program, see `Proper`). Run a program on a new
    file: calls that write, among them calls that are rejected, questions, and closing and opening the file again, in any order. Then
    every reply is that of the store. -/
theorem library_is_store_partial (al : Alloc) {t : TdmsFile} (ht : TdmsFile.create al = .ok t) (cmds : List Command)
    (h : Proper al t cmds) : Behaves al Store.empty (replies al t cmds) := by
  have := created_eq ht
  subst this
  exact behaves_from al cmds [] h

/-! ## The store leaves no choice -/

/-- The query has a definite answer: of several channels that are read together, those that have to be refused have samples of one
    type. -/
def Definite (s : Store) : Query → Prop
  | .readMany ty cs start => ∀ c ∈ cs, ∀ d ∈ cs, s.Refuses ty c.1.path start c.2 → s.Refuses ty d.1.path start d.2 →
      (s.content c.1.path).map (·.1) = (s.content d.1.path).map (·.1)
  | _ => True

theorem sorted_unique {α : Type} (key : α → Text) : ∀ (a b : List α), (a.Pairwise fun x y => textCmp (key x) (key y) = .lt) →
    (b.Pairwise fun x y => textCmp (key x) (key y) = .lt) → (∀ x, x ∈ a ↔ x ∈ b) → a = b
  | [], [], _, _, _ => rfl
  | [], y :: _, _, _, h => absurd ((h y).mpr List.mem_cons_self) (by nofun)
  | x :: _, [], _, _, h => absurd ((h x).mp List.mem_cons_self) (by nofun)
  | x :: a, y :: b, ha, hb, h => by
    obtain ⟨ha1, ha2⟩ := List.pairwise_cons.mp ha
    obtain ⟨hb1, hb2⟩ := List.pairwise_cons.mp hb
    have hxy : x = y := by
      rcases List.mem_cons.mp ((h x).mp List.mem_cons_self) with hx | hx
      · exact hx
      · rcases List.mem_cons.mp ((h y).mpr List.mem_cons_self) with hy | hy
        · exact hy.symm
        · exact absurd (textCmp_lt_trans (ha1 y hy) (hb1 x hx)) (textCmp_lt_irrefl _)
    subst hxy
    congr 1
    refine sorted_unique key a b ha2 hb2 fun z => ?_
    constructor
    · intro hz
      rcases List.mem_cons.mp ((h z).mp (List.mem_cons_of_mem _ hz)) with hh | hh
      · subst hh; exact absurd (ha1 z hz) (textCmp_lt_irrefl _)
      · exact hh
    · intro hz
      rcases List.mem_cons.mp ((h z).mpr (List.mem_cons_of_mem _ hz)) with hh | hh
      · subst hh; exact absurd (hb1 z hz) (textCmp_lt_irrefl _)
      · exact hh

/-- The first of some things that is not as the others. -/
theorem exists_first_not {α : Type} {P : α → Prop} : ∀ {xs : List α}, (¬ ∀ x ∈ xs, P x) →
    ∃ before x after, xs = before ++ x :: after ∧ (∀ y ∈ before, P y) ∧ ¬ P x
  | [], h => absurd nofun h
  | x :: xs, h => by
    by_cases hx : P x
    · obtain ⟨before, y, after, h1, h2, h3⟩ := exists_first_not (xs := xs) (P := P) (fun hh => h fun y hy => by
        rcases List.mem_cons.mp hy with hy | hy
        · rw [hy]; exact hx
        · exact hh y hy)
      refine ⟨x :: before, y, after, by rw [h1]; rfl, fun z hz => ?_, h3⟩
      rcases List.mem_cons.mp hz with hz | hz
      · rw [hz]; exact hx
      · exact h2 z hz
    · exact ⟨[], x, xs, rfl, nofun, hx⟩

/-- **C88, the replies are determined.** Where the query has a definite answer, the store admits one reply only. -/
theorem answer_unique (al : Alloc) (s : Store) (q : Query) (hq : Definite s q) {r r' : R Reply} (h : s.Answers al q r)
    (h' : s.Answers al q r') : r = r' := by
  cases q with
  | property path n =>
    by_cases ho : s.objects path.path
    · rw [h.1 ho, h'.1 ho]
    · rw [h.2 ho, h'.2 ho]
  | properties path =>
    by_cases ho : s.objects path.path
    · obtain ⟨ps, h1, h2, h3⟩ := h.1 ho
      obtain ⟨ps', h1', h2', h3'⟩ := h'.1 ho
      rw [h1, h1', sorted_unique (·.1) ps ps' h2 h2' (fun x => (h3 x.1 x.2).trans (h3' x.1 x.2).symm)]
    · rw [h.2 ho, h'.2 ho]
  | length c =>
    by_cases ho : s.objects c.path
    · rw [h.1 ho, h'.1 ho]
    · rw [h.2 ho, h'.2 ho]
  | read ty c start out =>
    by_cases ho : s.objects c.path
    · by_cases hr : s.Refuses ty c.path start out
      · obtain ⟨⟨⟨ty', vals⟩, h1, _⟩, _⟩ := id hr
        rw [h.2.1 ho hr ty' vals h1, h'.2.1 ho hr ty' vals h1]
      · rw [h.1 ho hr, h'.1 ho hr]
    · rw [h.2.2 ho, h'.2.2 ho]
  | readMany ty cs start =>
    by_cases ho : ∀ c ∈ cs, s.objects c.1.path
    · by_cases hr : ∃ c ∈ cs, s.Refuses ty c.1.path start c.2
      · obtain ⟨c, hc, hcr, ty1, vals1, h1, e1⟩ := h.2.1 ho hr
        obtain ⟨d, hd, hdr, ty2, vals2, h2, e2⟩ := h'.2.1 ho hr
        have := hq c hc d hd hcr hdr
        rw [h1, h2] at this
        injection this with this
        dsimp only at this
        rw [e1, e2, this]
      · have hno : ∀ c ∈ cs, ¬ s.Refuses ty c.1.path start c.2 := fun c hc hcr => hr ⟨c, hc, hcr⟩
        rw [h.1 ho hno, h'.1 ho hno]
    · obtain ⟨before, c, after, h1, h2, h3⟩ := exists_first_not ho
      rw [h.2.2 before c after h1 h2 h3, h'.2.2 before c after h1 h2 h3]
  | groups =>
    obtain ⟨gs, h1, h2, h3⟩ := h
    obtain ⟨gs', h1', h2', h3'⟩ := h'
    rw [h1, h1', sorted_unique id gs gs' h2 h2' (fun x => (h3 x).trans (h3' x).symm)]
  | channels g =>
    obtain ⟨gs, h1, h2, h3⟩ := h
    obtain ⟨gs', h1', h2', h3'⟩ := h'
    rw [h1, h1', sorted_unique ChannelPath.path gs gs' (List.pairwise_map.mp h2) (List.pairwise_map.mp h2')
      (fun x => (h3 x).trans (h3' x).symm)]

/-! ## A program -/

/-- The calls of `reopenOps` with questions between them, a call that is rejected, and the file opened again twice. -/
def exampleProgram : List Command :=
  [.ask (.length (chan "a")),
   .call (.write .little .u16 [chan "a", chan "b"] (vals16 [1, 2, 3, 4]) .contigious),
   .call (.write .little .u16 [chan "a", chan "b"] (vals16 [1, 2, 3]) .contigious),
   .reopen,
   .call (.props .big (.group "g".toList) [("n".toList, .i32 5)]),
   .call (.write .big .u8 [chan "c"] (vals8 [1, 2, 3]) .interleaved),
   .ask (.properties (.group "g".toList)),
   .call (.write .little .u8 [chan "c"] (vals8 [0, 0, 0, 0, 8, 9]) .contigious),
   .ask (.read .bool (chan "c") 2 [false, false, false]),
   .ask (.read .u16 (chan "c") 2 (vals16 [0])),
   .reopen,
   .call (.write .big .u16 [chan "a", chan "b"] (vals16 [13, 14]) .interleaved),
   .ask (.readMany .u16 [(chan "b", vals16 [0, 0]), (chan "a", vals16 [0, 0])] 1),
   .ask .groups,
   .ask (.channels "g".toList),
   .ask (.readMany .u16 [(chan "a", vals16 [0, 0]), (chan "c", vals16 [0, 0])] 0),
   .ask (.readMany .u16 [(chan "a", vals16 [0, 0]), (chan "c", [])] 0),
   .ask (.readMany .u16 [(chan "c", vals16 [0, 0]), (chan "d", vals16 [0, 0])] 0),
   .ask (.read .u16 (chan "c") 2 [])]

theorem split_take {α : Type} {xs pre post : List α} {x : α} (h : xs = pre ++ x :: post) :
    xs[pre.length]? = some x ∧ pre = xs.take pre.length := by
  subst h
  constructor
  · rw [List.getElem?_append_right (Nat.le_refl _), Nat.sub_self]; rfl
  · rw [List.take_left]

/-- The channels that call number `k` writes. -/
def namedAt (ops : List Op) (k : Nat) : List Text :=
  match ops[k]? with
  | some (.write _ _ channels _ _) => channels.map ChannelPath.path
  | _ => []

theorem mem_namedAt {ops : List Op} {k : Nat} {op : Op} (h : ops[k]? = some op) {p : Text} (hn : Names p op) :
    p ∈ namedAt ops k := by
  unfold namedAt
  rw [h]
  cases op with
  | props => exact absurd hn id
  | write e ty channels vals layout => exact (names_iff ..).mp hn

/-- The hypotheses of C88 hold for it. -/
theorem exampleProgram_proper : Proper anyAlloc ⟨Index.new, []⟩ exampleProgram := by
  have hcalls : calls exampleProgram = reopenOps := rfl
  have hre := reopenOps_reopens
  constructor
  · rw [hcalls]; exact reopenOps_compatible
  · rw [hcalls]
    have key : ∀ op ∈ reopenOps, ∀ p, Names p op → typeOf op = some (if p = (chan "c").path then .u8 else .u16) := by
      intro op hop p hn
      simp only [reopenOps, List.mem_cons, List.not_mem_nil, or_false] at hop
      rcases hop with h | h | h | h | h <;> subst h <;> first
        | exact absurd hn id
        | (obtain ⟨c, hc, hp⟩ := hn
           simp only [List.mem_cons, List.not_mem_nil, or_false] at hc
           first
            | (rcases hc with hc | hc <;> subst hc <;> subst hp <;> decide +kernel)
            | (subst hc; subst hp; decide +kernel))
    intro op hop op' hop' p hn hn'
    rw [key op hop p hn, key op' hop' p hn']
  · rw [hcalls]; exact show (session reopenOps).bytes.length < 2 ^ 63 by decide +kernel
  · intro _
    rw [hcalls]
    exact ⟨fun _ => rfl, hre.2.2.1, hre.2.2.2.1⟩
  · intro _ _ _ op hop
    rw [hcalls] at hop
    have hch : ∀ n : String, '/' ∉ n.toList → ∃ o : Obj, o.SlashFree ∧ o.toPath.path = (chan n).path := fun n hn =>
      ⟨.channel "g".toList n.toList, ⟨by decide +kernel, hn⟩, rfl⟩
    simp only [reopenOps, List.mem_cons, List.not_mem_nil, or_false] at hop
    rcases hop with h | h | h | h | h <;> subst h
    · intro c hc
      simp only [List.mem_cons, List.not_mem_nil, or_false] at hc
      rcases hc with hc | hc <;> subst hc <;> exact hch _ (by decide +kernel)
    · exact ⟨.group "g".toList, show '/' ∉ "g".toList by decide +kernel, rfl⟩
    · intro c hc
      rw [List.mem_singleton.mp hc]; exact hch _ (by decide +kernel)
    · intro c hc
      rw [List.mem_singleton.mp hc]; exact hch _ (by decide +kernel)
    · intro c hc
      simp only [List.mem_cons, List.not_mem_nil, or_false] at hc
      rcases hc with hc | hc <;> subst hc <;> exact hch _ (by decide +kernel)
  · intro pre ty cs start post h
    obtain ⟨h1, h2⟩ := split_take h
    generalize pre.length = k at h1 h2
    have hk : k = 12 ∨ k = 15 ∨ k = 16 ∨ k = 17 := by
      match k, h1 with
      | 0, h1 | 1, h1 | 2, h1 | 3, h1 | 4, h1 | 5, h1 | 6, h1 | 7, h1 | 8, h1 | 9, h1 | 10, h1 | 11, h1 | 13, h1 | 14, h1
      | 18, h1 => cases h1
      | 12, _ => exact .inl rfl
      | 15, _ => exact .inr (.inl rfl)
      | 16, _ => exact .inr (.inr (.inl rfl))
      | 17, _ => exact .inr (.inr (.inr rfl))
      | k + 19, h1 => cases h1
    have hcount : ∀ k ≤ 5, (storeOf (reopenOps.take k)).count (chan "a").path = (storeOf (reopenOps.take k)).count (chan "b").path := by
      decide +kernel
    have hlevel : ∀ pre op post, reopenOps = pre ++ op :: post →
        (storeOf pre).count (chan "a").path = (storeOf pre).count (chan "b").path := by
      intro pre op post hs
      obtain ⟨_, hp⟩ := split_take hs
      rw [hp]
      refine hcount _ ?_
      have := congrArg List.length hs
      rw [List.length_append, List.length_cons] at this
      have h5 : reopenOps.length = 5 := rfl
      omega
    -- channels that no call writes together
    have hapart : ∀ (c d : ChannelPath × List STy.u16.Val), c.1.path ≠ d.1.path →
        (∀ op ∈ reopenOps, Names c.1.path op → ¬ Names d.1.path op) → Library.Together (ty := .u16) reopenOps [c, d] := by
      intro c d hne hno
      refine ⟨rfl, by simpa using hne, ?_, ?_⟩
      · rintro x hx y hy ⟨op, hop, hn1, hn2⟩
        simp only [List.mem_cons, List.not_mem_nil, or_false] at hx hy
        rcases hx with hx | hx <;> rcases hy with hy | hy <;> subst hx <;> subst hy
        · rfl
        · exact absurd hn2 (hno op hop hn1)
        · exact absurd hn1 (hno op hop hn2)
        · rfl
      · intro x hx y hy pre op post hs hn1 hn2
        have hop : op ∈ reopenOps := by rw [hs]; exact List.mem_append_right _ List.mem_cons_self
        simp only [List.mem_cons, List.not_mem_nil, or_false] at hx hy
        rcases hx with hx | hx <;> rcases hy with hy | hy <;> subst hx <;> subst hy
        · rfl
        · exact absurd hn2 (hno op hop hn1)
        · exact absurd hn1 (hno op hop hn2)
        · rfl
    have hno : ∀ p q, (∀ k ≤ 4, p ∈ namedAt reopenOps k → q ∉ namedAt reopenOps k) →
        ∀ op ∈ reopenOps, Names p op → ¬ Names q op := by
      intro p q h op hop h1 h2
      obtain ⟨k, hk⟩ := List.mem_iff_getElem?.mp hop
      have hk4 : k ≤ 4 := by
        have := (List.getElem?_eq_some_iff.mp hk).1
        have h5 : reopenOps.length = 5 := rfl
        omega
      exact h k hk4 (mem_namedAt hk h1) (mem_namedAt hk h2)
    rcases hk with hk | hk | hk | hk
    · subst hk
      subst h2
      cases h1
      have hpast : calls (exampleProgram.take 12) = reopenOps := rfl
      rw [hpast]
      refine ⟨rfl, by decide +kernel, ?_, ?_⟩
      · intro c hc d hd _
        simp only [List.mem_cons, List.not_mem_nil, or_false] at hc hd
        rcases hc with hc | hc <;> rcases hd with hd | hd <;> subst hc <;> subst hd <;> rfl
      · intro c hc d hd pre op post hs _ _
        simp only [List.mem_cons, List.not_mem_nil, or_false] at hc hd
        rcases hc with hc | hc <;> rcases hd with hd | hd <;> subst hc <;> subst hd
        · rfl
        · exact (hlevel pre op post hs).symm
        · exact hlevel pre op post hs
        · rfl
    · subst hk
      subst h2
      cases h1
      have hpast : calls (exampleProgram.take 15) = reopenOps := rfl
      rw [hpast]
      exact hapart _ _ (by decide +kernel) (hno _ _ (by decide +kernel))
    · subst hk
      subst h2
      cases h1
      have hpast : calls (exampleProgram.take 16) = reopenOps := rfl
      rw [hpast]
      exact hapart _ _ (by decide +kernel) (hno _ _ (by decide +kernel))
    · subst hk
      subst h2
      cases h1
      have hpast : calls (exampleProgram.take 17) = reopenOps := rfl
      rw [hpast]
      exact hapart _ _ (by decide +kernel) (hno _ _ (by decide +kernel))

deriving instance DecidableEq for Reply

/-- What the library replies to the questions of the program: nothing is there at first; the property is there; bytes are read as
    booleans, but not as 16-bit numbers; both channels from their second sample on; the group and its
    channels; no channel together with one of another type, unless nothing of that has to be stored; no channel that is not there;
    nothing at all. -/
theorem exampleProgram_replies :
    ((replies anyAlloc ⟨Index.new, []⟩ exampleProgram)[0]?.map (·.2)) = some (.ok (.length none)) ∧
    ((replies anyAlloc ⟨Index.new, []⟩ exampleProgram)[2]?.map (·.2)) = some (R.err (.badDataBlockLength 3 2)) ∧
    ((replies anyAlloc ⟨Index.new, []⟩ exampleProgram)[6]?.map (·.2)) = some (.ok (.values (some [("n".toList, .i32 5)]))) ∧
    ((replies anyAlloc ⟨Index.new, []⟩ exampleProgram)[8]?.map (·.2)) = some (.ok (.samples .bool [true, false, false])) ∧
    ((replies anyAlloc ⟨Index.new, []⟩ exampleProgram)[9]?.map (·.2)) = some (R.err (.dataTypeMismatch .u8 .u16)) ∧
    ((replies anyAlloc ⟨Index.new, []⟩ exampleProgram)[12]?.map (·.2)) = some (.ok (.samplesMany .u16 [vals16 [4, 14], vals16 [2, 13]])) ∧
    ((replies anyAlloc ⟨Index.new, []⟩ exampleProgram)[13]?.map (·.2)) = some (.ok (.groups ["g".toList])) ∧
    ((replies anyAlloc ⟨Index.new, []⟩ exampleProgram)[14]?.map (·.2)) = some (.ok (.channels [chan "a", chan "b", chan "c"])) ∧
    ((replies anyAlloc ⟨Index.new, []⟩ exampleProgram)[15]?.map (·.2)) = some (R.err (.dataTypeMismatch .u8 .u16)) ∧
    ((replies anyAlloc ⟨Index.new, []⟩ exampleProgram)[16]?.map (·.2)) = some (.ok (.samplesMany .u16 [vals16 [1, 2], []])) ∧
    ((replies anyAlloc ⟨Index.new, []⟩ exampleProgram)[17]?.map (·.2)) = some (R.err (.missingObject (chan "d").path)) ∧
    ((replies anyAlloc ⟨Index.new, []⟩ exampleProgram)[18]?.map (·.2)) = some (.ok (.samples .u16 [])) := by
  refine ⟨?_, ?_, ?_, ?_, ?_, ?_, ?_, ?_, ?_, ?_, ?_, ?_⟩ <;> decide +kernel

/-- Not of all programs: a table of channel `a` alone after one of `a` and `b` is taken for a table of both, so `b` has a sample
    that nothing wrote to it. -/
def strayProgram : List Command :=
  [.call (.write .little .u16 [chan "a", chan "b"] (vals16 [1, 2]) .contigious),
   .call (.write .little .u16 [chan "a"] (vals16 [3, 4]) .contigious),
   .ask (.length (chan "b"))]

/-- **C88, counterexample.** -/
theorem library_is_store_counterexample : ¬ Behaves anyAlloc Store.empty (replies anyAlloc ⟨Index.new, []⟩ strayProgram) := by
  rintro ⟨_, _, h, _⟩
  have hobj : (storeOf (calls strayProgram)).objects (chan "b").path :=
    (store_objects _ _).mpr ⟨_, List.mem_cons_self, show (chan "b").path ∈ [chan "a", chan "b"].map ChannelPath.path by decide +kernel⟩
  have h1 := h.1 hobj
  have h2 : ((replies anyAlloc ⟨Index.new, []⟩ strayProgram)[2]?.map (·.2)) = some (.ok (.length (some 2))) := by decide +kernel
  have h3 : (storeOf (calls strayProgram)).count (chan "b").path = 1 := by decide +kernel
  have h4 := (Option.some.inj h2).symm.trans h1
  have h5 : some 2 = some ((storeOf (calls strayProgram)).count (chan "b").path) := by
    injection h4 with h4
    injection h4
  rw [h3] at h5
  cases h5

end Tedium
