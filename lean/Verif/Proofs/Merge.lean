import Verif.Spec.Merge
import Verif.Proofs.Copy

/-! # Helper lemmas: two files made into one -/

namespace Tedium
open SegSpec WriteSpec PlanSpec

namespace Library

theorem store_ext {s s' : Store} (h1 : ∀ p, s.objects p ↔ s'.objects p) (h2 : ∀ p n, s.value p n = s'.value p n)
    (h3 : ∀ p, s.content p = s'.content p) : s = s' := by
  have h1 := funext fun p => propext (h1 p)
  have h2 := funext fun p => funext fun n => h2 p n
  have h3 := funext fun p => h3 p
  cases s; cases s'
  cases h1; cases h2; cases h3
  rfl

theorem plus_empty (s : Store) : s.plus Store.empty = s :=
  store_ext (fun _ => ⟨fun h => h.elim id False.elim, Or.inl⟩) (fun _ _ => rfl) (fun _ => rfl)

theorem empty_plus (s : Store) : Store.empty.plus s = s := by
  refine store_ext (fun _ => ⟨fun h => h.elim False.elim id, Or.inr⟩) (fun p n => ?_) (fun p => ?_)
  · show (s.value p n).or none = _
    cases s.value p n <;> rfl
  · show (match s.content p with | none => none | some ⟨_, vals⟩ => some (extend vals none)) = _
    cases s.content p <;> rfl

theorem extend_same {ty : STy} (vals old : List ty.Val) : extend vals (some ⟨ty, old⟩) = ⟨ty, old ++ vals⟩ := by
  unfold extend
  dsimp only
  rw [dif_pos rfl]

/-- A call on both. -/
theorem plus_after (s0 s : Store) (op : Op) (hty : ∀ p, Names p op → ∀ c, s.content p = some c → typeOf op = some c.1)
    (hty0 : ∀ p, Names p op → ∀ c, s0.content p = some c → typeOf op = some c.1) :
    (s0.plus s).after op = s0.plus (s.after op) := by
  cases op with
  | props e path ps =>
    refine store_ext (fun p => or_assoc) (fun p n => ?_) (fun p => rfl)
    show (if p = path.path then (lastValue ps n).or ((s.value p n).or (s0.value p n)) else (s.value p n).or (s0.value p n)) =
      (if p = path.path then (lastValue ps n).or (s.value p n) else s.value p n).or (s0.value p n)
    split
    · rw [Option.or_assoc]
    · rfl
  | write e ty chs vals layout =>
    refine store_ext (fun p => or_assoc) (fun p n => rfl) (fun p => ?_)
    show (match (chs.map ChannelPath.path).idxOf? p with
      | none => (match s.content p with | none => s0.content p | some ⟨_, vals⟩ => some (extend vals (s0.content p)))
      | some i => some (extend (column layout chs.length i vals)
          (match s.content p with | none => s0.content p | some ⟨_, vals⟩ => some (extend vals (s0.content p))))) =
      (match (match (chs.map ChannelPath.path).idxOf? p with
        | none => s.content p
        | some i => some (extend (column layout chs.length i vals) (s.content p))) with
      | none => s0.content p | some ⟨_, vals⟩ => some (extend vals (s0.content p)))
    cases hi : (chs.map ChannelPath.path).idxOf? p with
    | none => rfl
    | some i =>
      have hn : Names p (.write e ty chs vals layout) :=
        (names_iff p e ty chs vals layout).mpr (List.isSome_idxOf?.mp (by rw [hi]; rfl))
      dsimp only
      cases hs : s.content p with
      | none => rfl
      | some c =>
        obtain ⟨ty', old⟩ := c
        have h1 : some ty = some ty' := hty p hn _ hs
        cases h1
        cases h0 : s0.content p with
        | none => dsimp only; rw [extend_same]; exact congrArg some (extend_same _ _)
        | some c0 =>
          obtain ⟨ty'', old0⟩ := c0
          have h2 : some ty = some ty'' := hty0 p hn _ h0
          cases h2
          dsimp only
          rw [extend_same, extend_same, extend_same]
          dsimp only
          rw [extend_same, List.append_assoc]

/-- What calls make of a store: what they make of the empty one, after what it holds. -/
theorem foldl_plus (s0 : Store) (ops : List Op) :
    (∀ op ∈ ops, ∀ op' ∈ ops, ∀ p, Names p op → Names p op' → typeOf op = typeOf op') →
    (∀ op ∈ ops, ∀ p, Names p op → ∀ c, s0.content p = some c → typeOf op = some c.1) →
    ops.foldl Store.after s0 = s0.plus (storeOf ops) := by
  refine snoc_induction (P := fun ops => (∀ op ∈ ops, ∀ op' ∈ ops, ∀ p, Names p op → Names p op' → typeOf op = typeOf op') →
    (∀ op ∈ ops, ∀ p, Names p op → ∀ c, s0.content p = some c → typeOf op = some c.1) →
    ops.foldl Store.after s0 = s0.plus (storeOf ops)) (fun _ _ => (plus_empty s0).symm) ?_ ops
  intro ops op ih h1 h2
  have hmem : ∀ o ∈ ops, o ∈ ops ++ [op] := fun o ho => List.mem_append_left _ ho
  have hself : op ∈ ops ++ [op] := List.mem_append_right _ (List.mem_singleton.mpr rfl)
  rw [List.foldl_append, ih (fun o ho o' ho' => h1 o (hmem o ho) o' (hmem o' ho')) (fun o ho => h2 o (hmem o ho)), storeOf_snoc]
  refine plus_after s0 _ op (fun p hn c hc => ?_) (fun p hn c hc => h2 op hself p hn c hc)
  rcases content_type Store.empty ops p c hc with ⟨c0, h, _⟩ | ⟨o, ho, hno, hto⟩
  · cases h
  · rw [← hto]; exact h1 op hself o (hmem o ho) p hn hno

section
variable {s : Store} {ps : Text → List (Text × PropertyValue)} {pops : List Op} {chs : List ChannelPath}

theorem IsCopy.names (h : IsCopy s ps pops chs) {op : Op} (hop : op ∈ pops ++ chs.flatMap (sampleCall s)) {p : Text} (hn : Names p op) :
    ∃ ty vals, s.content p = some ⟨ty, vals⟩ ∧ typeOf op = some ty := by
  rcases h.mem hop with ⟨path, rfl, _⟩ | ⟨c, _, ty', vals', hcon, rfl⟩
  · exact absurd hn id
  · obtain ⟨d', hd', e'⟩ := hn
    rw [List.mem_singleton.mp hd'] at e'
    exact ⟨ty', vals', by rw [← e']; exact hcon, rfl⟩

theorem IsCopy.fileTypes (h : IsCopy s ps pops chs) {s0 : Store} (hag : s0.Agrees s) :
    ∀ op ∈ pops ++ chs.flatMap (sampleCall s), ∀ p, Names p op → ∀ c, s0.content p = some c → typeOf op = some c.1 := by
  intro op hop p hn c hc
  obtain ⟨ty, vals, h1, h2⟩ := h.names hop hn
  rw [h2, hag p c _ hc h1]

theorem IsCopy.plus (h : IsCopy s ps pops chs) (hP : s.Plain) {s0 : Store} (hag : s0.Agrees s) :
    (pops ++ chs.flatMap (sampleCall s)).foldl Store.after s0 = s0.plus s := by
  rw [foldl_plus s0 _ h.types (h.fileTypes hag), h.store hP]

end

/-- A file of the segments `fs`, open, opened again after calls. -/
theorem _root_.Tedium.Library.Existing.reopens {al : Alloc} {fs : List FileSegment} {t : TdmsFile} {ty : Text → STy} {last : Last}
    (he : Existing al fs t ty last) {ops : List Op} (hc : Compatible last ops) (hall : AllSucceed al t ops)
    (hfit : ∀ op ∈ ops, OpFits op) (hdesc : Described al last ops) (hsz : (runOps al t ops).bytes.length < 2 ^ 63) :
    TdmsFile.new al (runOps al t ops).bytes = .ok (runOps al t ops) := by
  have hh := _root_.Tedium.Holds.of_opened al he.generous he.fits he.opened
  have hact : last.channels = t.index.activeObjects.map (·.path) := by
    rw [← he.channels]
    exact (replay_refines hh.index).obj.paths.symm
  obtain ⟨more, hm⟩ := reads_history al ops fs t last hh (.opened he.opened) hact hall
    (fun op hop => by
      cases op with
      | props => trivial
      | write e ty chs vals layout => exact (compatible_table _ _ hc e ty chs vals layout hop).distinct)
    hfit hdesc (by omega)
  exact hm.new al he.generous

theorem store_tidy {ops : List Op} (htidy : ∀ op ∈ ops, Tidy op) (p : Text) (hp : (storeOf ops).objects p) :
    ∃ o : Obj, o.SlashFree ∧ o.toPath.path = p := by
  rcases (after_objects _ _ p).mp hp with hp | ⟨op, hop, hm⟩
  · exact absurd hp id
  · have := htidy op hop
    cases op with
    | props e path ps =>
      obtain ⟨o, h1, h2⟩ := this
      exact ⟨o, h1, by rw [h2]; exact hm.symm⟩
    | write e ty chs vals layout =>
      obtain ⟨c, hcm, hcp⟩ := List.mem_map.mp hm
      obtain ⟨o, h1, h2⟩ := this c hcm
      exact ⟨o, h1, h2.trans hcp⟩

theorem compatible_glue : ∀ (a b : List Op) (last : Last), Compatible last a → Compatible (a.foldl Last.after last) b →
    Compatible last (a ++ b)
  | [], _, _, _, hb => hb
  | op :: a, b, last, ha, hb => ⟨ha.1, compatible_glue a b (last.after op) ha.2 hb⟩

theorem described_glue {al : Alloc} : ∀ (a b : List Op) (last : Last), Described al last a → Described al (a.foldl Last.after last) b →
    Described al last (a ++ b)
  | [], _, _, _, hb => hb
  | .props .. :: a, b, last, ha, hb => described_glue a b last ha hb
  | .write .. :: a, b, _, ha, hb => ⟨ha.1, described_glue a b _ ha.2 hb⟩

theorem succeed_glue {al : Alloc} {t : TdmsFile} {a b : List Op} (ha : AllSucceed al t a) (hb : AllSucceed al (runOps al t a) b) :
    AllSucceed al t (a ++ b) := by
  intro pre op post h
  rcases List.append_eq_append_iff.mp h with ⟨m, h1, h2⟩ | ⟨m, h1, h2⟩
  · rw [h1, runOps_append]
    exact hb m op post h2
  · cases m with
    | nil =>
      have h2 : op :: post = b := h2
      rw [List.append_nil] at h1
      rw [← h1]
      exact hb [] op post h2.symm
    | cons x m =>
      injection h2 with h3 h4
      subst h3
      exact ha pre op m h1

end Library
end Tedium
