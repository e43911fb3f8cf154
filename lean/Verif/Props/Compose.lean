import Verif.Props.JointlyAgree

/-!
# C41, exactly: when two reads give what one read gives
-/

namespace Tedium
open PlanSpec SegSpec

/-- Two places, each a cell of the file or nothing, hold the same for all contents of the raw data if and only if they are
    the same cell. -/
theorem cells_agree_iff (al : Alloc) (ty : STy) (hty : Format.fixedTy ty = true) {segs : List Segment} {f : Bytes}
    {p q : Option Cell}
    (hp : ∀ x, p = some x → ∃ pre ∈ dataPrefixes segs, ∃ b ∈ blockOf pre, b.start ≤ x.2 ∧
      x.2 + (ty.storage al).memSize ≤ b.start + b.length ∧ b.start + b.length ≤ f.length) :
    (∀ g, SameMetaData segs f g → ∀ v : ty.Val,
      (p.map (Cell.value (Format.decode ty) (ty.storage al).memSize g)).or (some v) =
      (q.map (Cell.value (Format.decode ty) (ty.storage al).memSize g)).or (some v)) ↔
    Option.Rel (Cell.Same (ty.storage al).memSize) p q := by
  have hself : SameMetaData segs f f := ⟨rfl, fun _ _ => rfl⟩
  constructor
  · intro hcell
    cases p with
    | none =>
      cases q with
      | none => exact .none
      | some q =>
        exfalso
        obtain ⟨v, hv⟩ := exists_other ty hty (Cell.value (Format.decode ty) (ty.storage al).memSize f q)
        exact hv (Option.some.inj (hcell f hself v))
    | some p =>
      cases q with
      | none =>
        exfalso
        obtain ⟨v, hv⟩ := exists_other ty hty (Cell.value (Format.decode ty) (ty.storage al).memSize f p)
        exact hv (Option.some.inj (hcell f hself v)).symm
      | some q =>
        refine .some (Classical.byContradiction fun hns => ?_)
        obtain ⟨pre, hpre, b, hb, hs1, hs2, hs3⟩ := hp p rfl
        obtain ⟨bs, hbs, hne⟩ := Cell.differ hty al hns (f := f) (by omega)
        have hsame : SameMetaData segs f (splice f p.2 bs) := by
          refine ⟨(splice_length (by omega)).symm, fun y hy => ?_⟩
          rw [splice_getElem? (by omega), if_neg]
          intro hy'
          exact hy pre hpre b hb (by omega)
        exact hne (Option.some.inj (hcell _ hsame (Cell.value (Format.decode ty) (ty.storage al).memSize f p)))
  · intro hrel g _ v
    cases hrel with
    | none => rfl
    | some hs => rw [Option.map_some, Option.map_some, hs.value hty al g]

/-- Reading `n` values from sample `start` and then `m` values from sample `start + n` gives what reading all of them at once
    gives, whatever the samples are: for every file with the same metadata and all buffers of these sizes. -/
def Composes (al : Alloc) (ty : STy) (t : TdmsFile) (segs : List Segment) (c : ChannelPath) (start n m : Nat) : Prop :=
  ∀ f, SameMetaData segs t.bytes f → ∀ o1 o2 : List ty.Val, o1.length = n → o2.length = m →
    ∃ r1 r2, ({ t with bytes := f } : TdmsFile).readChannelFrom (ty.storage al) c start o1 = .ok r1 ∧
      ({ t with bytes := f } : TdmsFile).readChannelFrom (ty.storage al) c (start + n) o2 = .ok r2 ∧
      ({ t with bytes := f } : TdmsFile).readChannelFrom (ty.storage al) c start (o1 ++ o2) = .ok (r1 ++ r2)

theorem servedIn_fewer {supported : List DataType} {w : Nat} {f : Bytes} {segs : List Segment} {path : Text}
    {start n m : Nat} (h : ServedIn supported w f segs path start m) (hnm : n ≤ m) :
    ServedIn supported w f segs path start n :=
  fun pre hpre hact hpos hst hlen => h pre hpre hact hpos hst (by omega)

theorem overlay_two {α : Type} (o1 o2 xs : List α) :
    overlay (o1 ++ o2) xs = overlay o1 xs ++ overlay o2 (xs.drop o1.length) := by
  apply List.ext_getElem?
  intro i
  by_cases h1 : i < o1.length
  · have h2 : (overlay o1 xs ++ overlay o2 (xs.drop o1.length))[i]? = (overlay o1 xs)[i]? :=
      List.getElem?_append_left (by rw [length_overlay]; exact h1)
    rw [h2, overlay_getElem? _ _ _ (by rw [List.length_append]; omega), overlay_getElem? _ _ _ h1,
      List.getElem?_append_left h1]
  · rw [List.getElem?_append_right (by rw [length_overlay]; omega), length_overlay]
    by_cases h2 : i < o1.length + o2.length
    · rw [overlay_getElem? _ _ _ (by rw [List.length_append]; omega), overlay_getElem? _ _ _ (by omega),
        List.getElem?_append_right (by omega), List.getElem?_drop, show o1.length + (i - o1.length) = i by omega]
    · rw [List.getElem?_eq_none (by rw [length_overlay, List.length_append]; omega),
        List.getElem?_eq_none (by rw [length_overlay]; omega)]

/-- **C41, exactly.** Where the reads can be served, two reads in a row give what one read gives, for all contents of the raw data,
    if and only if the second read visits the cells that the long read visits after the first `n` ones, as far as they fit
    into the buffer (with the same byte order unless a value is one byte). -/
theorem reads_compose_iff (al : Alloc) (ty : STy) (hty : Format.fixedTy ty = true) {segs : List Segment}
    {t : TdmsFile} (h : replay Index.new segs = .ok t.index) (hf : t.bytes.length < 2 ^ 63) (c : ChannelPath)
    (hl : Listed (entries segs) c.path) (start n m : Nat)
    (h1 : ServedIn (ty.storage al).supported (ty.storage al).memSize t.bytes segs c.path start (n + m))
    (h2 : ServedIn (ty.storage al).supported (ty.storage al).memSize t.bytes segs c.path (start + n) m) :
    Composes al ty t segs c start n m ↔
      ∀ k < m, Option.Rel (Cell.Same (ty.storage al).memSize)
        (delivered (ty.storage al).memSize segs c.path start)[n + k]?
        (delivered (ty.storage al).memSize segs c.path (start + n))[k]? := by
  have hread : ∀ f, SameMetaData segs t.bytes f → ∀ (start n : Nat),
      ServedIn (ty.storage al).supported (ty.storage al).memSize t.bytes segs c.path start n →
      ∀ out : List ty.Val, out.length = n →
      ({ t with bytes := f } : TdmsFile).readChannelFrom (ty.storage al) c start out = .ok (overlay out
        ((delivered (ty.storage al).memSize segs c.path start).map
          (Cell.value (Format.decode ty) (ty.storage al).memSize f))) := by
    intro f hsame start n hserved out hout
    exact read_layout_exact al ty hty (t := { t with bytes := f }) h (by rw [← hsame.1]; exact hf) c hl start out
      (by rw [hout]; exact servedIn_congr hserved hsame.1)
  -- what composition means for the buffer of the second read
  have hkey : Composes al ty t segs c start n m ↔ ∀ f, SameMetaData segs t.bytes f → ∀ o2 : List ty.Val, o2.length = m →
      overlay o2 (((delivered (ty.storage al).memSize segs c.path start).map
          (Cell.value (Format.decode ty) (ty.storage al).memSize f)).drop n) =
        overlay o2 ((delivered (ty.storage al).memSize segs c.path (start + n)).map
          (Cell.value (Format.decode ty) (ty.storage al).memSize f)) := by
    constructor
    · intro hc f hsame o2 ho2
      have hlen : (List.replicate n (Format.decode ty .little [])).length = n := List.length_replicate
      obtain ⟨r1, r2, e1, e2, e3⟩ := hc f hsame _ o2 hlen ho2
      rw [hread f hsame start n (servedIn_fewer h1 (by omega)) _ hlen] at e1
      rw [hread f hsame (start + n) m h2 _ ho2] at e2
      rw [hread f hsame start (n + m) h1 _ (by rw [List.length_append, hlen, ho2]), overlay_two, hlen] at e3
      rw [← Except.ok.inj e1, ← Except.ok.inj e2] at e3
      exact List.append_cancel_left (Except.ok.inj e3)
    · intro hc f hsame o1 o2 ho1 ho2
      refine ⟨_, _, hread f hsame start n (servedIn_fewer h1 (by omega)) _ ho1, hread f hsame (start + n) m h2 _ ho2, ?_⟩
      rw [hread f hsame start (n + m) h1 _ (by rw [List.length_append, ho1, ho2]), overlay_two, ho1, hc f hsame o2 ho2]
  rw [hkey]
  have hin : ∀ k < m, ∀ x, (delivered (ty.storage al).memSize segs c.path start)[n + k]? = some x →
      ∃ pre ∈ dataPrefixes segs, ∃ b ∈ blockOf pre, b.start ≤ x.2 ∧
        x.2 + (ty.storage al).memSize ≤ b.start + b.length ∧ b.start + b.length ≤ t.bytes.length := by
    intro k hk x hx
    obtain ⟨pre, hpre, b, hb, hs⟩ := delivered_inside h h1 (by omega) hx
    exact ⟨pre, hpre, b, hb, hs⟩
  constructor
  · intro hall k hk
    rw [← cells_agree_iff al ty hty (hin k hk)]
    intro g hsame v
    have hlen : (List.replicate m v).length = m := List.length_replicate
    have := congrArg (fun l : List ty.Val => l[k]?) (hall g hsame _ hlen)
    rw [overlay_getElem? _ _ _ (by omega), overlay_getElem? _ _ _ (by omega), List.getElem?_drop, List.getElem?_map,
      List.getElem?_map, List.getElem?_replicate, if_pos hk] at this
    exact this
  · intro hall f hsame o2 ho2
    apply List.ext_getElem?
    intro k
    by_cases hk : k < m
    · have hrel := (cells_agree_iff al ty hty (hin k hk)).mpr (hall k hk) f hsame (o2[k]'(by omega))
      rw [overlay_getElem? _ _ _ (by omega), overlay_getElem? _ _ _ (by omega), List.getElem?_drop, List.getElem?_map,
        List.getElem?_map, List.getElem?_eq_getElem (by omega : k < o2.length)]
      exact hrel
    · rw [List.getElem?_eq_none (by rw [length_overlay]; omega), List.getElem?_eq_none (by rw [length_overlay]; omega)]

/-- The hypotheses hold for a segment in which `a` has two and `b` three values per chunk. A read of one value of `b` and a read of
    the next five give what one read gives; reads of two and of four values do not. -/
theorem reads_compose_iff_example : ∃ t, TdmsFile.new anyAlloc (fileOf unevenFile) = .ok t ∧
    replay Index.new (unevenFile.map FileSegment.segment) = .ok t.index ∧
    Composes anyAlloc .u16 t (unevenFile.map FileSegment.segment) (chan "b") 0 1 5 ∧
    ¬ Composes anyAlloc .u16 t (unevenFile.map FileSegment.segment) (chan "b") 0 2 4 := by
  obtain ⟨ix, hix⟩ := exists_ok (x := replay Index.new (unevenFile.map FileSegment.segment)) (by decide +kernel)
  have hopen : buildIndex anyAlloc (fileOf unevenFile) = replay Index.new (unevenFile.map FileSegment.segment) := by
    decide +kernel
  have hnew : TdmsFile.new anyAlloc (fileOf unevenFile) = .ok ⟨ix, fileOf unevenFile⟩ := by
    unfold TdmsFile.new; rw [hopen, hix]; rfl
  have hf : (fileOf unevenFile).length < 2 ^ 63 := by decide +kernel
  have hl : Listed (entries (unevenFile.map FileSegment.segment)) (chan "b").path := by unfold Listed; decide +kernel
  have hsv : ∀ start ∈ [0, 1, 2], ∀ pre ∈ dataPrefixes (unevenFile.map FileSegment.segment),
      (chan "b").path ∈ active pre →
      (∃ m ∈ layoutOf (entries pre) (chan "b").path, m.dataType ∈ (STy.u16.storage anyAlloc).supported) ∧
      (∃ b ∈ blockOf pre, b.start + b.length ≤ (fileOf unevenFile).length) ∧
      (∃ m0 ∈ (activeLayouts pre).head?, 0 < m0.numberOfValues) ∧
      ∀ i ∈ (active pre).idxOf? (chan "b").path, (stepChunks (activeLayouts pre) i 2).sum < 2 ^ 64 ∧
        start * (stepWidths (activeLayouts pre) i 2).sum < 2 ^ 63 := by decide +kernel
  have hone : ∀ start ∈ [0, 1, 2], ∀ n, ServedIn (STy.u16.storage anyAlloc).supported
      (STy.u16.storage anyAlloc).memSize (fileOf unevenFile) (unevenFile.map FileSegment.segment) (chan "b").path start n :=
    fun start hs n => servedIn_of_active (hsv start hs) n
  refine ⟨_, hnew, hix, ?_, ?_⟩
  · refine (reads_compose_iff anyAlloc .u16 rfl (t := ⟨ix, fileOf unevenFile⟩) hix hf (chan "b") hl 0 1 5
      (hone 0 (by decide) _) (hone 1 (by decide) _)).mpr ?_
    have hsame : ∀ k < 5, (delivered 2 (unevenFile.map FileSegment.segment) (chan "b").path 0)[1 + k]? =
        (delivered 2 (unevenFile.map FileSegment.segment) (chan "b").path 1)[k]? := by decide +kernel
    intro k hk
    have := hsame k hk
    rw [show (STy.u16.storage anyAlloc).memSize = 2 from rfl, this]
    show Option.Rel _ _ (delivered 2 (unevenFile.map FileSegment.segment) (chan "b").path 1)[k]?
    cases (delivered 2 (unevenFile.map FileSegment.segment) (chan "b").path 1)[k]? with
    | none => exact .none
    | some q => exact .some ⟨rfl, Or.inl rfl⟩
  · intro hr
    have hx := (reads_compose_iff anyAlloc .u16 rfl (t := ⟨ix, fileOf unevenFile⟩) hix hf (chan "b") hl 0 2 4
      (hone 0 (by decide) _) (hone 2 (by decide) _)).mp hr 0 (by omega)
    have h1 : ∃ a b, (delivered (STy.u16.storage anyAlloc).memSize (unevenFile.map FileSegment.segment) (chan "b").path 0)[2 + 0]? =
        some (.little, a) ∧ (delivered (STy.u16.storage anyAlloc).memSize (unevenFile.map FileSegment.segment) (chan "b").path
          (0 + 2))[0]? = some (.little, b) ∧ a + 4 = b := ⟨110, 114, by decide +kernel, by decide +kernel, by decide +kernel⟩
    obtain ⟨a, b, ha, hb, hab⟩ := h1
    rw [ha, hb] at hx
    cases hx with
    | some hx => exact absurd (show a = b from hx.1) (by omega)

end Tedium
