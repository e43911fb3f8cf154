import Verif.Props.Rearrange

/-!
# When the cutting and ordering of calls does not matter, exactly

The guard of C68 cannot be weakened: a history that is not compatible differs, for some values and at some point,
from every compatible one that makes the same calls cut and ordered differently.
-/

namespace Tedium

open WriteSpec PlanSpec SegSpec

/-- A compatible history of a file that stays below 2^63 bytes is read back. -/
theorem compatible_readsBack (al : Alloc) {t : TdmsFile} (ht : TdmsFile.create al = .ok t) {ops : List Op}
    (hc : Compatible Last.none ops) (hsz : (runOps al t ops).bytes.length < 2 ^ 63) : ReadsBack al t ops := by
  obtain ⟨h1, h2⟩ := write_then_read_partial al ht ops hc hsz
  refine ⟨h1, fun ty c htype hn => ?_⟩
  have hord : Format.ordinaryTy ty = true := by
    obtain ⟨op, hop, hnm⟩ := hn
    have hty := htype op hop hnm
    cases op with
    | props => cases hnm
    | write e ty' chs vals layout =>
      injection hty with hty
      subst hty
      exact (compatible_table _ _ hc _ _ _ _ _ hop).ordinary
  obtain ⟨h3, h4⟩ := h2 ty c hord htype hn
  refine ⟨h3, fun out ho => ?_⟩
  rw [h4 0 out, List.drop_zero, overlay_self ho]

/-- **C68, one pair of histories, exactly.** Let one history be compatible and the other the same calls cut and
    ordered differently. The two give the same contents if and only if everything the other one writes is read
    back. -/
theorem rearranged_contents_iff (al : Alloc) {t : TdmsFile} (ht : TdmsFile.create al = .ok t) {ops ops' : List Op}
    (h : Rearranged ops ops') (hc : Compatible Last.none ops) (hsz : (runOps al t ops).bytes.length < 2 ^ 63) :
    SameContents al t ops' ops ↔ ReadsBack al t ops' := by
  have hback := compatible_readsBack al ht hc hsz
  have hr : ∀ (ty : STy) (c : ChannelPath), (∀ op ∈ ops', Names c.path op → typeOf op = some ty) →
      (∃ op ∈ ops', Names c.path op) →
      (runOps al t ops).channelLength c = .ok (some (written ty c.path ops').length) ∧
      ∀ out : List ty.Val, out.length = (written ty c.path ops').length →
        (runOps al t ops).readChannelFrom (ty.storage al) c 0 out = .ok (written ty c.path ops') := by
    intro ty c htype ⟨op, hop, hn⟩
    have h2 := hback.2 ty c (fun x hx hnx => by
      obtain ⟨y, hy, hny, hty⟩ := (rearranged_types h c.path (typeOf x)).mp ⟨x, hx, hnx, rfl⟩
      rw [← hty]
      exact htype y hy hny) (by
      obtain ⟨y, hy, hny, _⟩ := (rearranged_types h c.path (typeOf op)).mpr ⟨op, hop, hn, rfl⟩
      exact ⟨y, hy, hny⟩)
    rw [rearranged_written h] at h2
    exact h2
  constructor
  · rintro ⟨h1, _, h3⟩
    refine ⟨h1, fun ty c htype hn => ?_⟩
    obtain ⟨h4, h5⟩ := h3 ty c htype hn
    obtain ⟨h6, h7⟩ := hr ty c htype hn
    exact ⟨h4.trans h6, fun out ho => (h5 out ho).trans (h7 out ho)⟩
  · rintro ⟨h1, h3⟩
    refine ⟨h1, hback.1, fun ty c htype hn => ?_⟩
    obtain ⟨h4, h5⟩ := h3 ty c htype hn
    obtain ⟨h6, h7⟩ := hr ty c htype hn
    exact ⟨h4.trans h6.symm, fun out ho => (h5 out ho).trans (h7 out ho).symm⟩

/-- **C68, exactly.** For a history of tables on a new file: whatever values the tables hold, at every point of
    the history the contents are those of some compatible history that makes the same calls cut and ordered
    differently, if and only if the history is compatible itself. -/
theorem rearranged_iff (al : Alloc) {t : TdmsFile} (ht : TdmsFile.create al = .ok t) (ops : List Op)
    (htabs : Tables ops) (hsz : (runOps al t ops).bytes.length < 2 ^ 63) :
    (∀ ops', SameShape ops ops' → ∀ n, ∃ other, Rearranged other (ops'.take n) ∧ Compatible Last.none other ∧
      (runOps al t other).bytes.length < 2 ^ 63 ∧ SameContents al t (ops'.take n) other) ↔
      Compatible Last.none ops := by
  constructor
  · intro h
    rw [← reads_back_iff al ht ops htabs hsz]
    intro ops' hs n
    obtain ⟨other, h1, h2, h3, h4⟩ := h ops' hs n
    exact (rearranged_contents_iff al ht h1 h2 h3).mp h4
  · intro hc ops' hs n
    have hc' := compatible_take ops' Last.none n (compatible_shape hs _ hc)
    have hb : (runOps al t (ops'.take n)).bytes.length < 2 ^ 63 := by
      have h1 := runOps_take_bytes al t ops' n
      have h2 := (runOps_shape al hs htabs.sized t t rfl rfl).2
      omega
    exact ⟨_, .refl _, hc', hb, (rearranged_contents_iff al ht (.refl _) hc' hb).mpr
      (compatible_readsBack al ht hc' hb)⟩

/-- A compatible history, the same values in two calls, and what `rearranged_contents_iff` says of them: the
    contents differ. The cut history meets the hypotheses of `rearranged_iff`, too. -/
theorem rearranged_iff_misfit :
    let whole := [writeU16 ["a"] [1, 2, 3, 4, 5, 6, 7, 8]]
    let cut := [writeU16 ["a"] [1, 2, 3], writeU16 ["a"] [4, 5, 6, 7, 8]]
    Rearranged whole cut ∧ Compatible Last.none whole ∧ (session whole).bytes.length < 2 ^ 63 ∧
    Tables cut ∧ (session cut).bytes.length < 2 ^ 63 ∧ ¬ Compatible Last.none cut ∧
    (session whole).u16s "a" 8 = .ok (vals16 [1, 2, 3, 4, 5, 6, 7, 8]) ∧
    (session cut).u16s "a" 8 ≠ .ok (vals16 [1, 2, 3, 4, 5, 6, 7, 8]) := by
  obtain ⟨h1, h2, h3⟩ := reads_back_iff_misfit
  refine ⟨Rearranged.cutChannel .little .little .little .u16 (chan "a") (vals16 [1, 2, 3]) (vals16 [4, 5, 6, 7, 8])
    .contigious .contigious .contigious, ⟨⟨⟨rfl, ?_, ?_, ?_, ?_⟩, ?_⟩, trivial⟩, by decide +kernel, h1, h2, h3, by decide +kernel,
    by decide +kernel⟩
  all_goals first
    | decide +kernel
    | exact Or.inl (by decide +kernel)

end Tedium
