import Verif.Proofs.OwnCells
import Verif.Props.Jointly

/-!
# C76, exactly

When a read of several channels stores nothing but samples of the right channels, whatever the samples are.
-/

namespace Tedium
open PlanSpec SegSpec

/-- A read of several channels from sample `start` into buffers of `ns` cells stores own samples only, whatever the samples
    are: for every file with the same metadata and all buffers of these sizes, every cell of a buffer holds after
    the read what it held before, or a sample of the channel of the buffer. -/
def JointlyOwn (al : Alloc) (ty : STy) (t : TdmsFile) (segs : List Segment) (cs : List ChannelPath) (start : Nat)
    (ns : List Nat) : Prop :=
  ∀ f, SameMetaData segs t.bytes f → ∀ outs : List (List ty.Val), outs.map List.length = ns →
    ∃ res, ({ t with bytes := f } : TdmsFile).readChannelsFrom (ty.storage al) cs start outs = .ok res ∧
      res.length = outs.length ∧
      ∀ (s : Nat) (c : ChannelPath) (out out' : List ty.Val), cs[s]? = some c → outs[s]? = some out →
        res[s]? = some out' → out'.length = out.length ∧
        ∀ (k : Nat) (v : ty.Val), out'[k]? = some v →
          out[k]? = some v ∨ v ∈ channelSamples (Format.decode ty) f segs c.path

/-- The samples of a channel lie in raw data inside the file. -/
def SamplesInside (w : Nat) (f : Bytes) (segs : List Segment) (path : Text) : Prop :=
  ∀ d ∈ sampleCells segs path, ∃ pre ∈ dataPrefixes segs, ∃ b ∈ blockOf pre,
    b.start ≤ d.2 ∧ d.2 + w ≤ b.start + b.length ∧ b.start + b.length ≤ f.length

/-- **C76, exactly.** Where the joint read can be served and the samples of the channels lie in the raw data, the read
    stores own samples only, for all contents of the raw data, if and only if every cell of every buffer gets
    nothing or a cell of the file that is the place of a sample of its channel (with the same byte order unless a
    value is one byte). -/
theorem joint_own_iff (al : Alloc) (ty : STy) (hty : Format.fixedTy ty = true) {segs : List Segment}
    {t : TdmsFile} (h : replay Index.new segs = .ok t.index) (hf : t.bytes.length < 2 ^ 63) (cs : List ChannelPath)
    (hl : ∀ c ∈ cs, Listed (entries segs) c.path) (start : Nat) (ns : List Nat) (hlen : ns.length = cs.length)
    (htypes : ∀ c ∈ cs, ∀ pre ∈ dataPrefixes segs, c.path ∈ active pre → ∀ m, layoutOf (entries pre) c.path = some m →
      m.dataType ∈ (ty.storage al).supported)
    (hinside : ∀ c ∈ cs, SamplesInside (ty.storage al).memSize t.bytes segs c.path)
    (hserved : JointlyServed (ty.storage al).supported (ty.storage al).memSize t.bytes segs
      ((cs.map ChannelPath.path).zip ns) start) :
    JointlyOwn al ty t segs cs start ns ↔
      ∀ (s : Nat) (c : ChannelPath) (as : List (Nat × Cell)), cs[s]? = some c →
        (storedFrom (ty.storage al).memSize segs ((cs.map ChannelPath.path).zip ns) start)[s]? = some as →
        ∀ (k : Nat) (p : Cell), lastAt as k = some p →
          ∃ d ∈ sampleCells segs c.path, Cell.Same (ty.storage al).memSize p d := by
  have hread : ∀ f, SameMetaData segs t.bytes f → ∀ outs : List (List ty.Val), outs.map List.length = ns →
      ({ t with bytes := f } : TdmsFile).readChannelsFrom (ty.storage al) cs start outs = .ok (List.zipWith
        (storeAll (Cell.value (Format.decode ty) (ty.storage al).memSize f)) outs
        (storedFrom (ty.storage al).memSize segs ((cs.map ChannelPath.path).zip ns) start)) := by
    intro f hsame outs hout
    have := joint_read_exact al ty hty (t := { t with bytes := f }) h (by rw [← hsame.1]; exact hf) cs hl start outs
      (by rw [← hlen, ← hout, List.length_map]) (by rw [hout]; exact jointlyServed_congr hserved hsame.1)
    rw [hout] at this
    exact this
  have hstlen : (storedFrom (ty.storage al).memSize segs ((cs.map ChannelPath.path).zip ns) start).length = cs.length := by
    unfold storedFrom
    rw [stored_length, List.length_zip, List.length_map]
    omega
  constructor
  · intro hown s c as hs has k p hd
    refine Classical.byContradiction fun hno => ?_
    have hcm := List.mem_of_getElem? hs
    obtain ⟨x, pre, b, ts, u, r, ho⟩ := stored_origin _ _ _ _ _ has (lastAt_mem hd)
    have hsv := hserved _ ho.read
    have hcont : (ts.map (·.chan)).contains u.chan = true :=
      List.contains_iff_mem.mpr (List.mem_map_of_mem ho.taker)
    obtain ⟨hs1, hs2⟩ := DataBlock.offered_inside hcont ho.offered
    have hs3 := hsv.inside
    dsimp only at hs3
    have hp : p.2 = r := by have := congrArg Prod.snd ho.cell; exact this
    have hk : k < ns.getD s 0 ∧ ns[s]? = some (ns.getD s 0) := by
      have h1 := ho.buffer
      rw [List.getElem?_zip_eq_some] at h1
      have h2 := ho.room
      rw [List.getD_eq_getElem?_getD, h1.2]
      exact ⟨h2, rfl⟩
    generalize ns.getD s 0 = n at hk
    have hsame : SameMetaData segs t.bytes (marked segs t.bytes p.2 (ty.storage al).memSize) :=
      marked_same fun y h1 h2 => ⟨pre, ho.pre_mem, b, ho.block, by omega, by omega⟩
    obtain ⟨v, hv⟩ := exists_other ty hty (Cell.value (Format.decode ty) (ty.storage al).memSize
      (marked segs t.bytes p.2 (ty.storage al).memSize) p)
    have hns : (ns.map fun n => List.replicate n v).map List.length = ns := by
      rw [List.map_map]
      conv => rhs; rw [← List.map_id ns]
      apply List.map_congr_left
      intro x _
      exact List.length_replicate
    obtain ⟨res, h1, h2, h3⟩ := hown _ hsame _ hns
    rw [hread _ hsame _ hns] at h1
    cases h1
    have hout : (ns.map fun n => List.replicate n v)[s]? = some (List.replicate n v) := by
      rw [List.getElem?_map, hk.2]; rfl
    have h4 := (h3 s c _ _ hs hout (by rw [List.getElem?_zipWith, hout, has])).2 k
      (Cell.value (Format.decode ty) (ty.storage al).memSize (marked segs t.bytes p.2 (ty.storage al).memSize) p) (by
        rw [storeAll_getElem? _ _ _ _ (by rw [List.length_replicate]; exact hk.1), hd]
        rfl)
    rcases h4 with h4 | h4
    · rw [List.getElem?_replicate, if_pos hk.1] at h4
      exact hv (Option.some.inj h4)
    · rw [channelSamples_cells al ty hty (htypes c hcm)] at h4
      obtain ⟨d, hdm, hval⟩ := List.mem_map.mp h4
      obtain ⟨pre', hpre', b', hb', hb1, hb2, hb3⟩ := hinside c hcm d hdm
      exact marked_differ hty al (by omega) (by omega) (fun y h1 h2 => ⟨pre', hpre', b', hb', by omega, by omega⟩)
        (fun hss => hno ⟨d, hdm, hss⟩) hval
  · intro hcells f hsame outs hout
    have holen : outs.length = cs.length := by rw [← hlen, ← hout, List.length_map]
    refine ⟨_, hread f hsame outs hout, by rw [List.length_zipWith]; omega, ?_⟩
    intro s c out out' hs ho hres
    rw [List.getElem?_zipWith, ho] at hres
    cases has : (storedFrom (ty.storage al).memSize segs ((cs.map ChannelPath.path).zip ns) start)[s]? with
    | none => rw [has] at hres; cases hres
    | some as =>
      rw [has] at hres
      cases hres
      refine ⟨length_storeAll _ _ _, ?_⟩
      intro k v hk
      have hkl : k < out.length := by
        have := (List.getElem?_eq_some_iff.mp hk).1
        rw [length_storeAll] at this
        exact this
      rw [storeAll_getElem? _ _ _ _ hkl] at hk
      cases hd : lastAt as k with
      | none => rw [hd] at hk; exact Or.inl hk
      | some p =>
        rw [hd] at hk
        cases hk
        right
        obtain ⟨d, hdm, hss⟩ := hcells s c as hs has k p hd
        rw [channelSamples_cells al ty hty (htypes c (List.mem_of_getElem? hs)), hss.value hty al f]
        exact List.mem_map_of_mem hdm

/-! ## Examples -/

/-- Interleaved data that ends in the middle of a chunk: both channels have two samples, but there are three rows. -/
def brokenChunkFile : List FileSegment :=
  [dataSegment .little true [("a", .u8, 2), ("b", .u8, 2)] [1, 11, 2, 12, 3, 13]]

/-- The hypotheses hold for it. Read into two cells each, `a` and `b` get own samples only; read into three cells each,
    they do not: the third row is stored as well. -/
theorem joint_own_iff_example : ∃ t, TdmsFile.new anyAlloc (fileOf brokenChunkFile) = .ok t ∧
    replay Index.new (brokenChunkFile.map FileSegment.segment) = .ok t.index ∧
    (∀ c ∈ [chan "a", chan "b"], SamplesInside 1 t.bytes (brokenChunkFile.map FileSegment.segment) c.path) ∧
    JointlyOwn anyAlloc .u8 t (brokenChunkFile.map FileSegment.segment) [chan "a", chan "b"] 0 [2, 2] ∧
    ¬ JointlyOwn anyAlloc .u8 t (brokenChunkFile.map FileSegment.segment) [chan "a", chan "b"] 0 [3, 3] := by
  obtain ⟨ix, hix⟩ := exists_ok (x := replay Index.new (brokenChunkFile.map FileSegment.segment)) (by decide +kernel)
  have hopen : buildIndex anyAlloc (fileOf brokenChunkFile) = replay Index.new (brokenChunkFile.map FileSegment.segment) := by
    decide +kernel
  have hnew : TdmsFile.new anyAlloc (fileOf brokenChunkFile) = .ok ⟨ix, fileOf brokenChunkFile⟩ := by
    unfold TdmsFile.new; rw [hopen, hix]; rfl
  have htypes : ∀ c ∈ [chan "a", chan "b"], ∀ pre ∈ dataPrefixes (brokenChunkFile.map FileSegment.segment),
      c.path ∈ active pre → ∀ m ∈ layoutOf (entries pre) c.path,
      m.dataType ∈ (STy.u8.storage anyAlloc).supported := by decide +kernel
  have hins : ∀ c ∈ [chan "a", chan "b"],
      SamplesInside 1 (fileOf brokenChunkFile) (brokenChunkFile.map FileSegment.segment) c.path := by
    unfold SamplesInside
    decide +kernel
  have hserved : ∀ n ∈ [2, 3], JointlyServed (STy.u8.storage anyAlloc).supported 1 (fileOf brokenChunkFile)
      (brokenChunkFile.map FileSegment.segment) [((chan "a").path, n), ((chan "b").path, n)] 0 := by
    intro n hn
    simp only [List.mem_cons, List.not_mem_nil, or_false] at hn
    rcases hn with rfl | rfl <;> exact jointlyServed_of (by decide +kernel)
  have hiff := fun n hn => joint_own_iff anyAlloc .u8 rfl (t := ⟨ix, fileOf brokenChunkFile⟩) hix
    (by show (fileOf brokenChunkFile).length < _; decide +kernel) [chan "a", chan "b"] (by unfold Listed; decide +kernel) 0
    [n, n] rfl htypes hins (hserved n hn)
  refine ⟨_, hnew, hix, hins, (hiff 2 (by simp)).mpr ?_, fun hx => ?_⟩
  · intro s c as hs has k p hd
    have hc : ∀ x ∈ [chan "a", chan "b"].zip (storedFrom (STy.u8.storage anyAlloc).memSize
        (brokenChunkFile.map FileSegment.segment) [((chan "a").path, 2), ((chan "b").path, 2)] 0),
        ∀ a ∈ x.2, a.2 ∈ sampleCells (brokenChunkFile.map FileSegment.segment) x.1.path := by decide +kernel
    have hz := hc (c, as) (List.mem_of_getElem? (List.getElem?_zip_eq_some.mpr ⟨hs, has⟩)) _ (lastAt_mem hd)
    exact ⟨p, hz, rfl, Or.inl rfl⟩
  · have hc : ∃ as, (storedFrom (STy.u8.storage anyAlloc).memSize (brokenChunkFile.map FileSegment.segment)
        [((chan "a").path, 3), ((chan "b").path, 3)] 0)[0]? = some as ∧ ∃ p, lastAt as 2 = some p ∧
        ∀ d ∈ sampleCells (brokenChunkFile.map FileSegment.segment) (chan "a").path, p.2 ≠ d.2 := by
      refine ⟨_, rfl, _, rfl, ?_⟩
      decide +kernel
    obtain ⟨as, has, p, hp, hne⟩ := hc
    obtain ⟨d, hd, hss⟩ := (hiff 3 (by simp)).mp hx 0 (chan "a") as rfl has 2 p hp
    exact hne d hd hss.1

end Tedium
