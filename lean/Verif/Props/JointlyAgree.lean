import Verif.Props.Jointly
import Verif.Proofs.JointlyGrows

/-!
# C37 and C58, exactly

When reading several channels at once gives what reading them one by one gives, whatever the samples are; and
what becomes of a read of several channels when the file grows.
-/

namespace Tedium
open PlanSpec SegSpec

/-- Reading several channels from sample `start` into buffers of `ns` cells agrees with reading each of them alone,
    whatever the samples are: for every file with the same metadata and all buffers of these sizes, the joint read
    gives every buffer what the read of its channel alone gives. -/
def JointlyAgrees (al : Alloc) (ty : STy) (t : TdmsFile) (segs : List Segment) (cs : List ChannelPath) (start : Nat)
    (ns : List Nat) : Prop :=
  ∀ f, SameMetaData segs t.bytes f → ∀ outs : List (List ty.Val), outs.map List.length = ns →
    ∃ res, ({ t with bytes := f } : TdmsFile).readChannelsFrom (ty.storage al) cs start outs = .ok res ∧
      res.length = outs.length ∧
      ∀ (s : Nat) (c : ChannelPath) (out : List ty.Val), cs[s]? = some c → outs[s]? = some out →
        ∃ o, res[s]? = some o ∧ ({ t with bytes := f } : TdmsFile).readChannelFrom (ty.storage al) c start out = .ok o

theorem servedIn_congr {supported : List DataType} {w : Nat} {f g : Bytes} {segs : List Segment} {path : Text}
    {start n : Nat} (h : ServedIn supported w f segs path start n) (hfg : f.length = g.length) :
    ServedIn supported w g segs path start n := by
  intro pre hpre hact hpos hst hlen
  have := h pre hpre hact hpos hst hlen
  exact { this with inside := by rw [← hfg]; exact this.inside }

/-- **C37, exactly.** Where the joint read and the reads of the single channels can be served, they agree for all contents of the
    raw data if and only if every cell of every buffer gets the same cell of the file in both (with the same byte order
    unless a value is one byte), or nothing in both. -/
theorem read_channels_agree_iff (al : Alloc) (ty : STy) (hty : Format.fixedTy ty = true) {segs : List Segment}
    {t : TdmsFile} (h : replay Index.new segs = .ok t.index) (hf : t.bytes.length < 2 ^ 63) (cs : List ChannelPath)
    (hl : ∀ c ∈ cs, Listed (entries segs) c.path) (start : Nat) (ns : List Nat) (hlen : ns.length = cs.length)
    (hserved : JointlyServed (ty.storage al).supported (ty.storage al).memSize t.bytes segs
      ((cs.map ChannelPath.path).zip ns) start)
    (hsingle : ∀ (s : Nat) (c : ChannelPath) (n : Nat), cs[s]? = some c → ns[s]? = some n →
      ServedIn (ty.storage al).supported (ty.storage al).memSize t.bytes segs c.path start n) :
    JointlyAgrees al ty t segs cs start ns ↔
      ∀ (s : Nat) (c : ChannelPath) (n : Nat) (as : List (Nat × Cell)), cs[s]? = some c → ns[s]? = some n →
        (storedFrom (ty.storage al).memSize segs ((cs.map ChannelPath.path).zip ns) start)[s]? = some as →
        ∀ k < n, Option.Rel (Cell.Same (ty.storage al).memSize) (lastAt as k)
          (delivered (ty.storage al).memSize segs c.path start)[k]? := by
  rw [← joint_cells_iff al ty hty h hf cs hl start ns hlen hserved
    (fun c => delivered (ty.storage al).memSize segs c.path start)]
  have hone : ∀ f, SameMetaData segs t.bytes f → ∀ outs : List (List ty.Val), outs.map List.length = ns →
      ∀ (s : Nat) (c : ChannelPath) (out : List ty.Val), cs[s]? = some c → outs[s]? = some out →
      ({ t with bytes := f } : TdmsFile).readChannelFrom (ty.storage al) c start out = .ok (overlay out
        ((delivered (ty.storage al).memSize segs c.path start).map
          (Cell.value (Format.decode ty) (ty.storage al).memSize f))) := by
    intro f hsame outs hout s c out hs ho
    have hn : ns[s]? = some out.length := by rw [← hout, List.getElem?_map, ho]; rfl
    exact read_layout_exact al ty hty (t := { t with bytes := f }) h (by rw [← hsame.1]; exact hf) c
      (hl c (List.mem_of_getElem? hs)) start out (servedIn_congr (hsingle s c _ hs hn) hsame.1)
  unfold JointlyAgrees
  constructor
  · intro hag f hsame outs hout
    obtain ⟨res, hres, hrl, hag⟩ := hag f hsame outs hout
    rw [hres]
    congr 1
    have holen : outs.length = cs.length := by rw [← hlen, ← hout, List.length_map]
    apply List.ext_getElem?
    intro s
    rw [List.getElem?_zipWith]
    by_cases hs : s < cs.length
    · have hc : cs[s]? = some cs[s] := List.getElem?_eq_getElem _
      have ho : outs[s]? = some outs[s] := List.getElem?_eq_getElem _
      obtain ⟨o, ho1, ho2⟩ := hag s _ _ hc ho
      rw [hone f hsame outs hout s _ _ hc ho] at ho2
      rw [hc, ho, ho1, ← Except.ok.inj ho2]
    · rw [List.getElem?_eq_none (by omega : res.length ≤ s), List.getElem?_eq_none (by omega : cs.length ≤ s)]
  · intro hall f hsame outs hout
    have holen : outs.length = cs.length := by rw [← hlen, ← hout, List.length_map]
    refine ⟨_, hall f hsame outs hout, by rw [List.length_zipWith]; omega, ?_⟩
    intro s c out hs ho
    exact ⟨_, by rw [List.getElem?_zipWith, hs, ho], hone f hsame outs hout s c out hs ho⟩

/-! ## Examples -/

theorem servedIn_of_active {supported : List DataType} {w : Nat} {f : Bytes} {segs : List Segment} {path : Text}
    {start : Nat} (h : ∀ pre ∈ dataPrefixes segs, path ∈ active pre →
      (∃ m ∈ layoutOf (entries pre) path, m.dataType ∈ supported) ∧
      (∃ b ∈ blockOf pre, b.start + b.length ≤ f.length) ∧
      (∃ m0 ∈ (activeLayouts pre).head?, 0 < m0.numberOfValues) ∧
      ∀ i ∈ (active pre).idxOf? path, (stepChunks (activeLayouts pre) i w).sum < 2 ^ 64 ∧
        start * (stepWidths (activeLayouts pre) i w).sum < 2 ^ 63) (n : Nat) :
    ServedIn supported w f segs path start n := by
  intro pre hpre hact _ _ _
  obtain ⟨h1, h2, h3, h4⟩ := h pre hpre hact
  refine ⟨h1, h2, fun _ => ⟨h3, fun i hi => (h4 i hi).1⟩, fun _ i hi => ?_⟩
  exact Nat.lt_of_le_of_lt (Nat.mul_le_mul_right _ (Nat.sub_le _ _)) (h4 i hi).2

/-- The hypotheses of `read_channels_agree_iff` hold for a file in which `a` is in both segments and `b` in the second
    only. Read from the start into buffers of two and four cells, joint and single reads agree; read from sample 3,
    they do not. -/
theorem read_channels_agree_example : ∃ t, TdmsFile.new anyAlloc (fileOf orderFile) = .ok t ∧
    replay Index.new (orderFile.map FileSegment.segment) = .ok t.index ∧
    JointlyAgrees anyAlloc .u8 t (orderFile.map FileSegment.segment) [chan "a", chan "b"] 0 [2, 4] ∧
    ¬ JointlyAgrees anyAlloc .u8 t (orderFile.map FileSegment.segment) [chan "a", chan "b"] 3 [3, 3] := by
  obtain ⟨ix, hix⟩ := exists_ok (x := replay Index.new (orderFile.map FileSegment.segment)) (by decide +kernel)
  have hopen : buildIndex anyAlloc (fileOf orderFile) = replay Index.new (orderFile.map FileSegment.segment) := by
    decide +kernel
  have hnew : TdmsFile.new anyAlloc (fileOf orderFile) = .ok ⟨ix, fileOf orderFile⟩ := by
    unfold TdmsFile.new; rw [hopen, hix]; rfl
  have hs1 : JointlyServed (STy.u8.storage anyAlloc).supported 1 (fileOf orderFile) (orderFile.map FileSegment.segment)
      [((chan "a").path, 2), ((chan "b").path, 4)] 0 := jointlyServed_of (by decide +kernel)
  have hs2 : JointlyServed (STy.u8.storage anyAlloc).supported 1 (fileOf orderFile) (orderFile.map FileSegment.segment)
      [((chan "a").path, 3), ((chan "b").path, 3)] 3 := jointlyServed_of (by decide +kernel)
  have hf : (fileOf orderFile).length < 2 ^ 63 := by decide +kernel
  have hl : ∀ c ∈ [chan "a", chan "b"], Listed (entries (orderFile.map FileSegment.segment)) c.path := by
    unfold Listed; decide +kernel
  have hsv : ∀ start ∈ [0, 3], ∀ c ∈ [chan "a", chan "b"], ∀ pre ∈ dataPrefixes (orderFile.map FileSegment.segment),
      c.path ∈ active pre →
      (∃ m ∈ layoutOf (entries pre) c.path, m.dataType ∈ (STy.u8.storage anyAlloc).supported) ∧
      (∃ b ∈ blockOf pre, b.start + b.length ≤ (fileOf orderFile).length) ∧
      (∃ m0 ∈ (activeLayouts pre).head?, 0 < m0.numberOfValues) ∧
      ∀ i ∈ (active pre).idxOf? c.path, (stepChunks (activeLayouts pre) i 1).sum < 2 ^ 64 ∧
        start * (stepWidths (activeLayouts pre) i 1).sum < 2 ^ 63 := by decide +kernel
  have hone : ∀ start ∈ [0, 3], ∀ c ∈ [chan "a", chan "b"], ∀ n, ServedIn (STy.u8.storage anyAlloc).supported
      (STy.u8.storage anyAlloc).memSize (fileOf orderFile) (orderFile.map FileSegment.segment) c.path start n :=
    fun start hs c hc n => servedIn_of_active (hsv start hs c hc) n
  refine ⟨_, hnew, hix, ?_, ?_⟩
  · refine (read_channels_agree_iff anyAlloc .u8 rfl (t := ⟨ix, fileOf orderFile⟩) hix hf [chan "a", chan "b"] hl 0
      [2, 4] rfl hs1 (fun s c n hs _ => hone 0 (by decide) c (List.mem_of_getElem? hs) n)).mpr ?_
    have hsame : ∀ s < 2, ∀ k < [2, 4].getD s 0,
        lastAt ((storedFrom 1 (orderFile.map FileSegment.segment) [((chan "a").path, 2), ((chan "b").path, 4)] 0).getD s []) k =
          (delivered 1 (orderFile.map FileSegment.segment) ([(chan "a").path, (chan "b").path].getD s []) 0)[k]? := by
      decide +kernel
    intro s c n as hs hn has k hk
    have := hsame s (List.getElem?_eq_some_iff.mp hs).1 k (by rw [List.getD_eq_getElem?_getD, hn]; exact hk)
    rw [List.getD_eq_getElem?_getD, show (storedFrom 1 (orderFile.map FileSegment.segment)
      [((chan "a").path, 2), ((chan "b").path, 4)] 0)[s]? = some as from has, List.getD_eq_getElem?_getD,
      show [(chan "a").path, (chan "b").path] = [chan "a", chan "b"].map ChannelPath.path from rfl, List.getElem?_map, hs] at this
    replace this : lastAt as k = (delivered 1 (orderFile.map FileSegment.segment) c.path 0)[k]? := this
    rw [this]
    show Option.Rel _ _ (delivered 1 (orderFile.map FileSegment.segment) c.path 0)[k]?
    cases (delivered 1 (orderFile.map FileSegment.segment) c.path 0)[k]? with
    | none => exact .none
    | some q => exact .some ⟨rfl, Or.inl rfl⟩
  · intro hr
    have hx := (read_channels_agree_iff anyAlloc .u8 rfl (t := ⟨ix, fileOf orderFile⟩) hix hf [chan "a", chan "b"] hl 3
      [3, 3] rfl hs2 (fun s c n hs _ => hone 3 (by decide) c (List.mem_of_getElem? hs) n)).mp hr 0 (chan "a") 3
      [(0, .little, 181)] rfl rfl (by decide +kernel) 0 (by omega)
    rw [show lastAt [(0, Endian.little, 181)] 0 = some (.little, 181) from rfl,
      show (delivered (STy.u8.storage anyAlloc).memSize (orderFile.map FileSegment.segment) (chan "a").path 3)[0]? =
        some (.little, 179) by decide +kernel] at hx
    cases hx with
    | some hx => exact absurd hx.1 (by decide)

/-! ## C58 -/

theorem Cell.value_append {α : Type} {dec : Endian → Bytes → α} {w : Nat} {f g : Bytes} {c : Cell}
    (h : c.2 + w ≤ f.length) : Cell.value dec w (f ++ g) c = Cell.value dec w f c := by
  unfold Cell.value
  rw [List.drop_append_of_le_length (by omega), List.take_append_of_le_length (by rw [List.length_drop]; omega)]

theorem storeAll_congr {α : Type} {value value' : Cell → α} {as : List (Nat × Cell)}
    (h : ∀ a ∈ as, value a.2 = value' a.2) (out : List α) : storeAll value out as = storeAll value' out as := by
  unfold storeAll
  induction as generalizing out with
  | nil => rfl
  | cons a as ih =>
    rw [List.foldl_cons, List.foldl_cons, h a List.mem_cons_self]
    exact ih (fun a ha => h a (List.mem_cons_of_mem _ ha)) _

/-- What is stored by a read that can be served is inside the file. -/
theorem stored_inside {supported : List DataType} {w : Nat} {f : Bytes} {segs : List Segment} {bufs : List Buffer}
    {start : Nat} (hserved : JointlyServed supported w f segs bufs start) {s : Nat} {as : List (Nat × Cell)}
    (has : (storedFrom w segs bufs start)[s]? = some as) : ∀ a ∈ as, a.2.2 + w ≤ f.length := by
  intro a ha
  obtain ⟨x, pre, b, ts, u, r, ho⟩ := stored_origin _ _ _ _ _ has ha
  have hcont : (ts.map (·.chan)).contains u.chan = true := List.contains_iff_mem.mpr (List.mem_map_of_mem ho.taker)
  obtain ⟨hs1, hs2⟩ := DataBlock.offered_inside hcont ho.offered
  have hs3 := (hserved _ ho.read).inside
  have hp : a.2.2 = r := congrArg Prod.snd ho.cell
  dsimp only at hs3
  omega

theorem jointlyServed_append {supported : List DataType} {w : Nat} {f g : Bytes} {segs more : List Segment}
    {bufs : List Buffer} {start : Nat} (h : JointlyServed supported w f segs bufs start)
    (hstop : goesOn w start bufs (dataPrefixes segs) (bufs.map fun _ => 0) = none) :
    JointlyServed supported w (f ++ g) (segs ++ more) bufs start := by
  obtain ⟨pres, hp⟩ := dataPrefixes_append more segs
  intro x hx
  rw [hp, readBlocks_append, hstop] at hx
  have := h x hx
  refine { this with inside := ?_ }
  have := this.inside
  rw [List.length_append]
  omega

/-- **C58** (partial: the read has ended because all buffers have come to their end, which with progress shared between the
    buffers is not the same as being filled; see `joint_read_changes_counterexample`). What a read of several channels
    returned, it returns whatever segments are added to the file, of the same channels or others. -/
theorem joint_read_stopped_partial (al : Alloc) (ty : STy) (hty : Format.fixedTy ty = true) {segs more : List Segment}
    {t t' : TdmsFile} (h : replay Index.new segs = .ok t.index) (h' : replay Index.new (segs ++ more) = .ok t'.index)
    (hb : t.bytes <+: t'.bytes) (hf : t'.bytes.length < 2 ^ 63) (cs : List ChannelPath)
    (hl : ∀ c ∈ cs, Listed (entries segs) c.path) (start : Nat) (outs : List (List ty.Val))
    (hlen : outs.length = cs.length)
    (hserved : JointlyServed (ty.storage al).supported (ty.storage al).memSize t.bytes segs
      ((cs.map ChannelPath.path).zip (outs.map List.length)) start)
    (hstop : goesOn (ty.storage al).memSize start ((cs.map ChannelPath.path).zip (outs.map List.length))
      (dataPrefixes segs) (((cs.map ChannelPath.path).zip (outs.map List.length)).map fun _ => 0) = none) :
    ∃ res, t.readChannelsFrom (ty.storage al) cs start outs = .ok res ∧
      t'.readChannelsFrom (ty.storage al) cs start outs = .ok res := by
  obtain ⟨g, hg⟩ := hb
  have hl' : ∀ c ∈ cs, Listed (entries (segs ++ more)) c.path := by
    intro c hc
    obtain ⟨e, he, hp⟩ := hl c hc
    exact ⟨e, by unfold entries at he ⊢; rw [List.flatMap_append]; exact List.mem_append_left _ he, hp⟩
  have hs' : JointlyServed (ty.storage al).supported (ty.storage al).memSize t'.bytes (segs ++ more)
      ((cs.map ChannelPath.path).zip (outs.map List.length)) start := by
    rw [← hg]; exact jointlyServed_append hserved hstop
  refine ⟨_, joint_read_exact al ty hty h (by rw [← hg, List.length_append] at hf; omega) cs hl start outs hlen hserved, ?_⟩
  rw [joint_read_exact al ty hty h' hf cs hl' start outs hlen hs']
  have hst : storedFrom (ty.storage al).memSize (segs ++ more)
      ((cs.map ChannelPath.path).zip (outs.map List.length)) start =
      storedFrom (ty.storage al).memSize segs ((cs.map ChannelPath.path).zip (outs.map List.length)) start := by
    obtain ⟨pres, hp⟩ := dataPrefixes_append more segs
    unfold storedFrom
    rw [hp, stored_append, hstop]
  rw [hst]
  congr 1
  apply List.ext_getElem?
  intro s
  rw [List.getElem?_zipWith, List.getElem?_zipWith]
  cases outs[s]? with
  | none => rfl
  | some out =>
    cases has : (storedFrom (ty.storage al).memSize segs
      ((cs.map ChannelPath.path).zip (outs.map List.length)) start)[s]? with
    | none => rfl
    | some as =>
      dsimp only
      congr 1
      apply storeAll_congr
      intro a ha
      rw [← hg]
      exact Cell.value_append (stored_inside hserved has a ha)

/-- **C58, otherwise.** If the buffers have not come to their end, then the values that the read stores from further segments
    are stored after the others, from the cell on to which each buffer has come. -/
theorem joint_read_continued (al : Alloc) (ty : STy) (hty : Format.fixedTy ty = true) {segs more : List Segment}
    {t t' : TdmsFile} (h : replay Index.new segs = .ok t.index) (h' : replay Index.new (segs ++ more) = .ok t'.index)
    (hb : t.bytes <+: t'.bytes) (hf : t'.bytes.length < 2 ^ 63) (cs : List ChannelPath)
    (hl : ∀ c ∈ cs, Listed (entries segs) c.path) (start : Nat) (outs : List (List ty.Val))
    (hlen : outs.length = cs.length)
    (hserved : JointlyServed (ty.storage al).supported (ty.storage al).memSize t.bytes segs
      ((cs.map ChannelPath.path).zip (outs.map List.length)) start)
    (hserved' : JointlyServed (ty.storage al).supported (ty.storage al).memSize t'.bytes (segs ++ more)
      ((cs.map ChannelPath.path).zip (outs.map List.length)) start) {prog : List Nat}
    (hgo : goesOn (ty.storage al).memSize start ((cs.map ChannelPath.path).zip (outs.map List.length))
      (dataPrefixes segs) (((cs.map ChannelPath.path).zip (outs.map List.length)).map fun _ => 0) = some prog) :
    ∃ res, t.readChannelsFrom (ty.storage al) cs start outs = .ok res ∧
      t'.readChannelsFrom (ty.storage al) cs start outs = .ok (List.zipWith
        (storeAll (Cell.value (Format.decode ty) (ty.storage al).memSize t'.bytes)) res
        (stored (ty.storage al).memSize start ((cs.map ChannelPath.path).zip (outs.map List.length))
          ((dataPrefixes (segs ++ more)).drop (dataPrefixes segs).length) prog)) := by
  obtain ⟨g, hg⟩ := hb
  have hl' : ∀ c ∈ cs, Listed (entries (segs ++ more)) c.path := by
    intro c hc
    obtain ⟨e, he, hp⟩ := hl c hc
    exact ⟨e, by unfold entries at he ⊢; rw [List.flatMap_append]; exact List.mem_append_left _ he, hp⟩
  refine ⟨_, joint_read_exact al ty hty h (by rw [← hg, List.length_append] at hf; omega) cs hl start outs hlen hserved, ?_⟩
  rw [joint_read_exact al ty hty h' hf cs hl' start outs hlen hserved']
  obtain ⟨pres, hp⟩ := dataPrefixes_append more segs
  have hst : storedFrom (ty.storage al).memSize (segs ++ more)
      ((cs.map ChannelPath.path).zip (outs.map List.length)) start =
      List.zipWith (· ++ ·)
      (storedFrom (ty.storage al).memSize segs ((cs.map ChannelPath.path).zip (outs.map List.length)) start)
      (stored (ty.storage al).memSize start ((cs.map ChannelPath.path).zip (outs.map List.length)) pres prog) := by
    unfold storedFrom
    rw [hp, stored_append, hgo]
  rw [hst, hp, List.drop_left]
  congr 1
  apply List.ext_getElem?
  intro s
  simp only [List.getElem?_zipWith]
  cases outs[s]? with
  | none => rfl
  | some out =>
    cases has : (storedFrom (ty.storage al).memSize segs
      ((cs.map ChannelPath.path).zip (outs.map List.length)) start)[s]? with
    | none => rfl
    | some as =>
      cases (stored (ty.storage al).memSize start ((cs.map ChannelPath.path).zip (outs.map List.length)) pres prog)[s]? with
      | none => rfl
      | some as' =>
        dsimp only
        congr 1
        rw [storeAll_append]
        congr 1
        apply storeAll_congr
        intro a ha
        rw [← hg]
        exact Cell.value_append (stored_inside hserved has a ha)

/-- Two samples each of `a` and `b`; then three more of `b` and of `a`. -/
def growFile : List FileSegment :=
  [dataSegment .little true [("a", .u8, 2), ("b", .u8, 2)] [1, 11, 2, 12],
   dataSegment .little false [("b", .u8, 3), ("a", .u8, 3)] [13, 14, 15, 3, 4, 5]]

/-- The hypotheses hold for the first segment of this file, and both: with two cells for each channel the read
    ends in the first segment, with three it goes on from cell 2. -/
theorem joint_read_grows_example : ∃ t t', TdmsFile.new anyAlloc (fileOf (growFile.take 1)) = .ok t ∧
    TdmsFile.new anyAlloc (fileOf growFile) = .ok t' ∧
    replay Index.new ((growFile.take 1).map FileSegment.segment) = .ok t.index ∧
    replay Index.new ((growFile.take 1).map FileSegment.segment ++ (growFile.drop 1).map FileSegment.segment) = .ok t'.index ∧
    t.bytes <+: t'.bytes ∧
    JointlyServed (STy.u8.storage anyAlloc).supported 1 t.bytes ((growFile.take 1).map FileSegment.segment)
      [((chan "a").path, 2), ((chan "b").path, 2)] 0 ∧
    goesOn 1 0 [((chan "a").path, 2), ((chan "b").path, 2)] (dataPrefixes ((growFile.take 1).map FileSegment.segment)) [0, 0] =
      none ∧
    JointlyServed (STy.u8.storage anyAlloc).supported 1 t'.bytes (growFile.map FileSegment.segment)
      [((chan "a").path, 3), ((chan "b").path, 3)] 0 ∧
    goesOn 1 0 [((chan "a").path, 3), ((chan "b").path, 3)] (dataPrefixes ((growFile.take 1).map FileSegment.segment)) [0, 0] =
      some [2, 2] ∧
    t'.readChannelsFrom (STy.u8.storage anyAlloc) [chan "a", chan "b"] 0 [vals8 [99, 99], vals8 [99, 99]] =
      .ok [vals8 [1, 2], vals8 [11, 12]] ∧
    t'.readChannelsFrom (STy.u8.storage anyAlloc) [chan "a", chan "b"] 0 [vals8 [99, 99, 99], vals8 [99, 99, 99]] =
      .ok [vals8 [1, 2, 3], vals8 [11, 12, 13]] := by
  obtain ⟨ix, hix⟩ := exists_ok (x := replay Index.new ((growFile.take 1).map FileSegment.segment)) (by decide +kernel)
  obtain ⟨ix', hix'⟩ := exists_ok (x := replay Index.new (growFile.map FileSegment.segment)) (by decide +kernel)
  have hopen : buildIndex anyAlloc (fileOf (growFile.take 1)) = replay Index.new ((growFile.take 1).map FileSegment.segment) := by
    decide +kernel
  have hopen' : buildIndex anyAlloc (fileOf growFile) = replay Index.new (growFile.map FileSegment.segment) := by
    decide +kernel
  have hnew : TdmsFile.new anyAlloc (fileOf (growFile.take 1)) = .ok ⟨ix, fileOf (growFile.take 1)⟩ := by
    unfold TdmsFile.new; rw [hopen, hix]; rfl
  have hnew' : TdmsFile.new anyAlloc (fileOf growFile) = .ok ⟨ix', fileOf growFile⟩ := by
    unfold TdmsFile.new; rw [hopen', hix']; rfl
  have hread : readManyFrom .u8 (fileOf growFile) ["a", "b"] 0 [vals8 [99, 99], vals8 [99, 99]] =
      .ok [vals8 [1, 2], vals8 [11, 12]] := by decide +kernel
  have hread' : readManyFrom .u8 (fileOf growFile) ["a", "b"] 0 [vals8 [99, 99, 99], vals8 [99, 99, 99]] =
      .ok [vals8 [1, 2, 3], vals8 [11, 12, 13]] := by decide +kernel
  unfold readManyFrom at hread hread'
  rw [hnew'] at hread hread'
  refine ⟨_, _, hnew, hnew', hix, hix', ?_, jointlyServed_of ?_, ?_, jointlyServed_of ?_, ?_, hread, hread'⟩
  · exact List.prefix_iff_eq_take.mpr (by
      show fileOf (growFile.take 1) = (fileOf growFile).take (fileOf (growFile.take 1)).length
      decide +kernel)
  · show List.all _ (servesTakersB _ _ (fileOf (growFile.take 1)).length) = true
    decide +kernel
  · decide +kernel
  · show List.all _ (servesTakersB _ _ (fileOf growFile).length) = true
    decide +kernel
  · decide +kernel

end Tedium
