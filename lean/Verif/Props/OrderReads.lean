import Verif.Props.Order
import Verif.Props.JointlyAgree

/-!
# C43: the byte order of a file and reads of any kind

`byte_order_data_partial` is about regular segments. Here is a theorem about all layouts and timestamps: the byte
order does not matter for a read as long as what it gets are values of the file.
-/

namespace Tedium
open PlanSpec SegSpec

/-- The entry `i` of two flattened lists of which the pieces have the same lengths. -/
theorem flatMap_pair {β γ γ' : Type} {F : β → List γ} {F' : β → List γ'} : ∀ (l l' : List β), l.length = l'.length →
    (∀ (k : Nat) (x x' : β), l[k]? = some x → l'[k]? = some x' → (F x).length = (F' x').length) →
    (l.flatMap F).length = (l'.flatMap F').length ∧
    ∀ (i : Nat) (y : γ) (y' : γ'), (l.flatMap F)[i]? = some y → (l'.flatMap F')[i]? = some y' →
      ∃ k x x' j, l[k]? = some x ∧ l'[k]? = some x' ∧ (F x)[j]? = some y ∧ (F' x')[j]? = some y' ∧
        i = ((l.take k).flatMap F).length + j
  | [], [], _, _ => ⟨rfl, fun i y y' h => by simp at h⟩
  | [], _ :: _, h, _ => by cases h
  | _ :: _, [], h, _ => by cases h
  | x :: l, x' :: l', hlen, hp => by
    have h0 := hp 0 x x' rfl rfl
    obtain ⟨ih1, ih2⟩ := flatMap_pair l l' (Nat.succ.inj hlen) (fun k y y' hy hy' => hp (k + 1) y y' hy hy')
    refine ⟨by rw [List.flatMap_cons, List.flatMap_cons, List.length_append, List.length_append, h0, ih1], ?_⟩
    intro i y y' hy hy'
    rw [List.flatMap_cons] at hy hy'
    by_cases hi : i < (F x).length
    · rw [List.getElem?_append_left hi] at hy
      rw [List.getElem?_append_left (by omega)] at hy'
      exact ⟨0, x, x', i, rfl, rfl, hy, hy', by simp⟩
    · rw [List.getElem?_append_right (by omega)] at hy
      rw [List.getElem?_append_right (by omega), ← h0] at hy'
      obtain ⟨k, z, z', j, h1, h2, h3, h4, h5⟩ := ih2 _ y y' hy hy'
      refine ⟨k + 1, z, z', j, h1, h2, h3, h4, ?_⟩
      rw [List.take_succ_cons, List.flatMap_cons, List.length_append]
      omega

theorem sampleCount_plain (segs : List Segment) (p : Text) : sampleCount (segs.map Segment.plain) p = sampleCount segs p := by
  unfold sampleCount
  rw [dataPrefixes_plain, List.map_map]
  congr 1
  apply List.map_congr_left
  intro pre _
  exact samplesIn_plain pre p

/-- The positions that are visited do not depend on byte orders. -/
theorem deliveredIn_plain (w : Nat) (pre : List Segment) (p : Text) (start : Nat) :
    (deliveredIn w (pre.map Segment.plain) p start).map (·.2) = (deliveredIn w pre p start).map (·.2) := by
  unfold deliveredIn
  rw [samplesIn_plain, sampleCount_plain, blockOf_plain, active_plain, entries_plain, ← List.map_dropLast,
    sampleCount_plain]
  split
  · cases blockOf pre with
    | none => rfl
    | some b =>
      cases (active pre).idxOf? p with
      | none => rfl
      | some i =>
        cases layoutOf (entries pre) p with
        | none => rfl
        | some m =>
          simp only [Option.map_some, List.map_map]
          rfl
  · rfl

theorem delivered_plain (w : Nat) (segs : List Segment) (p : Text) (start : Nat) :
    (delivered w (segs.map Segment.plain) p start).map (·.2) = (delivered w segs p start).map (·.2) := by
  unfold delivered
  rw [dataPrefixes_plain, List.flatMap_map, List.map_flatMap, List.map_flatMap]
  exact flatMap_congr_mem _ (fun pre _ => deliveredIn_plain w pre p start)

theorem delivered_order {w : Nat} {segs segs' : List Segment} (h : segs.map Segment.plain = segs'.map Segment.plain)
    (p : Text) (start : Nat) : (delivered w segs' p start).length = (delivered w segs p start).length := by
  have := congrArg List.length (delivered_plain w segs p start)
  rw [h, delivered_plain, List.length_map, List.length_map] at this
  exact this

/-- Which reads can be served does not depend on byte orders either. -/
theorem servedIn_order {supported : List DataType} {w : Nat} {f f' : Bytes} {segs segs' : List Segment} {path : Text}
    {start n : Nat} (hs : ServedIn supported w f segs path start n) (h : segs.map Segment.plain = segs'.map Segment.plain)
    (hl : f.length = f'.length) : ServedIn supported w f' segs' path start n := by
  intro pre' hp' hact' hpos' hst' hlen'
  have hpre : (dataPrefixes segs).map (List.map Segment.plain) = (dataPrefixes segs').map (List.map Segment.plain) := by
    rw [← dataPrefixes_plain, ← dataPrefixes_plain, h]
  have hm : pre'.map Segment.plain ∈ (dataPrefixes segs).map (List.map Segment.plain) := by
    rw [hpre]; exact List.mem_map_of_mem hp'
  obtain ⟨pre, hp, hpp⟩ := List.mem_map.mp hm
  have hact : active pre' = active pre := by rw [← active_plain, ← hpp, active_plain]
  have hent : entries pre' = entries pre := by rw [← entries_plain, ← hpp, entries_plain]
  have hsam : samplesIn pre' path = samplesIn pre path := by rw [← samplesIn_plain, ← hpp, samplesIn_plain]
  have hcnt : sampleCount pre' path = sampleCount pre path := by rw [← sampleCount_plain, ← hpp, sampleCount_plain]
  have hal : activeLayouts pre' = activeLayouts pre := by rw [← activeLayouts_plain, ← hpp, activeLayouts_plain]
  have hdl : pre.dropLast.map Segment.plain = pre'.dropLast.map Segment.plain := by
    rw [List.map_dropLast, List.map_dropLast, hpp]
  have hcntd : sampleCount pre'.dropLast path = sampleCount pre.dropLast path := by
    rw [← sampleCount_plain, ← hdl, sampleCount_plain]
  have hblk : (blockOf pre).map DataBlock.plain = (blockOf pre').map DataBlock.plain := by
    rw [← blockOf_plain, hpp, blockOf_plain]
  have hlast : ∀ s', pre'.getLast? = some s' → ∃ s, pre.getLast? = some s ∧ s.toc.dataIsInterleaved = s'.toc.dataIsInterleaved := by
    intro s' hs'
    have hlast : pre.getLast?.map Segment.plain = pre'.getLast?.map Segment.plain := by
      rw [← List.getLast?_map, hpp, List.getLast?_map]
    rw [hs'] at hlast
    cases hx : pre.getLast? with
    | none => rw [hx] at hlast; cases hlast
    | some s =>
      rw [hx] at hlast
      have hss : s.plain = s'.plain := Option.some.inj hlast
      exact ⟨s, rfl, show s.plain.toc.dataIsInterleaved = s'.plain.toc.dataIsInterleaved by rw [hss]⟩
  rw [hact] at hact'
  rw [hsam] at hpos'
  rw [hcnt] at hst'
  rw [delivered_order hdl] at hlen'
  obtain ⟨h1, ⟨b, hb, hin⟩, h3, h4⟩ := hs pre hp hact' hpos' hst' hlen'
  refine ⟨by rw [hent]; exact h1, ?_, ?_, ?_⟩
  · rw [hb] at hblk
    cases hb' : blockOf pre' with
    | none => rw [hb'] at hblk; cases hblk
    | some b' =>
      rw [hb'] at hblk
      have hbb : b.plain = b'.plain := Option.some.inj hblk
      have e1 : b.start = b'.start := (show b.plain.start = b'.plain.start by rw [hbb])
      have e2 : b.length = b'.length := (show b.plain.length = b'.plain.length by rw [hbb])
      exact ⟨b', rfl, by rw [← e1, ← e2, ← hl]; exact hin⟩
  · intro ⟨s', hs', hi⟩
    obtain ⟨s, hs, hss⟩ := hlast s' hs'
    rw [hal, hact]
    exact h3 ⟨s, hs, hss.trans hi⟩
  · intro ⟨s', hs', hi⟩
    obtain ⟨s, hs, hss⟩ := hlast s' hs'
    rw [hal, hact, hcntd]
    exact h4 ⟨s, hs, hss.trans hi⟩

/-- **C43, data, for all layouts** (partial: not for strings and extended floats, and what the read gets has to be values of the
    file, see `byte_order_counterexample`). Two files have the same segments apart from byte orders, and every value
    is stored in the byte order of its segment. If a read of the first file can be served and what it gets are values of the file,
    right or wrong, then the same read of the second file gives the same. -/
theorem byte_order_read_partial (al : Alloc) (hal : Generous al) (ty : STy) (hty : Format.fixedTy ty = true)
    (fs fs' : List FileSegment) (hf : ∀ s ∈ fs, s.Fits) (hf' : ∀ s ∈ fs', s.Fits)
    (h : fs.map FileSegment.shape = fs'.map FileSegment.shape)
    (hv : SameValues (fileOf fs) (fs.map FileSegment.segment) (fileOf fs') (fs'.map FileSegment.segment))
    (hlen : (fileOf fs).length < 2 ^ 63) {t : TdmsFile} (ht : TdmsFile.new al (fileOf fs) = .ok t)
    (c : ChannelPath) (hl : Listed (entries (fs.map FileSegment.segment)) c.path) (start n : Nat)
    (hserved : ServedIn (ty.storage al).supported (ty.storage al).memSize (fileOf fs) (fs.map FileSegment.segment) c.path start n)
    (hvals : DeliversValues (ty.storage al).supported (ty.storage al).memSize (fs.map FileSegment.segment) c.path start n) :
    ∃ t', TdmsFile.new al (fileOf fs') = .ok t' ∧ ∀ out, out.length = n →
      t'.readChannelFrom (ty.storage al) c start out = t.readChannelFrom (ty.storage al) c start out := by
  have hplain := plain_segments_of_shape h
  have hlen' := length_of_shape h
  rcases byte_order_structure al hal fs fs' hf hf' h with ⟨e, he, _⟩ | ⟨t0, t', h0, h', _⟩
  · rw [he] at ht; cases ht
  rw [h0] at ht
  cases ht
  refine ⟨t', h', fun out hout => ?_⟩
  have idx : ∀ (l : List FileSegment) (u : TdmsFile), (∀ s ∈ l, s.Fits) → TdmsFile.new al (fileOf l) = .ok u →
      u.bytes = fileOf l ∧ replay Index.new (l.map FileSegment.segment) = .ok u.index := by
    intro l u hfl hu
    unfold TdmsFile.new at hu
    rw [open_fileOf al hal l hfl] at hu
    cases hr : replay Index.new (l.map FileSegment.segment) with
    | error e => rw [hr] at hu; cases hu
    | ok ix => rw [hr] at hu; cases hu; exact ⟨rfl, rfl⟩
  obtain ⟨hb, hi⟩ := idx fs t hf h0
  obtain ⟨hb', hi'⟩ := idx fs' t' hf' h'
  generalize fs.map FileSegment.segment = segs at *
  generalize fs'.map FileSegment.segment = segs' at *
  have hpre : (dataPrefixes segs).map (List.map Segment.plain) = (dataPrefixes segs').map (List.map Segment.plain) := by
    rw [← dataPrefixes_plain, ← dataPrefixes_plain, hplain]
  rw [read_layout_exact al ty hty hi (by rw [hb]; exact hlen) c hl start out (by rw [hb, hout]; exact hserved),
    read_layout_exact al ty hty hi' (by rw [hb', ← hlen']; exact hlen) c
      (by rw [← entries_plain, ← hplain, entries_plain]; exact hl) start out
      (by rw [hb', hout]; exact servedIn_order hserved hplain hlen'), hb, hb']
  congr 1
  have hpk : ∀ (k : Nat) (pre pre' : List Segment), (dataPrefixes segs)[k]? = some pre → (dataPrefixes segs')[k]? = some pre' →
      pre.map Segment.plain = pre'.map Segment.plain := by
    intro k pre pre' hk hk'
    have h1 : ((dataPrefixes segs).map (List.map Segment.plain))[k]? = some (pre.map Segment.plain) := by
      rw [List.getElem?_map, hk]; rfl
    have h2 : ((dataPrefixes segs').map (List.map Segment.plain))[k]? = some (pre'.map Segment.plain) := by
      rw [List.getElem?_map, hk']; rfl
    rw [hpre, h2] at h1
    exact (Option.some.inj h1).symm
  have hpos : ∀ (k : Nat) (pre pre' : List Segment), (dataPrefixes segs)[k]? = some pre → (dataPrefixes segs')[k]? = some pre' →
      (deliveredIn (ty.storage al).memSize pre c.path start).map (·.2) =
        (deliveredIn (ty.storage al).memSize pre' c.path start).map (·.2) := by
    intro k pre pre' hk hk'
    rw [← deliveredIn_plain, hpk k pre pre' hk hk', deliveredIn_plain]
  have hnum : (dataPrefixes segs).length = (dataPrefixes segs').length := by
    have := congrArg List.length hpre
    rwa [List.length_map, List.length_map] at this
  obtain ⟨hdl, hdp⟩ := flatMap_pair (F := fun pre => deliveredIn (ty.storage al).memSize pre c.path start)
    (F' := fun pre => deliveredIn (ty.storage al).memSize pre c.path start) (dataPrefixes segs) (dataPrefixes segs') hnum
    (fun k pre pre' hk hk' => by
      have := congrArg List.length (hpos k pre pre' hk hk')
      rwa [List.length_map, List.length_map] at this)
  apply List.ext_getElem?
  intro i
  by_cases hin : i < n
  · rw [overlay_getElem? _ _ _ (by omega), overlay_getElem? _ _ _ (by omega), List.getElem?_map, List.getElem?_map]
    congr 1
    cases hd : (delivered (ty.storage al).memSize segs c.path start)[i]? with
    | none =>
      have : (delivered (ty.storage al).memSize segs' c.path start)[i]? = none := by
        rw [List.getElem?_eq_none_iff] at hd ⊢
        rw [delivered_order hplain]
        exact hd
      rw [this]; rfl
    | some d =>
      cases hd' : (delivered (ty.storage al).memSize segs' c.path start)[i]? with
      | none =>
        rw [List.getElem?_eq_none_iff, delivered_order hplain, ← List.getElem?_eq_none_iff, hd] at hd'
        cases hd'
      | some d' =>
        obtain ⟨k, pre, pre', j, hk, hk', hj, hj', hij⟩ := hdp i d d' hd hd'
        have hpp := hpk k pre pre' hk hk'
        obtain ⟨_, _, _, hd2⟩ := dataPrefixes_take segs k pre hk
        have hbefore : (delivered (ty.storage al).memSize pre.dropLast c.path start).length + j = i := by
          unfold delivered
          rw [hd2, hij]
        obtain ⟨b, q, a, m, s, hb1, hq, hm, hsup, hsm, hds⟩ := hvals pre (List.mem_of_getElem? hk) d
          (List.mem_of_getElem? (i := j) (by rw [List.getElem?_take, if_pos (by omega)]; exact hj))
        have hposj : d'.2 = d.2 := by
          have h1 := congrArg (fun l : List Nat => l[j]?) (hpos k pre pre' hk hk')
          rw [List.getElem?_map, List.getElem?_map, hj, hj'] at h1
          exact (Option.some.inj h1).symm
        have horder : ∀ (pr : List Segment) (x : Cell) (bb : DataBlock), blockOf pr = some bb →
            (deliveredIn (ty.storage al).memSize pr c.path start)[j]? = some x → x.1 = bb.byteOrder := by
          intro pr x bb hbb hx
          have hx := List.mem_of_getElem? hx
          unfold deliveredIn at hx
          rw [hbb] at hx
          split at hx
          · cases h1 : (active pr).idxOf? c.path with
            | none => rw [h1] at hx; cases hx
            | some a' =>
              cases h2 : layoutOf (entries pr) c.path with
              | none => rw [h1, h2] at hx; cases hx
              | some m' =>
                rw [h1, h2] at hx
                obtain ⟨z, _, rfl⟩ := List.mem_map.mp hx
                rfl
          · cases hx
        have hblk : (blockOf pre).map DataBlock.plain = (blockOf pre').map DataBlock.plain := by
          rw [← blockOf_plain, hpp, blockOf_plain]
        cases hb1' : blockOf pre' with
        | none => rw [hb1, hb1'] at hblk; cases hblk
        | some b' =>
          rw [hb1, hb1'] at hblk
          have hbb : b.plain = b'.plain := Option.some.inj hblk
          have hsp : b'.samplePos a m s = b.samplePos a m s := by
            have h1 : ∀ x : DataBlock, x.samplePos a m s = x.plain.samplePos a m s := fun _ => rfl
            rw [h1 b', h1 b, hbb]
          have hw := bytesOf_fixed al ty hty _ hsup
          have hval := hv k pre pre' b b' hk hk' hb1 hb1' q a m s hq hm hsm
          unfold DataBlock.sampleBytes at hval
          rw [hsp, hw, ← hds] at hval
          rw [Option.map_some, Option.map_some]
          congr 1
          unfold Cell.value
          rw [horder pre' d' b' hb1' hj', horder pre d b hb1 hj, hposj, hval]
          split
          · rename_i heq; rw [heq]
          · rename_i hne
            rw [decode_swapped al ty hsup hne]
            rw [hw]
            exact List.length_take_le _ _
  · rw [List.getElem?_eq_none (by rw [length_overlay]; omega), List.getElem?_eq_none (by rw [length_overlay]; omega)]

/-! ## Example -/

theorem sameValues_of {f f' : Bytes} {segs segs' : List Segment}
    (h : ∀ k < (dataPrefixes segs).length, ∀ pre ∈ (dataPrefixes segs)[k]?, ∀ pre' ∈ (dataPrefixes segs')[k]?,
      ∀ b ∈ blockOf pre, ∀ b' ∈ blockOf pre', ∀ i < (active pre).length, ∀ p ∈ (active pre)[i]?,
      ∀ m ∈ layoutOf (entries pre) p, ∀ n < samplesIn pre p,
      b'.sampleBytes f' i m n = if b.byteOrder = b'.byteOrder then b.sampleBytes f i m n
        else Format.swapped m.dataType (b.sampleBytes f i m n)) : SameValues f segs f' segs' := by
  intro k pre pre' b b' hk hk' hb hb' p i m n hi hm hn
  exact h k (List.getElem?_eq_some_iff.mp hk).1 pre hk pre' hk' b hb b' hb' i (List.getElem?_eq_some_iff.mp hi).1 p hi m hm n hn

theorem deliversValues_of {supported : List DataType} {w : Nat} {segs : List Segment} {path : Text} {start n : Nat}
    (h : ∀ pre ∈ dataPrefixes segs,
      ∀ d ∈ (deliveredIn w pre path start).take (n - (delivered w pre.dropLast path start).length),
      ∃ b ∈ blockOf pre, ∃ j < (active pre).length, ∃ q ∈ (active pre)[j]?, ∃ m ∈ layoutOf (entries pre) q,
        m.dataType ∈ supported ∧ ∃ s < samplesIn pre q, d.2 = b.samplePos j m s) :
    DeliversValues supported w segs path start n := by
  intro pre hp d hd
  obtain ⟨b, hb, j, _, q, hq, m, hm, hs, s, hsm, hds⟩ := h pre hp d hd
  exact ⟨b, q, j, m, s, hb, hq, hm, hs, hsm, hds⟩

/-- Two segments: channels of different lengths, and a timestamp channel. -/
def stampedFile : List FileSegment :=
  [dataSegment .little false [("a", .u8, 1), ("b", .u16, 2)] [1, 10, 0, 11, 0, 2, 12, 0, 13, 0],
   dataSegment .big false [("t", .timestamp, 1)] [0, 1, 2, 3, 4, 5, 6, 7, 8, 9, 10, 11, 12, 13, 14, 15]]

/-- The same in the other byte orders. -/
def stampedFileSwapped : List FileSegment :=
  [dataSegment .big false [("a", .u8, 1), ("b", .u16, 2)] [1, 0, 10, 0, 11, 2, 0, 12, 0, 13],
   dataSegment .little false [("t", .timestamp, 1)] [15, 14, 13, 12, 11, 10, 9, 8, 7, 6, 5, 4, 3, 2, 1, 0]]

set_option synthInstance.maxSize 1024 in
set_option synthInstance.maxHeartbeats 400000 in
/-- The hypotheses of `byte_order_read_partial` hold for the pair, for a read of `b` that gets the wrong values, and for a read of
    timestamps. -/
theorem byte_order_read_example :
    stampedFile.map FileSegment.shape = stampedFileSwapped.map FileSegment.shape ∧
    SameValues (fileOf stampedFile) (stampedFile.map FileSegment.segment)
      (fileOf stampedFileSwapped) (stampedFileSwapped.map FileSegment.segment) ∧
    ServedIn (STy.u16.storage anyAlloc).supported (STy.u16.storage anyAlloc).memSize (fileOf stampedFile)
      (stampedFile.map FileSegment.segment) (chan "b").path 1 3 ∧
    DeliversValues (STy.u16.storage anyAlloc).supported (STy.u16.storage anyAlloc).memSize
      (stampedFile.map FileSegment.segment) (chan "b").path 1 3 ∧
    readFrom .u16 (fileOf stampedFile) "b" 1 (vals16 [0, 0, 0]) = .ok (vals16 [12, 13, 0]) ∧
    readFrom .u16 (fileOf stampedFileSwapped) "b" 1 (vals16 [0, 0, 0]) = .ok (vals16 [12, 13, 0]) ∧
    ServedIn (STy.timestamp.storage anyAlloc).supported (STy.timestamp.storage anyAlloc).memSize (fileOf stampedFile)
      (stampedFile.map FileSegment.segment) (chan "t").path 0 1 ∧
    DeliversValues (STy.timestamp.storage anyAlloc).supported (STy.timestamp.storage anyAlloc).memSize
      (stampedFile.map FileSegment.segment) (chan "t").path 0 1 ∧
    readFrom .timestamp (fileOf stampedFileSwapped) "t" 0 [0#128] = readFrom .timestamp (fileOf stampedFile) "t" 0 [0#128] ∧
    readFrom .timestamp (fileOf stampedFile) "t" 0 [0#128] = .ok [0x000102030405060708090A0B0C0D0E0F#128] := by
  refine ⟨by decide +kernel, sameValues_of (by decide +kernel), servedIn_of_active (by decide +kernel) _,
    deliversValues_of (by decide +kernel), by decide +kernel, by decide +kernel, servedIn_of_active (by decide +kernel) _,
    deliversValues_of (by decide +kernel), by decide +kernel, by decide +kernel⟩

end Tedium
