import Verif.Props.JointlyAgree
import Verif.Props.AppendExact

/-! # C58, exactly: when a read of several channels is safe from further writes -/

namespace Tedium
open PlanSpec SegSpec WriteSpec

theorem replay_run (al : Alloc) {segs : List Segment} {t : TdmsFile} (hs : replay Index.new segs = .ok t.index) (op : Op)
    (hok : (op.run al t).1 = .ok ()) : ∃ s, replay Index.new (segs ++ [s]) = .ok (op.run al t).2.index := by
  have key : ∀ (s : Segment), (t.index.addSegment s).1.map (fun _ => ()) = .ok () →
      ∃ s', SegSpec.replay Index.new (segs ++ [s']) = .ok (t.index.addSegment s).2 := by
    intro s h
    cases hx : t.index.addSegment s with
    | mk r ix =>
      cases r with
      | error e => rw [hx] at h; cases h
      | ok n => exact ⟨s, replay_snoc hs hx⟩
  cases op with
  | props e path properties => exact key (propertySegment e path properties).1 hok
  | write e ty chs vals layout =>
    have hok' : (t.writeChannels (ty.storage al) e chs vals layout).1 = .ok () := hok
    show ∃ s', SegSpec.replay Index.new (segs ++ [s']) = .ok (t.writeChannels (ty.storage al) e chs vals layout).2.index
    unfold TdmsFile.writeChannels at hok' ⊢
    split at hok'
    · cases hok'
    · split at hok'
      · cases hok'
      · rename_i h1 h2
        rw [if_neg h1, if_neg h2]
        exact key _ hok'

theorem replay_runOps (al : Alloc) : ∀ (ops : List Op) {segs : List Segment} {t : TdmsFile},
    replay Index.new segs = .ok t.index → AllSucceed al t ops →
    ∃ more, replay Index.new (segs ++ more) = .ok (runOps al t ops).index
  | [], segs, t, h, _ => ⟨[], by rw [List.append_nil]; exact h⟩
  | op :: ops, segs, t, h, hok => by
    obtain ⟨h1, h2⟩ := (allSucceed_cons al t op ops).mp hok
    obtain ⟨s, hs⟩ := replay_run al h op h1
    obtain ⟨more, hm⟩ := replay_runOps al ops hs h2
    exact ⟨s :: more, by rw [runOps_cons]; rw [List.append_assoc] at hm; exact hm⟩

/-! ## The cells to which the buffers have come -/

theorem goesOn_room (w start : Nat) (bufs : List Buffer) : ∀ (pres : List (List Segment)) (prog prog' : List Nat),
    (bufs.zip prog).all (fun x => decide (x.1.2 ≤ x.2)) = false → goesOn w start bufs pres prog = some prog' →
    (bufs.zip prog').all (fun x => decide (x.1.2 ≤ x.2)) = false := by
  intro pres
  induction pres with
  | nil => intro prog prog' h hg; cases hg; exact h
  | cons pre pres ih =>
    intro prog prog' h hg
    unfold goesOn at hg
    cases hb : blockOf pre with
    | none => rw [hb] at hg; exact ih _ _ h hg
    | some b =>
      rw [hb] at hg
      dsimp only at hg
      split at hg
      · split at hg
        · cases hg
        · rename_i hn
          exact ih _ _ (Bool.eq_false_iff.mpr hn) hg
      · exact ih _ _ h hg

theorem goesOn_length (w start : Nat) (bufs : List Buffer) : ∀ (pres : List (List Segment)) (prog prog' : List Nat),
    prog.length = bufs.length → goesOn w start bufs pres prog = some prog' → prog'.length = bufs.length := by
  intro pres
  induction pres with
  | nil => intro prog prog' h hg; cases hg; exact h
  | cons pre pres ih =>
    intro prog prog' h hg
    unfold goesOn at hg
    cases hb : blockOf pre with
    | none => rw [hb] at hg; exact ih _ _ h hg
    | some b =>
      rw [hb] at hg
      dsimp only at hg
      split at hg
      · split at hg
        · cases hg
        · refine ih _ _ ?_ hg
          unfold progressed
          rw [List.length_map, List.length_zip]
          omega
      · exact ih _ _ h hg

/-- The last element with a property. -/
theorem exists_last {α : Type} (p : α → Bool) : ∀ l : List α, l.any p = true →
    ∃ s x, l[s]? = some x ∧ p x = true ∧ ∀ y ∈ l.drop (s + 1), p y = false
  | [], h => by cases h
  | a :: l, h => by
    by_cases hl : l.any p = true
    · obtain ⟨s, x, h1, h2, h3⟩ := exists_last p l hl
      exact ⟨s + 1, x, h1, h2, h3⟩
    · rw [List.any_cons] at h
      have ha : p a = true := by
        cases hp : p a with
        | true => rfl
        | false => rw [hp] at h; exact absurd h hl
      refine ⟨0, a, rfl, ha, ?_⟩
      intro y hy
      exact Bool.eq_false_iff.mpr fun hh => hl (List.any_eq_true.mpr ⟨y, hy, hh⟩)

theorem storeAll_first {α : Type} (value : Cell → α) (q : Nat) (e : Endian) : ∀ (ps : List Nat) (d : Nat) (out : List α),
    q < d → (storeAll value out (ps.mapIdx fun k p => (d + k, e, p)))[q]? = out[q]?
  | [], _, _, _ => rfl
  | p :: ps, d, out, h => by
    rw [List.mapIdx_cons]
    show (storeAll value (out.set (d + 0) (value (e, p))) (ps.mapIdx fun k p => (d + (k + 1), e, p)))[q]? = _
    have : (fun (k p : Nat) => (d + (k + 1), e, p)) = fun k p => ((d + 1) + k, e, p) := by
      funext k p; congr 1; omega
    rw [this, storeAll_first value q e ps (d + 1) _ (by omega), List.getElem?_set_ne (by omega)]

theorem storeAll_here {α : Type} (value : Cell → α) (q : Nat) (e : Endian) (p : Nat) (ps : List Nat) (out : List α)
    (h : q < out.length) : (storeAll value out ((p :: ps).mapIdx fun k p => (q + k, e, p)))[q]? = some (value (e, p)) := by
  rw [List.mapIdx_cons]
  show (storeAll value (out.set (q + 0) (value (e, p))) (ps.mapIdx fun k p => (q + (k + 1), e, p)))[q]? = _
  have : (fun (k p : Nat) => (q + (k + 1), e, p)) = fun k p => ((q + 1) + k, e, p) := by
    funext k p; congr 1; omega
  rw [this, storeAll_first value q e ps (q + 1) _ (by omega), Nat.add_zero, List.getElem?_set_self h]

theorem other_value {ty : STy} (hty : Format.ordinaryTy ty = true) (v : ty.Val) : ∃ v' : ty.Val, v' ≠ v := by
  have key : ∀ {β : Type} (a b : β), a ≠ b → ∀ v : β, ∃ v' : β, v' ≠ v := by
    intro β a b hab v
    by_cases h : a = v
    · exact ⟨b, fun hh => hab (h.trans hh.symm)⟩
    · exact ⟨a, h⟩
  cases ty with
  | i8 => exact key (0 : BitVec 8) 1 (by decide) v
  | u8 => exact key (0 : BitVec 8) 1 (by decide) v
  | i16 => exact key (0 : BitVec 16) 1 (by decide) v
  | u16 => exact key (0 : BitVec 16) 1 (by decide) v
  | i32 => exact key (0 : BitVec 32) 1 (by decide) v
  | u32 => exact key (0 : BitVec 32) 1 (by decide) v
  | f32 => exact key (0 : BitVec 32) 1 (by decide) v
  | i64 => exact key (0 : BitVec 64) 1 (by decide) v
  | u64 => exact key (0 : BitVec 64) 1 (by decide) v
  | f64 => exact key (0 : BitVec 64) 1 (by decide) v
  | bool => exact key false true (by decide) v
  | complex32 => exact key (⟨0, 0⟩ : Complex (BitVec 32)) ⟨0, 1⟩ (by decide) v
  | complex64 => exact key (⟨0, 0⟩ : Complex (BitVec 64)) ⟨0, 1⟩ (by decide) v
  | extended => cases hty
  | timestamp => cases hty
  | string => cases hty

/-! ## A further segment with one channel -/

/-- The last segment of `pre` has the one channel `p`, with `n` values in one chunk of contiguous data. -/
structure OneChannel (w : Nat) (pre : List Segment) (p : Text) (n : Nat) (b : DataBlock) (m : RawDataMeta) : Prop where
  block : blockOf pre = some b
  active : active pre = [p]
  channels : b.channels = [m]
  layout : b.layout = .contigious
  count : m.numberOfValues = n
  length : b.length = n * w
  pos : 0 < n
  width : 0 < w
  own : samplesIn pre p = n
  others : ∀ p', p' ≠ p → samplesIn pre p' = 0

theorem OneChannel.taker {w : Nat} {pre : List Segment} {p : Text} {n : Nat} {b : DataBlock} {m : RawDataMeta}
    (h : OneChannel w pre p n b m) {start : Nat} {x : Buffer × Nat} {t : Taker} (ht : takerOf pre start x = some t) :
    x.1.1 = p ∧ t = ⟨0, start - sampleCount pre.dropLast p, x.1.2 - x.2⟩ ∧ x.2 < x.1.2 := by
  unfold takerOf at ht
  split at ht
  · rename_i hw
    rw [Bool.and_eq_true] at hw
    have hp : x.1.1 = p := Classical.byContradiction fun hne => by
      have := (of_decide_eq_true hw.1).1
      rw [h.others _ hne] at this
      omega
    refine ⟨hp, ?_, of_decide_eq_true hw.2⟩
    cases ht
    rw [hp, h.active]
    have : List.idxOf? p [p] = some 0 := by simp [List.idxOf?]
    rw [this]
    rfl
  · cases ht

theorem OneChannel.offered {w : Nat} {pre : List Segment} {p : Text} {n : Nat} {b : DataBlock} {m : RawDataMeta}
    (h : OneChannel w pre p n b m) {ts : List Taker} {sk : Nat} (hne : ts ≠ []) (hts : ∀ t ∈ ts, t.chan = 0 ∧ t.skip = sk)
    (hsk : sk < n) : b.offered w ts 0 = ((List.range n).drop sk).map fun s => b.start + s * w := by
  have hc : (ts.map (·.chan)).contains 0 = true := by
    cases ts with
    | nil => exact absurd rfl hne
    | cons t ts =>
      refine List.contains_iff_mem.mpr ?_
      rw [List.map_cons, (hts t List.mem_cons_self).1]
      exact List.mem_cons_self
  have hchunk : jointChunks b.channels (ts.map (·.chan)) w = [n * w] := by
    rw [h.channels]
    unfold jointChunks
    show [m.numberOfValues * if (ts.map (·.chan)).contains 0 then w else m.dataType.size] = _
    rw [hc, if_pos rfl, h.count]
  have hfc : b.firstCount = n := by
    unfold DataBlock.firstCount
    rw [h.channels]
    exact h.count
  have hskf : skipFor ts 0 = sk := by
    unfold skipFor
    show ((ts[0]?).map (·.skip)).getD 0 = _
    cases ts with
    | nil => exact absurd rfl hne
    | cons t ts => exact (hts t List.mem_cons_self).2
  have hd : sk / n = 0 := Nat.div_eq_of_lt hsk
  unfold DataBlock.offered
  rw [h.channels, h.layout]
  dsimp only [List.getElem?_cons_zero]
  rw [← h.channels, hchunk, hfc, hskf, hd, Nat.mod_eq_of_lt hsk, h.length, h.count]
  rw [show [n * w].sum = n * w from rfl, Nat.div_self (Nat.mul_pos h.pos h.width)]
  rw [show List.range 1 = [0] from rfl, List.flatMap_cons, List.flatMap_nil, List.append_nil]
  rw [if_pos (by
    rw [List.all_eq_true]
    intro t ht
    rw [(hts t ht).2, hd]
    rfl), if_pos rfl, Nat.zero_mul]
  rfl

/-- What is stored from such a segment in the last buffer that has room, and that the segment can be read. -/
theorem OneChannel.stored {supported : List DataType} {w : Nat} {f : Bytes} {pre : List Segment} {p : Text} {n : Nat}
    {b : DataBlock} {m : RawDataMeta} (h : OneChannel w pre p n b m) (hm : m.dataType ∈ supported)
    (hin : b.start + b.length ≤ f.length) (hf : f.length < 2 ^ 63) {start : Nat} (hst : start < sampleCount pre p)
    (hsk : start - sampleCount pre.dropLast p < n) (bufs : List Buffer) (prog : List Nat) (hlen : prog.length = bufs.length)
    {s room : Nat} {q : Nat} (hs : (bufs.zip prog)[s]? = some ((p, room), q)) (hq : q < room)
    (hlast : ∀ y ∈ (bufs.zip prog).drop (s + 1), y.1.2 ≤ y.2) :
    (SegSpec.stored w start bufs [pre] prog)[s]? = some
      (((((List.range n).drop (start - sampleCount pre.dropLast p)).map fun s => b.start + s * w).take (room - q)).mapIdx
        fun k a => (q + k, b.byteOrder, a)) ∧
    ∀ x ∈ readBlocks w start bufs [pre] prog, x.1.ServesTakers supported w f x.2 := by
  have hwant : wanted pre start p = true := by
    unfold wanted
    rw [h.own]
    exact decide_eq_true ⟨h.pos, hst⟩
  have hany : bufs.any (fun x => wanted pre start x.1) = true := by
    obtain ⟨y, hy⟩ : ∃ y, bufs[s]? = some y ∧ y = (p, room) := by
      rw [List.getElem?_zip_eq_some] at hs
      exact ⟨_, hs.1, rfl⟩
    exact List.any_eq_true.mpr ⟨y, List.mem_of_getElem? hy.1, by rw [hy.2]; exact hwant⟩
  have htk : ∀ t ∈ (takers pre start bufs prog).filterMap id,
      t.chan = 0 ∧ t.skip = start - sampleCount pre.dropLast p := by
    intro t ht
    obtain ⟨o, ho, hoid⟩ := List.mem_filterMap.mp ht
    unfold takers at ho
    obtain ⟨x, _, hx⟩ := List.mem_map.mp ho
    obtain ⟨_, h2, _⟩ := h.taker (hx.trans hoid)
    rw [h2]
    exact ⟨rfl, rfl⟩
  have hthis : takerOf pre start ((p, room), q) = some ⟨0, start - sampleCount pre.dropLast p, room - q⟩ := by
    cases hx : takerOf pre start ((p, room), q) with
    | none =>
      unfold takerOf at hx
      rw [if_pos (by rw [hwant]; exact decide_eq_true hq)] at hx
      cases hx
    | some t => rw [(h.taker hx).2.1]
  have hts : (takers pre start bufs prog)[s]? = some (some ⟨0, start - sampleCount pre.dropLast p, room - q⟩) := by
    unfold takers
    rw [List.getElem?_map, hs]
    exact congrArg some hthis
  have hne : (takers pre start bufs prog).filterMap id ≠ [] := by
    intro hh
    have : (⟨0, start - sampleCount pre.dropLast p, room - q⟩ : Taker) ∈ (takers pre start bufs prog).filterMap id :=
      List.mem_filterMap.mpr ⟨_, List.mem_of_getElem? hts, rfl⟩
    rw [hh] at this
    cases this
  have hoff := h.offered hne htk hsk
  have hslt : s < bufs.length := by
    have := (List.getElem?_eq_some_iff.mp hs).1
    rw [List.length_zip] at this
    omega
  have hnow : storedIn b w (takers pre start bufs prog) prog s =
      (((((List.range n).drop (start - sampleCount pre.dropLast p)).map fun s => b.start + s * w).take (room - q)).mapIdx
        fun k a => (q + k, b.byteOrder, a)) := by
    unfold storedIn
    rw [hts]
    dsimp only
    rw [if_neg (by
      intro hh
      obtain ⟨o, ho, hoc⟩ := List.any_eq_true.mp hh
      unfold takers at ho
      rw [← List.map_drop] at ho
      obtain ⟨y, hy, hyo⟩ := List.mem_map.mp ho
      cases o with
      | none => cases hoc
      | some t =>
        have := (h.taker hyo).2.2
        have := hlast y hy
        omega), hoff]
    have : prog.getD s 0 = q := by
      rw [List.getElem?_zip_eq_some] at hs
      rw [List.getD_eq_getElem?_getD, hs.2]
      rfl
    rw [this]
  constructor
  · unfold SegSpec.stored
    rw [h.block]
    dsimp only
    rw [if_pos hany]
    split
    · rw [List.getElem?_map, List.getElem?_range hslt]
      exact congrArg some hnow
    · unfold SegSpec.stored
      rw [List.getElem?_zipWith, List.getElem?_map, List.getElem?_range hslt, List.getElem?_map,
        List.getElem?_eq_getElem hslt]
      show some (storedIn b w (takers pre start bufs prog) prog s ++ []) = _
      rw [List.append_nil, hnow]
  · intro x hx
    unfold readBlocks at hx
    rw [h.block] at hx
    dsimp only at hx
    rw [if_pos hany] at hx
    have hx' : x = (b, (takers pre start bufs prog).filterMap id) := by
      rcases List.mem_cons.mp hx with hx | hx
      · exact hx
      · split at hx <;> cases hx
    rw [hx']
    have hc : ((((takers pre start bufs prog).filterMap id)).map (·.chan)).contains 0 = true := by
      refine List.contains_iff_mem.mpr (List.mem_map.mpr ⟨⟨0, start - sampleCount pre.dropLast p, room - q⟩, ?_, rfl⟩)
      exact List.mem_filterMap.mpr ⟨_, List.mem_of_getElem? hts, rfl⟩
    have hchunk : (jointChunks b.channels (((takers pre start bufs prog).filterMap id).map (·.chan)) w).sum = n * w := by
      rw [h.channels]
      unfold jointChunks
      show (m.numberOfValues * if (((takers pre start bufs prog).filterMap id).map (·.chan)).contains 0 then w
        else m.dataType.size) + 0 = _
      rw [hc, if_pos rfl, h.count]
      rfl
    refine ⟨?_, hin, fun _ => ⟨?_, ?_, ?_⟩, fun hi => by rw [h.layout] at hi; cases hi⟩
    · intro t ht
      refine ⟨m, ?_, hm⟩
      rw [(htk t ht).1, h.channels]
      rfl
    · unfold DataBlock.firstCount
      rw [h.channels]
      exact Nat.lt_of_lt_of_eq h.pos h.count.symm
    · rw [hchunk]; exact Nat.mul_pos h.pos h.width
    · rw [hchunk]
      have := h.length
      omega

/-- Values written to one channel with a list that differs from the one in force. -/
theorem single_write (al : Alloc) (ty : STy) (hty : Format.ordinaryTy ty = true) {segs : List Segment} {t : TdmsFile}
    (h : Exact segs t) (c : ChannelPath) (hd : Diverges (active segs) [c.path]) (vals : List ty.Val) (hv : vals ≠ [])
    (hsz : t.bytes.length + 56 + textSize c.path + (ty.storage al).memSize * vals.length < 2 ^ 63) :
    ∃ t' s b m, t.writeChannels (ty.storage al) .little [c] vals .contigious = (.ok (), t') ∧
      t'.bytes.length ≤ t.bytes.length + 56 + textSize c.path + (ty.storage al).memSize * vals.length ∧
      Exact (segs ++ [s]) t' ∧ s.toc.containsRawData = true ∧
      OneChannel (ty.storage al).memSize (segs ++ [s]) c.path vals.length b m ∧
      m.dataType ∈ (ty.storage al).supported ∧ b.start + b.length ≤ t'.bytes.length ∧
      ∀ i v, vals[i]? = some v →
        Cell.value (Format.decode ty) (ty.storage al).memSize t'.bytes (b.byteOrder, b.start + i * (ty.storage al).memSize) = v := by
  have hfix := STy.fixed al ty hty
  have hnat := STy.natural_mem al ty
  have hr := replay_refines h.refines
  have hpos : 0 < vals.length := List.length_pos_iff.mpr hv
  have heq := writeChannels_eq (ty.storage al) .little hr [c] vals .contigious (by simp) (Nat.one_dvd _)
  obtain ⟨hdr, hbytes, hhdr⟩ := writtenSegment_bytes (ty.storage al) .little segs [c.path] vals .contigious
  obtain ⟨f1, f2, f3, f4, f5, f6, f7⟩ := writtenSegment_fields (ty.storage al) .little segs [c.path] vals .contigious
  have hhl : hdr.length ≤ 56 + textSize c.path := by
    rw [hhdr, f5]
    have : writtenMeta (ty.storage al) segs [c.path] (vals.length / 1) = some { objects :=
        [entryFor (entries segs) (writtenFormat (ty.storage al) (vals.length / 1)) c.path] } := if_pos hd
    show 28 + MetaData.optSize (writtenMeta (ty.storage al) segs [c.path] (vals.length / 1)) ≤ _
    rw [this]
    show 28 + (4 + ((textSize c.path + (entryFor _ _ _).rawDataIndex.size + 4 + 0) + 0)) ≤ _
    have : ∀ r : RawDataIndex, r.size ≤ 20 := by intro r; cases r <;> simp [RawDataIndex.size]
    have := this (entryFor (entries segs) (writtenFormat (ty.storage al) (vals.length / 1)) c.path).rawDataIndex
    omega
  have hdata : (vals.flatMap ((ty.storage al).write .little)).length = (ty.storage al).memSize * vals.length :=
    length_flatMap_const _ _ _ (fun v _ => STy.length_write al ty hty .little v)
  have hbl : (t.bytes ++ (writtenSegment (ty.storage al) .little segs [c.path] vals .contigious).2).length
      ≤ t.bytes.length + 56 + textSize c.path + (ty.storage al).memSize * vals.length := by
    rw [hbytes, List.length_append, List.length_append, hdata]
    omega
  have hu := uniform_fresh (S := ty.storage al) .little vals .contigious hd (by simp) hnat
  have hlen1 : vals.length / [c.path].length = vals.length := Nat.div_one _
  rw [hlen1] at hu
  obtain ⟨t', h1, h2, h3, h4, h5, h6⟩ := write_step al ty h .little [c] vals .contigious
    ⟨hty, by simp, by simp, hv, Nat.one_dvd _⟩ (m := vals.length) hu hpos (Or.inl (Nat.div_one _)) (by
      rw [heq]
      exact Nat.lt_of_le_of_lt hbl hsz)
  have hmap : [c].map ChannelPath.path = [c.path] := rfl
  rw [hmap] at h2 h3 h4 h5 h6
  have hact : active (segs ++ [(writtenSegment (ty.storage al) .little segs [c.path] vals .contigious).1]) = [c.path] := hu.active
  have hlay : layoutOf (entries (segs ++ [(writtenSegment (ty.storage al) .little segs [c.path] vals .contigious).1])) c.path =
      some (writtenFormat (ty.storage al) vals.length) := by
    rw [layout_written, if_pos ⟨hd, List.mem_singleton.mpr rfl⟩, hlen1]
  have hals : activeLayouts (segs ++ [(writtenSegment (ty.storage al) .little segs [c.path] vals .contigious).1]) =
      [writtenFormat (ty.storage al) vals.length] := by
    unfold activeLayouts
    rw [hact]
    show List.filterMap _ [c.path] = _
    rw [List.filterMap_cons, hlay]
    rfl
  have hbo := blockOf_snoc segs (writtenSegment (ty.storage al) .little segs [c.path] vals .contigious).1
  obtain ⟨bb, hbb, hin⟩ := (h4 []).inside
  have hbe := Option.some.inj ((show blockOf _ = some bb from hbb).symm.trans hbo)
  rw [List.append_nil] at hin
  have hone : OneChannel (ty.storage al).memSize
      (segs ++ [(writtenSegment (ty.storage al) .little segs [c.path] vals .contigious).1]) c.path vals.length bb
      (writtenFormat (ty.storage al) vals.length) := by
    refine ⟨hbb, hact, by rw [hbe]; exact hals, ?_, rfl, ?_, hpos, hfix.pos, ?_, ?_⟩
    · rw [hbe]
      dsimp only
      rw [f3]
      rfl
    · rw [hbe]
      show (writtenSegment (ty.storage al) .little segs [c.path] vals .contigious).1.nextSegmentOffset
        - (writtenSegment (ty.storage al) .little segs [c.path] vals .contigious).1.rawDataOffset = _
      rw [f5, f6, Nat.add_sub_cancel_left, Nat.mul_comm]
    · exact (h5 c.path).trans ((if_pos (List.mem_singleton.mpr rfl)).trans (Nat.div_one _))
    · intro p' hp'
      exact (h5 p').trans (if_neg (fun hh => hp' (List.mem_singleton.mp hh)))
  refine ⟨t', _, _, _, h1, by rw [h2]; exact hbl, h3, f1, hone, hnat, hin, ?_⟩
  intro i v hi
  have h7 := h6 c.path []
  have hidx : List.idxOf? c.path [c.path] = some 0 := by simp [List.idxOf?]
  rw [List.append_nil, hidx] at h7
  dsimp only at h7
  rw [show [c].length = 1 from rfl, column_one] at h7
  unfold lastSamples at h7
  rw [hone.block, hact, hidx, hlay, hone.own] at h7
  dsimp only at h7
  have hil := (List.getElem?_eq_some_iff.mp hi).1
  have h8 := congrArg (fun l => l[i]?) h7
  unfold DataBlock.samples at h8
  rw [List.getElem?_map, List.getElem?_range hil, hi] at h8
  have h9 := Option.some.inj h8
  rw [← h9]
  have hlc := hone.layout
  have hsz' := hfix.sizes _ hnat
  unfold Cell.value DataBlock.sampleBytes DataBlock.samplePos
  rw [hlc]
  dsimp only
  have hbo' : Format.bytesOf (writtenFormat (ty.storage al) vals.length).dataType = (ty.storage al).memSize := by
    have := Format.bytesOf_ordinary hsz'.2
    exact this.trans hsz'.1
  rw [hbo']
  show _ = Format.decode ty _ (List.take _ (List.drop (_ + i / vals.length * _ + 0 + i % vals.length * _) _))
  rw [Nat.div_eq_of_lt hil, Nat.mod_eq_of_lt hil, Nat.zero_mul, Nat.add_zero]

theorem length_zipWith_bufs {α : Type} {cs : List ChannelPath} {outs : List (List α)} (hlen : outs.length = cs.length) :
    ((cs.map ChannelPath.path).zip (outs.map List.length)).length = cs.length := by
  rw [List.length_zip, List.length_map, List.length_map]
  omega

/-- **C58, exactly.** A read of several channels that succeeds, and can be served, returns the same after all further calls that
    succeed if and only if it has ended because all its buffers have come to their end, by the progress that they
    share. (At least one buffer has room for a sample; the file ends where its last segment ends; `other` is any channel that the
    file does not have.) -/
theorem joint_read_kept_iff (al : Alloc) (ty : STy) (hty : Format.ordinaryTy ty = true) {segs : List Segment}
    {t : TdmsFile} (h : Exact segs t) (cs : List ChannelPath) (hl : ∀ c ∈ cs, Listed (entries segs) c.path) (start : Nat)
    (outs : List (List ty.Val)) (hlen : outs.length = cs.length) (hne : ∃ out ∈ outs, out ≠ [])
    (hserved : JointlyServed (ty.storage al).supported (ty.storage al).memSize t.bytes segs
      ((cs.map ChannelPath.path).zip (outs.map List.length)) start)
    (other : ChannelPath) (hother : ¬ Listed (entries segs) other.path)
    (hroom : ∀ c ∈ cs, t.bytes.length + textSize other.path + textSize c.path + 16 * start + 200 < 2 ^ 63) :
    (∀ ops, AllSucceed al t ops → (runOps al t ops).bytes.length < 2 ^ 63 →
      (runOps al t ops).readChannelsFrom (ty.storage al) cs start outs = t.readChannelsFrom (ty.storage al) cs start outs) ↔
    goesOn (ty.storage al).memSize start ((cs.map ChannelPath.path).zip (outs.map List.length)) (dataPrefixes segs)
      (((cs.map ChannelPath.path).zip (outs.map List.length)).map fun _ => 0) = none := by
  have hfixed : Format.fixedTy ty = true := by cases ty <;> first | rfl | cases hty
  constructor
  · intro hkept
    cases hgo : goesOn (ty.storage al).memSize start ((cs.map ChannelPath.path).zip (outs.map List.length)) (dataPrefixes segs)
      (((cs.map ChannelPath.path).zip (outs.map List.length)).map fun _ => 0) with
    | none => rfl
    | some prog =>
      exfalso
      have hbl := length_zipWith_bufs hlen
      have hpl := goesOn_length _ _ _ _ _ _ (List.length_map _) hgo
      -- the last buffer that has room
      have hroom0 := goesOn_room _ _ _ _ _ _ (by
        obtain ⟨out, ho, hout⟩ := hne
        obtain ⟨s, hs, hso⟩ := List.mem_iff_getElem.mp ho
        refine Bool.eq_false_iff.mpr fun hh => ?_
        have := List.all_eq_true.mp hh (((cs[s]'(by omega)).path, out.length), 0) (by
          refine List.mem_of_getElem? (i := s) ?_
          rw [List.getElem?_zip_eq_some]
          refine ⟨?_, ?_⟩
          · rw [List.getElem?_zip_eq_some]
            exact ⟨by rw [List.getElem?_map, List.getElem?_eq_getElem (by omega)]; rfl,
              by rw [List.getElem?_map, List.getElem?_eq_getElem hs, hso]; rfl⟩
          · rw [List.getElem?_map, List.getElem?_eq_getElem (by omega)]; rfl)
        have := of_decide_eq_true this
        exact hout (List.length_eq_zero_iff.mp (Nat.le_zero.mp this))) hgo
      have hany : (((cs.map ChannelPath.path).zip (outs.map List.length)).zip prog).any
          (fun x => decide (x.2 < x.1.2)) = true := by
        obtain ⟨x, hx, hx2⟩ := List.all_eq_false.mp hroom0
        refine List.any_eq_true.mpr ⟨x, hx, decide_eq_true ?_⟩
        have : ¬ x.1.2 ≤ x.2 := fun hh => hx2 (decide_eq_true hh)
        omega
      obtain ⟨s, ⟨⟨p, room⟩, q⟩, hs, hq, hlast⟩ := exists_last _ _ hany
      replace hq : q < room := of_decide_eq_true hq
      replace hlast : ∀ y ∈ (((cs.map ChannelPath.path).zip (outs.map List.length)).zip prog).drop (s + 1), y.1.2 ≤ y.2 := by
        intro y hy
        have := of_decide_eq_false (hlast y hy)
        omega
      obtain ⟨c, out, hc, ho, rfl, rfl⟩ : ∃ c out, cs[s]? = some c ∧ outs[s]? = some out ∧ c.path = p ∧ out.length = room := by
        have h1 := (List.getElem?_zip_eq_some.mp hs).1
        obtain ⟨h2, h3⟩ := List.getElem?_zip_eq_some.mp h1
        rw [List.getElem?_map, Option.map_eq_some_iff] at h2 h3
        obtain ⟨c, hc, hcp⟩ := h2
        obtain ⟨out, ho, hop⟩ := h3
        exact ⟨c, out, hc, ho, hcp, hop⟩
      have hcm := List.mem_of_getElem? hc
      have hroomc := hroom c hcm
      -- a first write to another channel
      have hr := replay_refines h.refines
      obtain ⟨t1, s1, b1, m1, hw1, hlen1, hx1, hraw1, hone1, _, _, _⟩ := single_write al .u8 rfl h other
        (fresh_diverges hr hother) [(0 : BitVec 8)] (by intro hh; cases hh) (by
          show _ + 1 * 1 < _
          omega)
      have hlen1' : t1.bytes.length ≤ t.bytes.length + 57 + textSize other.path := by
        refine Nat.le_trans hlen1 ?_
        show _ + 1 * 1 ≤ _
        omega
      have hcne : c.path ≠ other.path := by
        intro hh
        exact hother (hh ▸ hl c hcm)
      -- what the read returned
      have hread := joint_read_exact al ty hfixed h.refines (by omega) cs hl start outs hlen hserved
      have hstl : (storedFrom (ty.storage al).memSize segs ((cs.map ChannelPath.path).zip (outs.map List.length)) start).length
          = cs.length := by
        unfold storedFrom
        rw [stored_length, hbl]
      have hslt : s < cs.length := (List.getElem?_eq_some_iff.mp hc).1
      obtain ⟨old, hold⟩ : ∃ old, (List.zipWith (storeAll (Cell.value (Format.decode ty) (ty.storage al).memSize t.bytes)) outs
          (storedFrom (ty.storage al).memSize segs ((cs.map ChannelPath.path).zip (outs.map List.length)) start))[s]? = some old ∧
          old.length = out.length := by
        rw [List.getElem?_zipWith, ho, List.getElem?_eq_getElem (by omega)]
        exact ⟨_, rfl, length_storeAll _ _ _⟩
      obtain ⟨hold, holdl⟩ := hold
      -- a second write, of a value that is not there yet
      obtain ⟨v, hv⟩ := other_value hty (old[q]'(by omega))
      have hmem : (ty.storage al).memSize ≤ 16 := by
        cases ty <;> first | exact Nat.le_of_ble_eq_true rfl | cases hty
      have hd2 : Diverges (active (segs ++ [s1])) [c.path] := by
        rw [hone1.active]
        exact Or.inr ⟨(other.path, c.path), by simp, fun hh => hcne hh.symm⟩
      have hmul : (ty.storage al).memSize * (start + 1) ≤ 16 * (start + 1) := Nat.mul_le_mul_right _ hmem
      obtain ⟨t2, s2, b2, m2, hw2, hlen2, hx2, hraw2, hone2, hm2, hin2, hval2⟩ := single_write al ty hty hx1 c hd2
        (List.replicate (start + 1) v) (by intro hh; cases hh) (by rw [List.length_replicate]; omega)
      rw [List.length_replicate] at hlen2 hone2
      have hops : AllSucceed al t [.write .little .u8 [other] [(0 : BitVec 8)] .contigious,
          .write .little ty [c] (List.replicate (start + 1) v) .contigious] := by
        rw [allSucceed_cons]
        refine ⟨congrArg Prod.fst hw1, ?_⟩
        have : ((Op.write .little .u8 [other] [(0 : BitVec 8)] .contigious).run al t).2 = t1 := congrArg Prod.snd hw1
        rw [this, allSucceed_cons]
        exact ⟨congrArg Prod.fst hw2, fun pre op post hh => by cases pre <;> cases hh⟩
      have hrun : runOps al t [.write .little .u8 [other] [(0 : BitVec 8)] .contigious,
          .write .little ty [c] (List.replicate (start + 1) v) .contigious] = t2 := by
        have : ((Op.write .little .u8 [other] [(0 : BitVec 8)] .contigious).run al t).2 = t1 := congrArg Prod.snd hw1
        rw [runOps_cons, this, runOps_cons]
        exact congrArg Prod.snd hw2
      have hsz2 : t2.bytes.length < 2 ^ 63 := by omega
      have hk := hkept _ hops (by rw [hrun]; exact hsz2)
      rw [hrun] at hk
      -- the further segments
      have hdp : dataPrefixes (segs ++ [s1, s2]) = dataPrefixes segs ++ [segs ++ [s1], segs ++ [s1] ++ [s2]] := by
        rw [show segs ++ [s1, s2] = segs ++ [s1] ++ [s2] by simp, dataPrefixes_snoc, hraw2, if_pos rfl, dataPrefixes_snoc,
          hraw1, if_pos rfl, List.append_assoc]
        rfl
      have hnone1 : ((cs.map ChannelPath.path).zip (outs.map List.length)).any
          (fun x => wanted (segs ++ [s1]) start x.1) = false := by
        refine Bool.eq_false_iff.mpr fun hh => ?_
        obtain ⟨x, hx, hxw⟩ := List.any_eq_true.mp hh
        have hx1 := (of_decide_eq_true hxw).1
        have hxp : x.1 = other.path := Classical.byContradiction fun hn => by
          rw [hone1.others _ hn] at hx1; omega
        obtain ⟨d, hd, hdx⟩ := List.mem_map.mp (List.of_mem_zip (show (x.1, x.2) ∈ _ from hx)).1
        exact hother (hxp ▸ hdx ▸ hl d hd)
      have hcount : sampleCount (segs ++ [s1] ++ [s2]) c.path = sampleCount (segs ++ [s1]) c.path + (start + 1) := by
        rw [sampleCount_snoc, hraw2, if_pos rfl, hone2.own]
      have hdl : (segs ++ [s1] ++ [s2]).dropLast = segs ++ [s1] := List.dropLast_concat
      obtain ⟨hst2, hsv2⟩ := hone2.stored hm2 hin2 hsz2 (start := start) (by omega) (by rw [hdl]; omega)
        ((cs.map ChannelPath.path).zip (outs.map List.length)) prog hpl hs hq hlast
      rw [hdl] at hst2
      have hskip1 : ∀ (g : List (List Segment)),
          SegSpec.stored (ty.storage al).memSize start ((cs.map ChannelPath.path).zip (outs.map List.length)) ((segs ++ [s1]) :: g) prog =
          SegSpec.stored (ty.storage al).memSize start ((cs.map ChannelPath.path).zip (outs.map List.length)) g prog := by
        intro g
        rw [SegSpec.stored, hone1.block]
        dsimp only
        rw [hnone1]
        rfl
      have hskip2 : ∀ (g : List (List Segment)),
          readBlocks (ty.storage al).memSize start ((cs.map ChannelPath.path).zip (outs.map List.length)) ((segs ++ [s1]) :: g) prog =
          readBlocks (ty.storage al).memSize start ((cs.map ChannelPath.path).zip (outs.map List.length)) g prog := by
        intro g
        rw [readBlocks, hone1.block]
        dsimp only
        rw [hnone1]
        rfl
      have hpre : t.bytes <+: t2.bytes := by
        rw [← hrun]
        obtain ⟨⟨g, hg⟩, _⟩ := (later al [.write .little .u8 [other] [(0 : BitVec 8)] .contigious,
          .write .little ty [c] (List.replicate (start + 1) v) .contigious] t).1
        exact ⟨g, hg.symm⟩
      have hserved2 : JointlyServed (ty.storage al).supported (ty.storage al).memSize t2.bytes (segs ++ [s1, s2])
          ((cs.map ChannelPath.path).zip (outs.map List.length)) start := by
        intro x hx
        rw [hdp, readBlocks_append, hgo] at hx
        rcases List.mem_append.mp hx with hx | hx
        · have := hserved x hx
          refine { this with inside := ?_ }
          exact Nat.le_trans this.inside hpre.length_le
        · rw [hskip2] at hx
          exact hsv2 x hx
      obtain ⟨res, hres, hres2⟩ := joint_read_continued al ty hfixed (more := [s1, s2]) h.refines
        (by rw [show segs ++ [s1, s2] = segs ++ [s1] ++ [s2] by simp]; exact hx2.refines) hpre hsz2 cs hl start outs hlen
        hserved hserved2 hgo
      rw [hk, hread, hdp, List.drop_left, hskip1] at hres2
      rw [hread] at hres
      have hres := Except.ok.inj hres
      have hfin := congrArg (fun l : List (List ty.Val) => l[s]?) (Except.ok.inj hres2)
      rw [← hres, hold, List.getElem?_zipWith, hold, hst2] at hfin
      dsimp only at hfin
      have hfin2 := congrArg (fun l : List ty.Val => l[q]?) (Option.some.inj hfin)
      obtain ⟨k, hkk⟩ : ∃ k, out.length - q = k + 1 := ⟨out.length - q - 1, by omega⟩
      have hdrop : (List.range (start + 1)).drop (start - sampleCount (segs ++ [s1]) c.path) =
          (start - sampleCount (segs ++ [s1]) c.path) ::
            (List.range (start + 1)).drop (start - sampleCount (segs ++ [s1]) c.path + 1) := by
        rw [List.drop_eq_getElem_cons (by rw [List.length_range]; omega), List.getElem_range]
      rw [hdrop, List.map_cons, hkk, List.take_succ_cons, storeAll_here _ _ _ _ _ _ (by omega),
        hval2 _ v (by rw [List.getElem?_replicate_of_lt (by omega)]), List.getElem?_eq_getElem (by omega)] at hfin2
      exact hv (Option.some.inj hfin2).symm
  · intro hstop ops hok hsz
    obtain ⟨more, hm⟩ := replay_runOps al ops h.refines hok
    obtain ⟨⟨g, hg⟩, _⟩ := (later al ops t).1
    obtain ⟨res, h1, h2⟩ := joint_read_stopped_partial al ty hfixed h.refines hm ⟨g, hg.symm⟩ hsz cs hl start outs hlen
      hserved hstop
    rw [h1, h2]

/-- The hypotheses hold for the file of `joint_read_changes_counterexample`, in which `a` and `b` have three samples each.
    Buffers of three cells each are safe. With three cells for `a` and one for `b`, both are filled as well, and yet there
    are calls that change what the read returns. -/
theorem joint_read_kept_example : ∃ segs t, Exact segs t ∧ t = session [writeU16 ["a", "b"] [1, 2, 3, 4, 5, 6]] ∧
    t.readChannelsFrom (STy.u16.storage anyAlloc) [chan "a", chan "b"] 0 [vals16 [0, 0, 0], vals16 [0, 0, 0]] =
      .ok [vals16 [1, 2, 3], vals16 [4, 5, 6]] ∧
    (∀ ops, AllSucceed anyAlloc t ops → (runOps anyAlloc t ops).bytes.length < 2 ^ 63 →
      (runOps anyAlloc t ops).readChannelsFrom (STy.u16.storage anyAlloc) [chan "a", chan "b"] 0
        [vals16 [0, 0, 0], vals16 [0, 0, 0]] =
      t.readChannelsFrom (STy.u16.storage anyAlloc) [chan "a", chan "b"] 0 [vals16 [0, 0, 0], vals16 [0, 0, 0]]) ∧
    t.readChannelsFrom (STy.u16.storage anyAlloc) [chan "a", chan "b"] 0 [vals16 [0, 0, 0], vals16 [0]] =
      .ok [vals16 [1, 2, 3], vals16 [4]] ∧
    ¬ ∀ ops, AllSucceed anyAlloc t ops → (runOps anyAlloc t ops).bytes.length < 2 ^ 63 →
      (runOps anyAlloc t ops).readChannelsFrom (STy.u16.storage anyAlloc) [chan "a", chan "b"] 0 [vals16 [0, 0, 0], vals16 [0]] =
      t.readChannelsFrom (STy.u16.storage anyAlloc) [chan "a", chan "b"] 0 [vals16 [0, 0, 0], vals16 [0]] := by
  let s : Segment := (writtenSegment (STy.u16.storage anyAlloc) .little [] [(chan "a").path, (chan "b").path]
    (vals16 [1, 2, 3, 4, 5, 6]) .contigious).1
  have hx : Exact [s] (session [writeU16 ["a", "b"] [1, 2, 3, 4, 5, 6]]) := by
    refine ⟨?_, ?_⟩
    · show replay Index.new [s] = _
      decide +kernel
    · show endOf [s] = _
      decide +kernel
  have hl : ∀ c ∈ [chan "a", chan "b"], Listed (entries [s]) c.path := by unfold Listed; decide +kernel
  have hother : ¬ Listed (entries [s]) (chan "c").path := by unfold Listed; decide +kernel
  have hroom : ∀ c ∈ [chan "a", chan "b"], (session [writeU16 ["a", "b"] [1, 2, 3, 4, 5, 6]]).bytes.length +
      textSize (chan "c").path + textSize c.path + 16 * 0 + 200 < 2 ^ 63 := by decide +kernel
  refine ⟨[s], _, hx, rfl, by decide +kernel, ?_, by decide +kernel, ?_⟩
  · refine (joint_read_kept_iff anyAlloc .u16 rfl hx [chan "a", chan "b"] hl 0 [vals16 [0, 0, 0], vals16 [0, 0, 0]] rfl
      ⟨_, List.mem_cons_self, by decide⟩ (jointlyServed_of ?_) (chan "c") hother hroom).mpr ?_
    · decide +kernel
    · decide +kernel
  · intro hh
    have := (joint_read_kept_iff anyAlloc .u16 rfl hx [chan "a", chan "b"] hl 0 [vals16 [0, 0, 0], vals16 [0]] rfl
      ⟨_, List.mem_cons_self, by decide⟩ (jointlyServed_of (by decide +kernel)) (chan "c") hother hroom).mp hh
    revert this
    decide +kernel

end Tedium
