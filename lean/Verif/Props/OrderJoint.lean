import Verif.Props.OrderReads

/-! # C43: the byte order of a file and reads of several channels -/

namespace Tedium
open PlanSpec SegSpec

/-- Two lists, entry by entry. -/
inductive Paired {β γ : Type} (P : β → γ → Prop) : List β → List γ → Prop
  | nil : Paired P [] []
  | cons {x : β} {y : γ} {xs : List β} {ys : List γ} : P x y → Paired P xs ys → Paired P (x :: xs) (y :: ys)

namespace Paired
variable {β γ : Type} {P Q : β → γ → Prop}

theorem mono (h : ∀ x y, P x y → Q x y) {xs : List β} {ys : List γ} (hp : Paired P xs ys) : Paired Q xs ys := by
  induction hp with
  | nil => exact .nil
  | cons h1 _ ih => exact .cons (h _ _ h1) ih

theorem append {xs xs' : List β} {ys ys' : List γ} (h : Paired P xs ys) (h' : Paired P xs' ys') :
    Paired P (xs ++ xs') (ys ++ ys') := by
  induction h with
  | nil => exact h'
  | cons h1 _ ih => exact .cons h1 ih

theorem of_map {δ : Type} {f : δ → β} {g : δ → γ} : ∀ l : List δ, (∀ x ∈ l, P (f x) (g x)) → Paired P (l.map f) (l.map g)
  | [], _ => .nil
  | x :: l, h => .cons (h x List.mem_cons_self) (of_map l fun y hy => h y (List.mem_cons_of_mem _ hy))

theorem zipWith {β' γ' : Type} {P' : β' → γ' → Prop} {β'' γ'' : Type} {P'' : β'' → γ'' → Prop} {f : β → β' → β''}
    {g : γ → γ' → γ''} (hfg : ∀ x y x' y', P x y → P' x' y' → P'' (f x x') (g y y')) {xs : List β} {ys : List γ}
    (h : Paired P xs ys) : ∀ {xs' : List β'} {ys' : List γ'}, Paired P' xs' ys' →
      Paired P'' (List.zipWith f xs xs') (List.zipWith g ys ys') := by
  induction h with
  | nil => intro _ _ _; exact .nil
  | cons h1 _ ih =>
    intro _ _ h'
    cases h' with
    | nil => exact .nil
    | cons h2 h3 => exact .cons (hfg _ _ _ _ h1 h2) (ih h3)

/-- With the members themselves. -/
theorem mem {xs : List β} {ys : List γ} (h : Paired P xs ys) : Paired (fun x y => P x y ∧ x ∈ xs ∧ y ∈ ys) xs ys := by
  induction h with
  | nil => exact .nil
  | cons h1 _ ih =>
    exact .cons ⟨h1, List.mem_cons_self, List.mem_cons_self⟩
      (ih.mono fun x y ⟨a, b, c⟩ => ⟨a, List.mem_cons_of_mem _ b, List.mem_cons_of_mem _ c⟩)

theorem storeAll {α : Type} {v v' : Cell → α} {as as' : List (Nat × Cell)}
    (h : Paired (fun a a' => a.1 = a'.1 ∧ v a.2 = v' a'.2) as as') : ∀ out : List α,
    SegSpec.storeAll v out as = SegSpec.storeAll v' out as' := by
  induction h with
  | nil => intro out; rfl
  | cons h1 _ ih =>
    intro out
    unfold SegSpec.storeAll at ih ⊢
    rw [List.foldl_cons, List.foldl_cons, h1.1, h1.2]
    exact ih _

end Paired

/-- Two prefixes of segments that agree apart from byte orders. -/
def Alike (pre pre' : List Segment) : Prop := pre.map Segment.plain = pre'.map Segment.plain

namespace Alike
variable {pre pre' : List Segment}

theorem active (h : Alike pre pre') : SegSpec.active pre' = SegSpec.active pre := by
  rw [← active_plain, ← show pre.map Segment.plain = pre'.map Segment.plain from h, active_plain]

theorem entries (h : Alike pre pre') : SegSpec.entries pre' = SegSpec.entries pre := by
  rw [← entries_plain, ← show pre.map Segment.plain = pre'.map Segment.plain from h, entries_plain]

theorem samplesIn (h : Alike pre pre') (p : Text) : SegSpec.samplesIn pre' p = SegSpec.samplesIn pre p := by
  rw [← samplesIn_plain, ← show pre.map Segment.plain = pre'.map Segment.plain from h, samplesIn_plain]

theorem sampleCount (h : Alike pre pre') (p : Text) : SegSpec.sampleCount pre' p = SegSpec.sampleCount pre p := by
  rw [← sampleCount_plain, ← show pre.map Segment.plain = pre'.map Segment.plain from h, sampleCount_plain]

theorem dropLast (h : Alike pre pre') : Alike pre.dropLast pre'.dropLast := by
  unfold Alike
  rw [List.map_dropLast, List.map_dropLast, show pre.map Segment.plain = pre'.map Segment.plain from h]

theorem blockOf (h : Alike pre pre') : (SegSpec.blockOf pre).map DataBlock.plain = (SegSpec.blockOf pre').map DataBlock.plain := by
  rw [← blockOf_plain, show pre.map Segment.plain = pre'.map Segment.plain from h, blockOf_plain]

theorem wanted (h : Alike pre pre') (start : Nat) (p : Text) : SegSpec.wanted pre' start p = SegSpec.wanted pre start p := by
  unfold SegSpec.wanted
  rw [h.samplesIn, h.sampleCount]

theorem takers (h : Alike pre pre') (start : Nat) (bufs : List Buffer) (prog : List Nat) :
    SegSpec.takers pre' start bufs prog = SegSpec.takers pre start bufs prog := by
  unfold SegSpec.takers
  apply List.map_congr_left
  intro x _
  unfold takerOf
  rw [h.wanted, h.active, h.dropLast.sampleCount]

theorem progressed (h : Alike pre pre') (start : Nat) (bufs : List Buffer) (prog : List Nat) (n : Nat) :
    SegSpec.progressed pre' start bufs prog n = SegSpec.progressed pre start bufs prog n := by
  unfold SegSpec.progressed
  apply List.map_congr_left
  intro x _
  rw [h.wanted]

end Alike

theorem counted_plain (b : DataBlock) (w : Nat) (ts : List Taker) : b.plain.counted w ts = b.counted w ts := rfl

theorem offered_plain (b : DataBlock) (w : Nat) (ts : List Taker) (i : Nat) : b.plain.offered w ts i = b.offered w ts i := rfl

/-- A value of one file and a value of the other: for the same cell of a buffer, at the same position, in segments with the same
    number, in the byte orders of these. -/
def SameCell (w : Nat) (pres pres' : List (List Segment)) (a a' : Nat × Cell) : Prop :=
  a.1 = a'.1 ∧ a.2.2 = a'.2.2 ∧ ∃ (k : Nat) (pre pre' : List Segment) (b b' : DataBlock), pres[k]? = some pre ∧ pres'[k]? = some pre' ∧ blockOf pre = some b ∧
    blockOf pre' = some b' ∧ a.2.1 = b.byteOrder ∧ a'.2.1 = b'.byteOrder ∧ b.start ≤ a.2.2 ∧ a.2.2 + w ≤ b.start + b.length

theorem SameCell.later {w : Nat} {pres pres' : List (List Segment)} {x x' : List Segment} {a a' : Nat × Cell}
    (h : SameCell w pres pres' a a') : SameCell w (x :: pres) (x' :: pres') a a' := by
  obtain ⟨h1, h2, k, pre, pre', b, b', h3, h4, h5⟩ := h
  exact ⟨h1, h2, k + 1, pre, pre', b, b', h3, h4, h5⟩

theorem storedIn_paired {w : Nat} {pre pre' : List Segment} {pres pres' : List (List Segment)} {b b' : DataBlock}
    (hb : blockOf pre = some b) (hb' : blockOf pre' = some b') (hbb : b.plain = b'.plain) (tks : List (Option Taker))
    (prog : List Nat) (s : Nat) :
    Paired (SameCell w (pre :: pres) (pre' :: pres')) (storedIn b w tks prog s) (storedIn b' w tks prog s) := by
  unfold storedIn
  cases ht : tks[s]? with
  | none => exact .nil
  | some ot =>
    cases ot with
    | none => exact .nil
    | some t =>
      dsimp only
      split
      · exact .nil
      · rw [← offered_plain b', ← hbb, offered_plain]
        have hc : ((tks.filterMap id).map (·.chan)).contains t.chan = true :=
          List.contains_iff_mem.mpr (List.mem_map_of_mem (List.mem_filterMap.mpr ⟨some t, List.mem_of_getElem? ht, rfl⟩))
        have hin : ∀ p ∈ (b.offered w (tks.filterMap id) t.chan).take t.room, b.start ≤ p ∧ p + w ≤ b.start + b.length :=
          fun p hp => DataBlock.offered_inside hc (List.mem_of_mem_take hp)
        generalize (b.offered w (tks.filterMap id) t.chan).take t.room = l at hin
        have gen : ∀ (l : List Nat) (n : Nat), (∀ p ∈ l, b.start ≤ p ∧ p + w ≤ b.start + b.length) →
            Paired (SameCell w (pre :: pres) (pre' :: pres')) (l.mapIdx fun k p => (n + k, b.byteOrder, p))
              (l.mapIdx fun k p => (n + k, b'.byteOrder, p)) := by
          intro l
          induction l with
          | nil => intro n _; exact .nil
          | cons p l ih =>
            intro n hl
            rw [List.mapIdx_cons, List.mapIdx_cons]
            refine .cons ⟨rfl, rfl, 0, pre, pre', b, b', rfl, rfl, hb, hb', rfl, rfl, hl p List.mem_cons_self⟩ ?_
            have := ih (n + 1) fun q hq => hl q (List.mem_cons_of_mem _ hq)
            simpa [Nat.add_assoc, Nat.add_comm, Nat.add_left_comm] using this
        exact gen l _ hin

theorem stored_paired (w start : Nat) (bufs : List Buffer) : ∀ (pres pres' : List (List Segment)) (prog : List Nat),
    Paired Alike pres pres' →
    Paired (Paired (SameCell w pres pres')) (stored w start bufs pres prog) (stored w start bufs pres' prog) := by
  intro pres pres' prog h
  induction h generalizing prog with
  | nil =>
    unfold stored
    exact Paired.of_map bufs fun _ _ => .nil
  | @cons pre pre' pres pres' hp _ ih =>
    have later : ∀ prog, Paired (Paired (SameCell w (pre :: pres) (pre' :: pres'))) (stored w start bufs pres prog)
        (stored w start bufs pres' prog) :=
      fun prog => (ih prog).mono fun x y hxy => hxy.mono fun a a' ha => ha.later
    have hblk := hp.blockOf
    unfold stored
    cases hb : blockOf pre with
    | none =>
      cases hb' : blockOf pre' with
      | none => exact later prog
      | some b' => rw [hb, hb'] at hblk; cases hblk
    | some b =>
      cases hb' : blockOf pre' with
      | none => rw [hb, hb'] at hblk; cases hblk
      | some b' =>
        rw [hb, hb'] at hblk
        have hbb : b.plain = b'.plain := Option.some.inj hblk
        dsimp only
        have hany : (bufs.any fun x => wanted pre' start x.1) = bufs.any fun x => wanted pre start x.1 := by
          congr 1; funext x; exact hp.wanted start x.1
        rw [hany, hp.takers, hp.progressed, ← counted_plain b', ← hbb, counted_plain]
        have now : Paired (Paired (SameCell w (pre :: pres) (pre' :: pres')))
            ((List.range bufs.length).map (storedIn b w (takers pre start bufs prog) prog))
            ((List.range bufs.length).map (storedIn b' w (takers pre start bufs prog) prog)) :=
          Paired.of_map _ fun s _ => storedIn_paired hb hb' hbb _ prog s
        split
        · split
          · exact now
          · exact now.zipWith (fun _ _ _ _ h1 h2 => h1.append h2) (later _)
        · exact later prog

theorem paired_of_map {pres pres' : List (List Segment)}
    (h : pres.map (List.map Segment.plain) = pres'.map (List.map Segment.plain)) : Paired Alike pres pres' := by
  induction pres generalizing pres' with
  | nil => cases pres' with
    | nil => exact .nil
    | cons _ _ => cases h
  | cons x xs ih =>
    cases pres' with
    | nil => cases h
    | cons y ys =>
      rw [List.map_cons, List.map_cons] at h
      exact .cons (List.cons.inj h).1 (ih (List.cons.inj h).2)

theorem readBlocks_paired (w start : Nat) (bufs : List Buffer) : ∀ (pres pres' : List (List Segment)) (prog : List Nat),
    Paired Alike pres pres' →
    Paired (fun x x' : DataBlock × List Taker => x.1.plain = x'.1.plain ∧ x.2 = x'.2) (readBlocks w start bufs pres prog)
      (readBlocks w start bufs pres' prog) := by
  intro pres pres' prog h
  induction h generalizing prog with
  | nil => exact .nil
  | @cons pre pre' pres pres' hp _ ih =>
    have hblk := hp.blockOf
    unfold readBlocks
    cases hb : blockOf pre with
    | none =>
      cases hb' : blockOf pre' with
      | none => exact ih prog
      | some b' => rw [hb, hb'] at hblk; cases hblk
    | some b =>
      cases hb' : blockOf pre' with
      | none => rw [hb, hb'] at hblk; cases hblk
      | some b' =>
        rw [hb, hb'] at hblk
        have hbb : b.plain = b'.plain := Option.some.inj hblk
        dsimp only
        have hany : (bufs.any fun x => wanted pre' start x.1) = bufs.any fun x => wanted pre start x.1 := by
          congr 1; funext x; exact hp.wanted start x.1
        rw [hany, hp.takers, hp.progressed, ← counted_plain b', ← hbb, counted_plain]
        split
        · refine .cons ⟨hbb, rfl⟩ ?_
          split
          · exact .nil
          · exact ih _
        · exact ih prog

theorem Paired.right {β γ : Type} {P : β → γ → Prop} {xs : List β} {ys : List γ} (h : Paired P xs ys) {y : γ} (hy : y ∈ ys) :
    ∃ x ∈ xs, P x y := by
  induction h with
  | nil => cases hy
  | cons h1 _ ih =>
    rcases List.mem_cons.mp hy with rfl | hy
    · exact ⟨_, List.mem_cons_self, h1⟩
    · obtain ⟨x, hx, hp⟩ := ih hy
      exact ⟨x, List.mem_cons_of_mem _ hx, hp⟩

/-- Which reads can be served does not depend on byte orders. -/
theorem jointlyServed_order {supported : List DataType} {w : Nat} {f f' : Bytes} {segs segs' : List Segment}
    {bufs : List Buffer} {start : Nat} (hs : JointlyServed supported w f segs bufs start)
    (h : Paired Alike (dataPrefixes segs) (dataPrefixes segs')) (hl : f.length = f'.length) :
    JointlyServed supported w f' segs' bufs start := by
  intro x' hx'
  obtain ⟨x, hx, hb, hts⟩ := (readBlocks_paired w start bufs _ _ _ h).right hx'
  have e : ∀ b : DataBlock, b.ServesTakers supported w f x.2 → b.plain.ServesTakers supported w f' x.2 := by
    intro b hb
    exact ⟨hb.typed, by rw [← hl]; exact hb.inside, hb.contiguous, hb.interleaved⟩
  have e' : ∀ b : DataBlock, b.plain.ServesTakers supported w f' x.2 → b.ServesTakers supported w f' x.2 := by
    intro b hb
    exact ⟨hb.typed, hb.inside, hb.contiguous, hb.interleaved⟩
  rw [← hts]
  apply e'
  rw [← hb]
  exact e _ (hs x hx)

/-- **C43, data, reads of several channels** (partial: not for strings and extended floats, and what the read stores has to be values of
    the file). Two files have the same segments apart from byte orders, and every value is stored in the byte order of its
    segment. If a read of several channels of the first file can be served and stores values of the file, right or
    wrong, then the same read of the second file gives the same. -/
theorem byte_order_joint_read_partial (al : Alloc) (hal : Generous al) (ty : STy) (hty : Format.fixedTy ty = true)
    (fs fs' : List FileSegment) (hf : ∀ s ∈ fs, s.Fits) (hf' : ∀ s ∈ fs', s.Fits)
    (h : fs.map FileSegment.shape = fs'.map FileSegment.shape)
    (hv : SameValues (fileOf fs) (fs.map FileSegment.segment) (fileOf fs') (fs'.map FileSegment.segment))
    (hlen : (fileOf fs).length < 2 ^ 63) {t : TdmsFile} (ht : TdmsFile.new al (fileOf fs) = .ok t)
    (cs : List ChannelPath) (hl : ∀ c ∈ cs, Listed (entries (fs.map FileSegment.segment)) c.path) (start : Nat)
    (ns : List Nat) (hns : ns.length = cs.length)
    (hserved : JointlyServed (ty.storage al).supported (ty.storage al).memSize (fileOf fs) (fs.map FileSegment.segment)
      ((cs.map ChannelPath.path).zip ns) start)
    (hvals : StoresValues (ty.storage al).supported (ty.storage al).memSize (fs.map FileSegment.segment)
      ((cs.map ChannelPath.path).zip ns) start) :
    ∃ t', TdmsFile.new al (fileOf fs') = .ok t' ∧ ∀ outs, outs.map List.length = ns →
      t'.readChannelsFrom (ty.storage al) cs start outs = t.readChannelsFrom (ty.storage al) cs start outs := by
  have hplain := plain_segments_of_shape h
  have hlen' := length_of_shape h
  rcases byte_order_structure al hal fs fs' hf hf' h with ⟨e, he, _⟩ | ⟨t0, t', h0, h', _⟩
  · rw [he] at ht; cases ht
  rw [h0] at ht
  cases ht
  refine ⟨t', h', fun outs hout => ?_⟩
  have idx : ∀ (l : List FileSegment) (u : TdmsFile), (∀ s ∈ l, s.Fits) → TdmsFile.new al (fileOf l) = .ok u →
      u.bytes = fileOf l ∧ replay Index.new (l.map FileSegment.segment) = .ok u.index := by
    intro l u hfl hu
    unfold TdmsFile.new at hu
    rw [open_fileOf al hal l hfl] at hu
    cases hr : replay Index.new (l.map FileSegment.segment) with
    | error e => rw [hr] at hu; cases hu
    | ok ix => rw [hr] at hu; cases hu; exact ⟨rfl, rfl⟩
  obtain ⟨hb, hi⟩ := idx fs t hf h0
  obtain ⟨hb', hi'⟩ := idx fs' t' hf' h'
  generalize fs.map FileSegment.segment = segs at *
  generalize fs'.map FileSegment.segment = segs' at *
  have hpre : Paired Alike (dataPrefixes segs) (dataPrefixes segs') :=
    paired_of_map (by rw [← dataPrefixes_plain, ← dataPrefixes_plain, hplain])
  have holen : outs.length = cs.length := by rw [← hns, ← hout, List.length_map]
  rw [joint_read_exact al ty hty hi (by rw [hb]; exact hlen) cs hl start outs holen (by rw [hb, hout]; exact hserved),
    joint_read_exact al ty hty hi' (by rw [hb', ← hlen']; exact hlen) cs
      (fun c hc => by rw [← entries_plain, ← hplain, entries_plain]; exact hl c hc) start outs holen
      (by rw [hb', hout]; exact jointlyServed_order hserved hpre hlen'), hb, hb', hout]
  congr 1
  have hst := (stored_paired (ty.storage al).memSize start ((cs.map ChannelPath.path).zip ns) _ _
    (((cs.map ChannelPath.path).zip ns).map fun _ => 0) hpre).mem
  have hst : Paired (fun as as' => Paired (fun a a' => a.1 = a'.1 ∧
      Cell.value (Format.decode ty) (ty.storage al).memSize (fileOf fs) a.2 =
      Cell.value (Format.decode ty) (ty.storage al).memSize (fileOf fs') a'.2) as as')
      (storedFrom (ty.storage al).memSize segs ((cs.map ChannelPath.path).zip ns) start)
      (storedFrom (ty.storage al).memSize segs' ((cs.map ChannelPath.path).zip ns) start) := by
    refine hst.mono fun as as' ⟨hp, hm, _⟩ => hp.mem.mono fun a a' ⟨⟨h1, h2, k, pre, pre', b, b', hk, hk', hbl, hbl', ho, ho', hin1, hin2⟩, hma, _⟩ => ⟨h1, ?_⟩
    have hw0 : 0 < (ty.storage al).memSize := (STy.reads_fixed al ty hty).1.pos
    obtain ⟨q, j, m, s, hq, hm', hsup, hsm, hpos⟩ := hvals pre (List.mem_of_getElem? hk) b hbl as hm a hma hin1 (by omega)
    have hblk := (show Alike pre pre' by
      have := congrArg (fun l : List (List Segment) => l[k]?) (show (dataPrefixes segs).map (List.map Segment.plain) =
        (dataPrefixes segs').map (List.map Segment.plain) by rw [← dataPrefixes_plain, ← dataPrefixes_plain, hplain])
      rw [List.getElem?_map, List.getElem?_map, hk, hk'] at this
      exact Option.some.inj this).blockOf
    rw [hbl, hbl'] at hblk
    have hbb : b.plain = b'.plain := Option.some.inj hblk
    have hsp : b'.samplePos j m s = b.samplePos j m s := by
      have h1 : ∀ x : DataBlock, x.samplePos j m s = x.plain.samplePos j m s := fun _ => rfl
      rw [h1 b', h1 b, hbb]
    have hw := bytesOf_fixed al ty hty _ hsup
    have hval := hv k pre pre' b b' hk hk' hbl hbl' q j m s hq hm' hsm
    unfold DataBlock.sampleBytes at hval
    rw [hsp, hw, ← hpos] at hval
    unfold Cell.value
    rw [ho, ho', ← h2, hval]
    split
    · rename_i heq; rw [heq]
    · rename_i hne
      rw [decode_swapped al ty hsup hne]
      rw [hw]
      exact List.length_take_le _ _
  clear hvals hserved hv
  generalize storedFrom (ty.storage al).memSize segs ((cs.map ChannelPath.path).zip ns) start = l at hst
  generalize storedFrom (ty.storage al).memSize segs' ((cs.map ChannelPath.path).zip ns) start = l' at hst
  clear hout holen
  induction hst generalizing outs with
  | nil => rw [List.zipWith_nil_right, List.zipWith_nil_right]
  | cons h1 _ ih =>
    cases outs with
    | nil => rfl
    | cons out outs =>
      rw [List.zipWith_cons_cons, List.zipWith_cons_cons, h1.storeAll out, ih outs]

/-! ## Example -/

theorem storesValues_of {supported : List DataType} {w : Nat} {segs : List Segment} {bufs : List Buffer} {start : Nat}
    (h : ∀ pre ∈ dataPrefixes segs, ∀ b ∈ blockOf pre, ∀ as ∈ storedFrom w segs bufs start, ∀ a ∈ as,
      b.start ≤ a.2.2 → a.2.2 < b.start + b.length →
      ∃ j < (active pre).length, ∃ q ∈ (active pre)[j]?, ∃ m ∈ layoutOf (entries pre) q,
        m.dataType ∈ supported ∧ ∃ s < samplesIn pre q, a.2.2 = b.samplePos j m s) :
    StoresValues supported w segs bufs start := by
  intro pre hp b hb as has a ha h1 h2
  obtain ⟨j, _, q, hq, m, hm, hs, s, hsm, hds⟩ := h pre hp b hb as has a ha h1 h2
  exact ⟨q, j, m, s, hq, hm, hs, hsm, hds⟩

/-- Two segments, contiguous and interleaved, with two channels each. -/
def pairFile : List FileSegment :=
  [dataSegment .little false [("a", .u16, 1), ("b", .u16, 1)] [1, 0, 2, 0, 3, 0, 4, 0],
   dataSegment .big true [("a", .u16, 1), ("b", .u16, 1)] [0, 5, 0, 6, 0, 7, 0, 8]]

/-- The same in the other byte orders. -/
def pairFileSwapped : List FileSegment :=
  [dataSegment .big false [("a", .u16, 1), ("b", .u16, 1)] [0, 1, 0, 2, 0, 3, 0, 4],
   dataSegment .little true [("a", .u16, 1), ("b", .u16, 1)] [5, 0, 6, 0, 7, 0, 8, 0]]

set_option synthInstance.maxSize 1024 in
set_option synthInstance.maxHeartbeats 400000 in
/-- The hypotheses of `byte_order_joint_read_partial` hold for a read from the second sample on into three cells each. -/
theorem byte_order_joint_read_example :
    pairFile.map FileSegment.shape = pairFileSwapped.map FileSegment.shape ∧
    SameValues (fileOf pairFile) (pairFile.map FileSegment.segment)
      (fileOf pairFileSwapped) (pairFileSwapped.map FileSegment.segment) ∧
    JointlyServed (STy.u16.storage anyAlloc).supported (STy.u16.storage anyAlloc).memSize (fileOf pairFile)
      (pairFile.map FileSegment.segment) [((chan "a").path, 3), ((chan "b").path, 3)] 1 ∧
    StoresValues (STy.u16.storage anyAlloc).supported (STy.u16.storage anyAlloc).memSize
      (pairFile.map FileSegment.segment) [((chan "a").path, 3), ((chan "b").path, 3)] 1 ∧
    readManyFrom .u16 (fileOf pairFile) ["a", "b"] 1 [vals16 [0, 0, 0], vals16 [0, 0, 0]] = .ok [vals16 [3, 5, 7], vals16 [4, 6, 8]] ∧
    readManyFrom .u16 (fileOf pairFileSwapped) ["a", "b"] 1 [vals16 [0, 0, 0], vals16 [0, 0, 0]] =
      .ok [vals16 [3, 5, 7], vals16 [4, 6, 8]] := by
  refine ⟨by decide +kernel, sameValues_of (by decide +kernel), jointlyServed_of (by decide +kernel),
    storesValues_of (by decide +kernel), by decide +kernel, by decide +kernel⟩

end Tedium
