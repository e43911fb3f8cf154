import Verif.Proofs.OwnType

/-! # C84: sample types of one's own -/

namespace Tedium
open SegSpec WriteSpec

section
variable {α : Type} {al : Alloc} {S : Storage α} {ty : STy} {dec : Endian → Bytes → α}

/-- **C84, writing.** A write of values of one's own type is the write of the values of the library's type that have the same
    bytes: the outcome, the file and the index are the same. So what is proved of files that are written with the
    library's types holds for files that are written with one's own. -/
theorem own_write_native (h : StandsFor al S ty dec) : ∃ native : Endian → α → ty.Val,
    (∀ e v, (ty.storage al).write e (native e v) = S.write e v) ∧
    (∀ e t chs vals layout, TdmsFile.writeChannels S e t chs vals layout
      = TdmsFile.writeChannels (ty.storage al) e t chs (vals.map (native e)) layout) ∧
    ∀ t ops, runAny al S t ops = runOps al t (ops.map (AnyOp.toOp ty (native .little))) := by
  have hw : ∀ e v, (ty.storage al).write e (Format.decode ty e (S.write e v)) = S.write e v := fun e v =>
    STy.write_decode al h.plain e (by rw [h.writes, h.size])
  have hall : ∀ e t chs vals layout, TdmsFile.writeChannels S e t chs vals layout
      = TdmsFile.writeChannels (ty.storage al) e t chs (vals.map (fun v => Format.decode ty e (S.write e v))) layout := by
    intro e t chs vals layout
    have h1 : TdmsFile.sliceData (ty.storage al) e (vals.map (fun v => Format.decode ty e (S.write e v)))
        = TdmsFile.sliceData S e vals := by
      unfold TdmsFile.sliceData
      rw [List.length_map, h.size, List.flatMap_map]
      simp only [hw]
    have h2 : TdmsFile.dataStructure (ty.storage al) (vals.map (fun v => Format.decode ty e (S.write e v))) chs.length
        = TdmsFile.dataStructure S vals chs.length := by
      unfold TdmsFile.dataStructure
      rw [List.length_map, h.natural]
    unfold TdmsFile.writeChannels
    rw [h1, h2, List.length_map]
  refine ⟨fun e v => Format.decode ty e (S.write e v), hw, hall, fun t ops => ?_⟩
  induction ops generalizing t with
  | nil => rfl
  | cons op ops ih =>
    show runAny al S (op.run al S t).2 ops = runOps al (Op.run al t (op.toOp ty _)).2 _
    rw [ih]
    congr 1
    cases op with
    | lib op => rfl
    | own chs vals layout =>
      show (TdmsFile.writeChannels S .little t chs vals layout).2 = _
      rw [hall]
      rfl

/-- What a sound implementation reads. -/
theorem StandsFor.fixed (h : StandsFor al S ty dec) : S.Fixed dec where
  pos := by rw [h.size]; exact (STy.memSize_bounds al ty).1
  sizes := h.same_size
  reads := h.reads

/-- **C84, reading** (partial, with the limits of C36). Reading a channel from sample `start` as one's own type puts the values
    that the implementation makes of the bytes of the samples `start`, `start + 1`, ... into the buffer, whatever wrote the
    file, in both byte orders and layouts, and leaves the rest of the buffer as it was. -/
theorem own_read_partial (h : StandsFor al S ty dec) {segs : List Segment}
    {t : TdmsFile} (ht : replay Index.new segs = .ok t.index) (hf : t.bytes.length < 2 ^ 63) (c : ChannelPath)
    (hl : Listed (entries segs) c.path) (start : Nat) (out : List α)
    (hread : ReadableIn S.supported t.bytes segs c.path start out.length) :
    t.readChannelFrom S c start out = .ok (overlay out ((channelSamples dec t.bytes segs c.path).drop start)) :=
  readChannelFrom_segs h.fixed ht hf c hl start out hread

/-- The same of several channels in step, each named once (the limits of C37). -/
theorem own_read_many_partial (h : StandsFor al S ty dec) {segs : List Segment}
    {t : TdmsFile} (ht : replay Index.new segs = .ok t.index) (hf : t.bytes.length < 2 ^ 63) (start : Nat)
    (cs : List (ChannelPath × List α))
    (hl : ∀ c ∈ cs, Listed (entries segs) c.1.path)
    (hread : ∀ c ∈ cs, ReadableFrom S.supported t.bytes segs c.1.path start)
    (hdist : cs.Pairwise (fun c d => c.1.path ≠ d.1.path))
    (hstep : ∀ c ∈ cs, ∀ d ∈ cs, InStep segs c.1.path d.1.path)
    (hlen : ∀ c ∈ cs, ∀ d ∈ cs, (∃ pre ∈ dataPrefixes segs, c.1.path ∈ active pre ∧ d.1.path ∈ active pre) →
      c.2.length = d.2.length) :
    t.readChannelsFrom S (cs.map (·.1)) start (cs.map (·.2)) =
      .ok (cs.map (fun c => overlay c.2 ((channelSamples dec t.bytes segs c.1.path).drop start))) :=
  readChannelsFrom_segs h.fixed ht hf start cs hl hread hdist hstep hlen

theorem toOp_shape (f g : α → ty.Val) : ∀ ops : List (AnyOp α), SameShape (ops.map (AnyOp.toOp ty f)) (ops.map (AnyOp.toOp ty g))
  | [] => .nil
  | .lib op :: ops => by
    have ih := toOp_shape f g ops
    cases op with
    | write e ty' chs vals layout => exact .write rfl ih
    | props e path ps => exact .props ih
  | .own chs vals layout :: ops => .write (by rw [List.length_map, List.length_map]) (toOp_shape f g ops)

theorem column_map {β : Type} (f : α → β) (layout : DataLayout) (k i : Nat) (vals : List α) :
    column layout k i (vals.map f) = (column layout k i vals).map f := by
  cases layout with
  | interleaved =>
    unfold column
    dsimp only
    rw [List.length_map, List.map_filterMap]
    simp only [List.getElem?_map]
  | contigious =>
    unfold column
    dsimp only
    rw [List.length_map, List.map_take, List.map_drop]

theorem written_toOp (f : α → ty.Val) (p : Text) : ∀ ops : List (AnyOp α), (∀ op ∈ ops, ¬ op.LibNames p) →
    written ty p (ops.map (AnyOp.toOp ty f)) = (ownWritten p ops).map f
  | [], _ => rfl
  | op :: ops, h => by
    have ih := written_toOp f p ops (fun o ho => h o (List.mem_cons_of_mem _ ho))
    have hop := h op List.mem_cons_self
    unfold written ownWritten at ih ⊢
    rw [List.map_cons, List.flatMap_cons, List.flatMap_cons, List.map_append, ih]
    congr 1
    cases op with
    | lib op =>
      show WriteSpec.valuesFor ty p op = []
      cases op with
      | props e path ps => rfl
      | write e ty' chs vals layout =>
        show (if h : ty' = ty then _ else _) = _
        split
        · show (match (chs.map ChannelPath.path).idxOf? p with | some i => _ | none => _) = _
          cases hi : (chs.map ChannelPath.path).idxOf? p with
          | none => rfl
          | some i =>
            exfalso
            apply hop
            obtain ⟨c, hc, hp⟩ := List.mem_map.mp (List.mem_of_getElem? (getElem?_of_idxOf? hi))
            exact ⟨c, hc, hp⟩
        · rfl
    | own chs vals layout =>
      show WriteSpec.valuesFor ty p (.write .little ty chs (vals.map f) layout) = _
      have : WriteSpec.valuesFor ty p (.write .little ty chs (vals.map f) layout)
          = match (chs.map ChannelPath.path).idxOf? p with
            | some i => column layout chs.length i (vals.map f)
            | none => [] := dif_pos rfl
      rw [this]
      show _ = List.map f (match (chs.map ChannelPath.path).idxOf? p with
            | some i => column layout chs.length i vals
            | none => [])
      cases (chs.map ChannelPath.path).idxOf? p with
      | none => rfl
      | some i => exact column_map f layout _ i vals

/-- **C84, round trip** (partial, with the limits of C31, `Compatible`: `f` puts any values of the library's type in the place of
    one's own, because these limits do not depend on the values). Values of one's own type that are written to a new file,
    next to calls that write other values and properties, are read by it in the same session. Read as the library's type,
    the channel has the values with the same bytes. -/
theorem own_round_trip_partial (h : StandsFor al S ty dec) {t : TdmsFile} (ht : TdmsFile.create al = .ok t)
    (ops : List (AnyOp α)) (f : α → ty.Val) (hc : Compatible Last.none (ops.map (AnyOp.toOp ty f)))
    (hlit : ∀ op ∈ ops, op.Little) (hsz : (runAny al S t ops).bytes.length < 2 ^ 63)
    (c : ChannelPath) (hlib : ∀ op ∈ ops, ¬ op.LibNames c.path) (hown : ∃ op ∈ ops, op.OwnNames c.path) :
    (runAny al S t ops).channelLength c = .ok (some (ownWritten c.path ops).length) ∧
    (∀ start out, (runAny al S t ops).readChannelFrom S c start out
      = .ok (overlay out ((ownWritten c.path ops).drop start))) ∧
    ∀ start out, ∃ vs : List ty.Val, (runAny al S t ops).readChannelFrom (ty.storage al) c start out = .ok (overlay out (vs.drop start)) ∧
      vs.map ((ty.storage al).write .little) = (ownWritten c.path ops).map (S.write .little) := by
  obtain ⟨native, hw, _, hrun⟩ := own_write_native h
  have hsz' := hsz
  rw [hrun] at hsz'
  have hc' := compatible_shape (toOp_shape f (native .little) ops) Last.none hc
  have htype : ∀ op ∈ ops.map (AnyOp.toOp ty (native .little)), Names c.path op → typeOf op = some ty := by
    intro op hop hn
    obtain ⟨o, ho, rfl⟩ := List.mem_map.mp hop
    cases o with
    | lib op => exact absurd hn (hlib _ ho)
    | own chs vals layout => rfl
  have hnamed : ∃ op ∈ ops.map (AnyOp.toOp ty (native .little)), Names c.path op := by
    obtain ⟨o, ho, hn⟩ := hown
    refine ⟨_, List.mem_map_of_mem ho, ?_⟩
    cases o with
    | lib op => exact absurd hn id
    | own chs vals layout => exact hn
  obtain ⟨hlen, hread⟩ := (write_then_read_partial al ht _ hc' hsz').2 ty c h.plain.1 htype hnamed
  rw [written_toOp _ _ _ hlib] at hlen hread
  rw [List.length_map] at hlen
  refine ⟨by rw [hrun]; exact hlen, ?_, ?_⟩
  · intro start out
    have hix : t = ⟨Index.new, []⟩ := by
      have : TdmsFile.create al = .ok ⟨Index.new, []⟩ := rfl
      rw [this] at ht
      exact (Except.ok.inj ht).symm
    have hx : Exact [] t := ⟨by rw [hix]; rfl, by rw [hix]; rfl⟩
    obtain ⟨_, more, hx', hpre, hlist, hsam⟩ := history al _ [] t Last.none hx ⟨rfl, fun ty m h => by cases h⟩ hc' hsz'
    rw [List.nil_append] at hx' hpre hlist hsam
    have hsamples := hsam ty c.path htype []
    rw [List.append_nil, channelSamples_unlisted (segs := []) _ _ (by rintro ⟨o, ho, _⟩; cases ho), List.nil_append,
      written_toOp _ _ _ hlib] at hsamples
    -- the implementation by way of the library's values
    have hconv : S.Fixed (fun e bs => dec e ((ty.storage al).write e (Format.decode ty e bs))) := by
      refine ⟨h.fixed.pos, h.same_size, fun e f p hp => ?_⟩
      rw [h.reads e f p hp, STy.write_decode al h.plain e (by
        rw [List.length_take, List.length_drop, ← h.size]; omega)]
    have hlittle : LittleIx (runAny al S t ops).index := runAny_little al S ops (by rw [hix]; intro b hb; cases hb) hlit
    have hreg : ∀ pre ∈ dataPrefixes more, c.path ∈ active pre →
        Regular (runAny al S t ops).bytes pre ∧ ∀ m, layoutOf (entries pre) c.path = some m → m.dataType ∈ S.supported := by
      intro pre hp hact
      rcases hpre pre hp with hh | ⟨hr, op, hop, ty', hty', _, hchs⟩
      · cases hh
      · obtain ⟨hn, hsup⟩ := hchs c.path hact
        have := htype op hop hn
        rw [this] at hty'
        cases hty'
        exact ⟨by rw [hrun]; exact hr, fun m hm => h.supports _ (hsup m hm)⟩
    rw [readChannelFrom_segs hconv (by rw [hrun]; exact hx'.refines) hsz c (hlist _ hnamed) start out
      (fun pre hp hact _ _ _ => (hreg pre hp hact).1.readable hx'.refines hp hact (hreg pre hp hact).2 start),
      channelSamples_little (Format.decode ty) (fun e v => dec e ((ty.storage al).write e v))
        (by rw [hrun]; exact hx'.refines) hlittle, hrun, hsamples, List.map_map]
    congr 3
    rw [show ((fun v => dec .little ((ty.storage al).write .little v)) ∘ native .little) = id from by
      funext v
      show dec .little ((ty.storage al).write .little (native .little v)) = v
      rw [hw, h.back], List.map_id]
  · intro start out
    refine ⟨(ownWritten c.path ops).map (native .little), by rw [hrun]; exact hread start out, ?_⟩
    rw [List.map_map]
    exact List.map_congr_left (fun v _ => hw .little v)

/-- **C84, no panic** (partial, with the limits of C40). The implementation may read as it likes, if it returns a value or an
    error, and its size is not zero and not above 24 bytes. Then reads of channels as that type end, and do not panic. -/
theorem own_never_panics_partial (S : Storage α)
    (hS : ∀ e f p, (∃ r, S.read e f p = .ok r) ∨ ∃ x, S.read e f p = R.err x)
    (hsize : 0 < S.memSize ∧ S.memSize ≤ 24) {t : TdmsFile} (hs : Session al t) (start : Nat) :
    (∀ (c : ChannelPath) (out : List α), (∀ ls, t.index.getChannelDataPositions c = some ls → TameAt t ls) →
      (∃ r, t.readChannelFrom S c start out = .ok r) ∨ ∃ e, t.readChannelFrom S c start out = R.err e) ∧
    ∀ (cs : List ChannelPath) (outs : List (List α)),
      (∀ c ∈ cs, ∀ ls, t.index.getChannelDataPositions c = some ls → TameAt t ls) →
      (∃ r, t.readChannelsFrom S cs start outs = .ok r) ∨ ∃ e, t.readChannelsFrom S cs start outs = R.err e := by
  have hi := hs.reach.inv
  have hS' : ∀ e, Rd.Sat (S.read e) (fun _ => True) := by
    intro e f p
    rcases hS e f p with ⟨⟨a, q⟩, h⟩ | ⟨x, h⟩
    · exact Or.inl ⟨(a, q), h, trivial⟩
    · exact Or.inr ⟨x, h⟩
  constructor
  · intro c out ht
    rcases readChannelFrom_sat hS' hsize.1 hsize.2 hi c start out (fun ls hls => ⟨ht ls hls, fun _ => hs.sized hls⟩) with
      ⟨r, h, _⟩ | h
    · exact Or.inl ⟨r, h⟩
    · exact Or.inr h
  · intro cs outs ht
    rcases readChannelsFrom_sat hS' hsize.1 hsize.2 hi cs start outs (fun c hc ls hls => ⟨ht c hc ls hls, hs.sized hls⟩) with
      ⟨r, h, _⟩ | h
    · exact Or.inl ⟨r, h⟩
    · exact Or.inr h

end

/-! ## Examples -/

/-- Pairs of a coarse and a fine part, in the place of 16-bit numbers. -/
def pairStorage : Storage (BitVec 8 × BitVec 8) where
  natural := .u16
  supported := [.u16, .i16]
  memSize := 2
  read e := do
    let b ← Rd.exact 2
    return (BitVec.ofNat 8 (decNat e b / 256), BitVec.ofNat 8 (decNat e b))
  write e v := encNat e 2 (v.1.toNat * 256 + v.2.toNat)
  size _ := 2

/-- It is sound. -/
theorem pair_stands : StandsFor anyAlloc pairStorage .u16
    (fun e b => (BitVec.ofNat 8 (decNat e b / 256), BitVec.ofNat 8 (decNat e b))) where
  plain := ⟨rfl, by decide⟩
  natural := rfl
  size := rfl
  supports := by decide
  same_size := by decide
  reads e f p h := by
    replace h : p + 2 ≤ f.length := h
    show ((Rd.exact 2 >>= fun b => pure (BitVec.ofNat 8 (decNat e b / 256), BitVec.ofNat 8 (decNat e b))) : Rd _) f p = _
    rw [Rd.bind_ok (exact_reads h)]
    rfl
  writes e v := length_encNat e 2 _
  back e v := by
    show (BitVec.ofNat 8 (decNat e (encNat e 2 (v.1.toNat * 256 + v.2.toNat)) / 256),
      BitVec.ofNat 8 (decNat e (encNat e 2 (v.1.toNat * 256 + v.2.toNat)))) = v
    rw [decNat_encNat, Nat.mod_eq_of_lt (by have := v.1.isLt; have := v.2.isLt; omega)]
    obtain ⟨a, b⟩ := v
    have ha := a.isLt
    have hb := b.isLt
    refine Prod.ext ?_ ?_
    · apply BitVec.eq_of_toNat_eq
      rw [BitVec.toNat_ofNat]
      dsimp only
      omega
    · apply BitVec.eq_of_toNat_eq
      rw [BitVec.toNat_ofNat]
      dsimp only
      omega

/-- A history with values of that type and of the library's. -/
def pairOps : List (AnyOp (BitVec 8 × BitVec 8)) :=
  [.own [chan "a", chan "b"] [(1, 2), (3, 4), (5, 6), (7, 8)] .interleaved,
   .lib (.props .little (.group "g".toList) [("n".toList, .i32 5)]),
   .lib (.write .little .u8 [chan "c"] (vals8 [1, 2]) .contigious),
   .own [chan "b", chan "a"] [(9, 10), (11, 12)] .contigious]

/-- The round trip for it. -/
theorem own_round_trip_example (start : Nat) (out : List (BitVec 8 × BitVec 8)) :
    (runAny anyAlloc pairStorage ⟨Index.new, []⟩ pairOps).readChannelFrom pairStorage (chan "b") start out =
      .ok (overlay out (List.drop start [(3, 4), (7, 8), (9, 10)])) := by
  refine (own_round_trip_partial pair_stands (t := ⟨Index.new, []⟩) rfl pairOps (fun _ => 0#16) ?_ ?_ (by decide +kernel)
    (chan "b") ?_ ?_).2.1 start out
  · refine ⟨⟨⟨rfl, ?_, ?_, ?_, ?_⟩, ?_⟩, trivial, ⟨⟨rfl, ?_, ?_, ?_, ?_⟩, ?_⟩, ⟨⟨rfl, ?_, ?_, ?_, ?_⟩, ?_⟩, trivial⟩
    all_goals first
      | decide +kernel
      | exact Or.inl (by decide +kernel)
  · intro op hop
    simp only [pairOps, List.mem_cons, List.not_mem_nil, or_false] at hop
    rcases hop with rfl | rfl | rfl | rfl <;> first | rfl | trivial
  · intro op hop
    simp only [pairOps, List.mem_cons, List.not_mem_nil, or_false] at hop
    rcases hop with rfl | rfl | rfl | rfl
    · exact id
    · exact id
    · rintro ⟨c, hc, hp⟩
      rw [List.mem_singleton.mp hc] at hp
      revert hp
      decide +kernel
    · exact id
  · exact ⟨_, List.mem_cons_self, chan "b", by simp, rfl⟩

/-- It meets the hypotheses of `own_never_panics_partial`. -/
example : (∀ e f p, (∃ r, pairStorage.read e f p = .ok r) ∨ ∃ x, pairStorage.read e f p = R.err x) ∧
    0 < pairStorage.memSize ∧ pairStorage.memSize ≤ 24 := by
  refine ⟨fun e f p => ?_, by decide, by decide⟩
  show (∃ r, ((Rd.exact 2 >>= fun b => pure (BitVec.ofNat 8 (decNat e b / 256), BitVec.ofNat 8 (decNat e b))) : Rd _) f p = .ok r) ∨ _
  by_cases h : p + 2 ≤ f.length
  · exact Or.inl ⟨_, Rd.bind_ok (exact_reads h)⟩
  · refine Or.inr ⟨.ioError .unexpectedEof, Rd.bind_error ?_⟩
    unfold Rd.exact
    rw [if_neg (by omega)]

/-- An implementation for numbers that have 16 bits in the file and 64 in memory, with the size that the trait gives by
    default. -/
def wideStorage : Storage (BitVec 64) where
  natural := .u16
  supported := [.u16]
  memSize := 8
  read e := do
    let b ← Rd.exact 2
    return BitVec.ofNat 64 (decNat e b)
  write e v := encNat e 2 v.toNat
  size _ := 2

/-- A read of a channel of a file. -/
def readAs {α : Type} (S : Storage α) (f : Bytes) (ch : String) (start : Nat) (out : List α) : R (List α) := do
  let t ← TdmsFile.new anyAlloc f
  t.readChannelFrom S (chan ch) start out

/-- Then reads succeed and deliver nothing, where the library's type delivers the values. -/
theorem own_size_counterexample :
    (readAs wideStorage (fileOf windowFile) "b" 0 [0, 0, 0]).map (List.map BitVec.toNat) = .ok [0, 0, 0] ∧
    (readAs (STy.u16.storage anyAlloc) (fileOf windowFile) "b" 0 (vals16 [0, 0, 0])).map (List.map BitVec.toNat) = .ok [10, 11, 12] := by
  decide +kernel

/-- A type without a size. -/
def markStorage : Storage Unit where
  natural := .u16
  supported := [.u16]
  memSize := 0
  read _ := do
    let _ ← Rd.exact 2
    return ()
  write e _ := encNat e 2 0
  size _ := 2

/-- It makes a read panic. -/
theorem own_no_size_counterexample :
    readAs markStorage (fileOf [dataSegment .little false [("b", .u16, 2)] [1, 0, 2, 0]]) "b" 0 [(), ()]
      = R.panic .divByZero := by
  decide +kernel

end Tedium
