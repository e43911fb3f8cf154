import Verif.Props.Append

/-! # Opening what was written (C29, C32, C43) -/

namespace Tedium
open SegSpec WriteSpec

/-! ## C32 -/

/-- The file consists of segments with metadata, and the index is what opening them gives. -/
structure Holds (fs : List FileSegment) (t : TdmsFile) : Prop where
  fits : ∀ s ∈ fs, s.Fits
  bytes : t.bytes = fs.flatMap FileSegment.encode
  index : replay Index.new (fs.map FileSegment.segment) = .ok t.index

theorem Holds.new {fs : List FileSegment} {t : TdmsFile} (h : Holds fs t) (al : Alloc) (hal : Generous al) :
    TdmsFile.new al t.bytes = .ok t := by
  have := (open_segments al hal fs h.fits []).1 (by decide)
  rw [List.append_nil, ← h.bytes, h.index] at this
  unfold TdmsFile.new
  rw [this]
  rfl

theorem Holds.snoc {fs : List FileSegment} {t : TdmsFile} (h : Holds fs t) {s : FileSegment} (hs : s.Fits)
    (hok : (t.index.addSegment s.segment).1.map (fun _ => ()) = .ok ()) :
    Holds (fs ++ [s]) ⟨(t.index.addSegment s.segment).2, t.bytes ++ s.encode⟩ where
  fits := by
    intro x hx
    rcases List.mem_append.mp hx with hx | hx
    · exact h.fits x hx
    · rw [List.mem_singleton.mp hx]; exact hs
  bytes := by rw [List.flatMap_append, ← h.bytes]; simp
  index := by
    obtain ⟨n, hn⟩ := addSegment_map_ok hok
    rw [List.map_append]
    exact replay_snoc h.index (Prod.ext hn rfl)

/-- A segment without metadata whose data starts with four zeros reads as one whose metadata lists no
    objects. -/
theorem live_file_segment (al : Alloc) (e : Endian) (ty : STy) (hty : SizedTy ty) (t : TdmsFile)
    (chs : List ChannelPath) (vals : List ty.Val) (layout : DataLayout) (hne : chs ≠ [])
    (hdiv : chs.length ∣ vals.length)
    (hd : ¬ Diverges (t.index.activeObjects.map (·.path)) (chs.map ChannelPath.path))
    (hz : [0, 0, 0, 0] <+: vals.flatMap ((ty.storage al).write e))
    (hsize : (t.writeChannels (ty.storage al) e chs vals layout).2.bytes.length < 2 ^ 64) :
    ∃ fs : FileSegment, fs.Fits ∧
      t.writeChannels (ty.storage al) e chs vals layout = ((t.index.addSegment fs.segment).1.map (fun _ => ()),
        ⟨(t.index.addSegment fs.segment).2, t.bytes ++ fs.encode⟩) ∧
      fs.rest.length + 4 = (vals.flatMap ((ty.storage al).write e)).length := by
  obtain ⟨s, bs, heq, _, _, _, _, hmd, _, _, hlen, toc, htoc⟩ :=
    writeChannels_segment (ty.storage al) e t chs vals layout hne hdiv
  have hm := hmd.mpr hd
  rw [hm] at htoc hlen
  obtain ⟨rest, hrest⟩ := hz
  have hdl : (vals.flatMap ((ty.storage al).write e)).length = (ty.storage al).memSize * vals.length :=
    length_flatMap_const _ _ _ (fun v _ => length_write_sized al hty e v)
  have hrl : 4 + rest.length = (vals.flatMap ((ty.storage al).write e)).length := by
    rw [← hrest, List.length_append]; rfl
  rw [heq] at hsize
  dsimp only at hsize
  rw [List.length_append, hlen] at hsize
  change t.bytes.length + (28 + 0 + _) < _ at hsize
  let fs : FileSegment :=
    { endian := e, toc := s.toc, version := 4713, rawOffset := 0, metaData := ⟨[]⟩, rest := rest }
  have h1 : s = _ := congrArg Prod.fst htoc
  have h2 : bs = _ := congrArg Prod.snd htoc
  refine ⟨fs, ⟨?_, (by decide : 4713 < 2 ^ 32), (by decide : 0 < 2 ^ 64), ?_, ?_⟩, ?_, by rw [← hrl]; exact Nat.add_comm _ _⟩
  · show s.toc.bigEndian = _
    rw [h1]; rfl
  · show 4 + rest.length < _
    omega
  · exact ⟨(by decide : 0 < 2 ^ 32), fun _ h => by cases h⟩
  · have henc : fs.encode = bs := by
      rw [h2]
      have htoc' : s.toc = finalToC e toc none (some (TdmsFile.sliceData (ty.storage al) e vals)) := by
        rw [h1]; rfl
      have hsz4 : encNat e 8 (4 + rest.length)
          = encNat e 8 (MetaData.optSize none + DataToWrite.optSize (some (TdmsFile.sliceData (ty.storage al) e vals))) := by
        congr 1
        show 4 + rest.length = 0 + (ty.storage al).memSize * vals.length
        omega
      have hmw : (MetaData.mk []).write e ++ rest
          = DataToWrite.optBytes (some (TdmsFile.sliceData (ty.storage al) e vals)) := by
        refine Eq.trans ?_ hrest
        cases e <;> rfl
      show tdsmTag ++ (s.toc.asBytes ++ (encNat e 4 4713 ++ (encNat e 8 (4 + rest.length) ++
        (encNat e 8 0 ++ (MetaData.mk []).write e)))) ++ rest = _
      rw [htoc', hsz4]
      simp only [List.append_assoc]
      rw [hmw]
      rfl
    have hadd : t.index.addSegment fs.segment = t.index.addSegment s := by
      have hraw : s.rawDataOffset = 0 := by rw [h1]; rfl
      have hnext : s.nextSegmentOffset = 4 + rest.length := by
        rw [h1]
        show 0 + (ty.storage al).memSize * vals.length = _
        omega
      obtain ⟨a, b, c, d⟩ := s
      dsimp only at hm hraw hnext
      subst hm hraw hnext
      rfl
    rw [heq, henc, hadd]

/-- The call carries its metadata, or its data starts with four zeros. -/
def DescribedOp (al : Alloc) (last : Last) : Op → Prop
  | .props .. => True
  | .write e ty channels vals layout =>
    Diverges last.channels (channels.map ChannelPath.path) ∨ StartsWithZeros al (.write e ty channels vals layout)

theorem described_cons {al : Alloc} {last : Last} {op : Op} {ops : List Op} (h : Described al last (op :: ops)) :
    DescribedOp al last op ∧ Described al (last.after op) ops := by
  cases op with
  | props => exact ⟨trivial, h⟩
  | write => exact h

theorem Holds.call (al : Alloc) {fs : List FileSegment} {t : TdmsFile} {last : Last} (h : Holds fs t) (op : Op)
    (hl : last.channels = t.index.activeObjects.map (·.path)) (hok : (op.run al t).1 = .ok ()) (hf : OpFits op)
    (hdesc : DescribedOp al last op) (hsz1 : (op.run al t).2.bytes.length < 2 ^ 64) :
    ∃ s : FileSegment, Holds (fs ++ [s]) (op.run al t).2 ∧ dataBytes al op = s.rest.length + takenForMetadata last op := by
  cases op with
  | props e path ps =>
    obtain ⟨s, hsf, henc, hseg, _, hrest⟩ := written_segment_is_file_segment e {}
      { objects := [{ path := path.path, properties := ps, rawDataIndex := .none }] } none rfl
      ⟨(by decide : 1 < 2 ^ 32), fun o ho => by
        rw [List.mem_singleton.mp ho]
        exact ⟨hf.1, trivial, hf.2.1, hf.2.2⟩⟩ (by
        obtain ⟨hdr, hb, hlen⟩ := writeSegment_header e {}
          (some { objects := [{ path := path.path, properties := ps, rawDataIndex := .none }] }) none
        change (t.bytes ++ (writeSegment e {}
          (some { objects := [{ path := path.path, properties := ps, rawDataIndex := .none }] }) none).2).length < _
          at hsz1
        rw [hb, List.length_append, List.length_append, hlen] at hsz1
        change _ + (28 + MetaData.size _ + 0) < _ at hsz1
        show _ + 0 < _
        omega)
    have heq : (Op.props e path ps).run al t = ((t.index.addSegment s.segment).1.map (fun _ => ()),
        ⟨(t.index.addSegment s.segment).2, t.bytes ++ s.encode⟩) := by
      rw [henc, hseg]; rfl
    rw [heq] at hok ⊢
    exact ⟨s, h.snoc hsf hok, by rw [hrest]; rfl⟩
  | write e ty chs vals layout =>
    have harg : chs ≠ [] ∧ chs.length ∣ vals.length := by
      change (t.writeChannels (ty.storage al) e chs vals layout).1 = .ok () at hok
      constructor
      · intro hh
        rw [(rejected_arguments _ e t chs vals layout).1 hh] at hok
        cases hok
      · apply Decidable.byContradiction
        intro hh
        rw [(rejected_arguments _ e t chs vals layout).2 (fun h0 => by
          rw [(rejected_arguments _ e t chs vals layout).1 h0] at hok
          cases hok) hh] at hok
        cases hok
    have hs : ∃ s : FileSegment, s.Fits ∧ (Op.write e ty chs vals layout).run al t
        = ((t.index.addSegment s.segment).1.map (fun _ => ()),
          ⟨(t.index.addSegment s.segment).2, t.bytes ++ s.encode⟩) ∧
        dataBytes al (.write e ty chs vals layout) = s.rest.length + takenForMetadata last (.write e ty chs vals layout) := by
      unfold takenForMetadata
      dsimp only
      rw [hl]
      by_cases hd : Diverges (t.index.activeObjects.map (·.path)) (chs.map ChannelPath.path)
      · obtain ⟨s, h1, h2, h3, _⟩ :=
          diverging_file_segment al e ty hf.1 t chs vals layout harg.1 harg.2 hd hf.2.2 hf.2.1 hsz1
        exact ⟨s, h1, h2, by rw [h3, if_pos hd]; rfl⟩
      · rcases hdesc with h' | hz
        · rw [hl] at h'; exact absurd h' hd
        · obtain ⟨s, h1, h2, h3⟩ := live_file_segment al e ty hf.1 t chs vals layout harg.1 harg.2 hd hz hsz1
          exact ⟨s, h1, h2, by rw [if_neg hd]; exact h3.symm⟩
    obtain ⟨s, h1, h2, h3⟩ := hs
    rw [h2] at hok ⊢
    exact ⟨s, h.snoc h1 hok, h3⟩

theorem reads_history (al : Alloc) : ∀ (ops : List Op) (fs : List FileSegment) (t : TdmsFile)
    (last : Last), Holds fs t → Session al t → last.channels = t.index.activeObjects.map (·.path) →
    AllSucceed al t ops → (∀ op ∈ ops, Distinct op) → (∀ op ∈ ops, OpFits op) → Described al last ops →
    (runOps al t ops).bytes.length < 2 ^ 64 → ∃ more, Holds (fs ++ more) (runOps al t ops) := by
  intro ops
  induction ops with
  | nil => intro fs t last h _ _ _ _ _ _ _; exact ⟨[], by rw [List.append_nil]; exact h⟩
  | cons op ops ih =>
    intro fs t last h hs hl hall hdist hfit hdesc hsz
    rw [allSucceed_cons] at hall
    rw [runOps_cons] at hsz ⊢
    have hsz1 : (op.run al t).2.bytes.length < 2 ^ 64 :=
      Nat.lt_of_le_of_lt (runOps_bytes al _ ops).length_le hsz
    obtain ⟨hd1, hd2⟩ := described_cons hdesc
    obtain ⟨s, hr, _⟩ := h.call al op hl hall.1 (hfit op List.mem_cons_self) hd1 hsz1
    obtain ⟨more, hm⟩ := ih (fs ++ [s]) _ (last.after op) hr (.call op hs) (last_after_active al hs hl op (hdist op List.mem_cons_self) hall.1)
      hall.2 (fun o ho => hdist o (List.mem_cons_of_mem _ ho))
      (fun o ho => hfit o (List.mem_cons_of_mem _ ho)) hd2 hsz
    exact ⟨s :: more, by rw [List.append_cons]; exact hm⟩

theorem Holds.of_opened (al : Alloc) (hal : Generous al) {fs : List FileSegment} (hfs : ∀ s ∈ fs, s.Fits)
    {t : TdmsFile} (hopen : TdmsFile.new al (fs.flatMap FileSegment.encode) = .ok t) : Holds fs t := by
  have h := (open_segments al hal fs hfs []).1 (by decide)
  rw [List.append_nil] at h
  unfold TdmsFile.new at hopen
  rw [h] at hopen
  cases hr : replay Index.new (fs.map FileSegment.segment) with
  | error e => rw [hr] at hopen; cases hopen
  | ok ix =>
    rw [hr] at hopen
    cases hopen
    exact ⟨hfs, rfl, hr⟩

/-- **C32 and C45** (partial: not for extended floats and strings, and a data write that repeats the channel
    list, or only adds or drops channels at its end, must start with four zero bytes). Start with a file of
    segments that opens, make any calls that succeed: opening the resulting bytes gives back exactly the
    file that the session had, and so the same objects, properties, lengths and data. -/
theorem reopen_appended_partial (al : Alloc) (hal : Generous al) (fs : List FileSegment) (hfs : ∀ s ∈ fs, s.Fits)
    {t : TdmsFile} (hopen : TdmsFile.new al (fs.flatMap FileSegment.encode) = .ok t) (ops : List Op)
    (hall : AllSucceed al t ops) (hdist : ∀ op ∈ ops, Distinct op) (hfit : ∀ op ∈ ops, OpFits op)
    (hdesc : Described al ⟨t.index.activeObjects.map (·.path), none⟩ ops)
    (hsz : (runOps al t ops).bytes.length < 2 ^ 64) :
    TdmsFile.new al (runOps al t ops).bytes = .ok (runOps al t ops) := by
  have hh : Holds fs t := .of_opened al hal hfs hopen
  obtain ⟨more, hm⟩ := reads_history al ops fs t ⟨t.index.activeObjects.map (·.path), none⟩ hh (.opened hopen)
    rfl hall hdist hfit hdesc hsz
  exact hm.new al hal

theorem created_eq {al : Alloc} {t : TdmsFile} (h : TdmsFile.create al = .ok t) : t = ⟨Index.new, []⟩ := by
  have h' : TdmsFile.create al = .ok ⟨Index.new, []⟩ := rfl
  rw [h'] at h
  exact (Except.ok.inj h).symm

/-- **C32** (partial, as above): for new files. -/
theorem reopen_partial (al : Alloc) (hal : Generous al) {t : TdmsFile} (hcreate : TdmsFile.create al = .ok t)
    (ops : List Op) (hall : AllSucceed al t ops) (hdist : ∀ op ∈ ops, Distinct op)
    (hfit : ∀ op ∈ ops, OpFits op) (hdesc : Described al Last.none ops)
    (hsz : (runOps al t ops).bytes.length < 2 ^ 64) :
    TdmsFile.new al (runOps al t ops).bytes = .ok (runOps al t ops) := by
  have ht := created_eq hcreate
  subst ht
  exact reopen_appended_partial al hal [] (fun _ h => by cases h) rfl ops hall hdist hfit hdesc hsz

/-- A history that can be read back after reopening: two channels, a property, another channel twice, the
    second time with data that starts with zeros, and the first list again. -/
def reopenOps : List Op :=
  [.write .little .u16 [chan "a", chan "b"] (vals16 [1, 2, 3, 4]) .contigious,
   .props .big (.group "g".toList) [("n".toList, .i32 5)],
   .write .big .u8 [chan "c"] (vals8 [1, 2, 3]) .interleaved,
   .write .little .u8 [chan "c"] (vals8 [0, 0, 0, 0, 8, 9]) .contigious,
   .write .big .u16 [chan "a", chan "b"] (vals16 [13, 14]) .interleaved]

theorem reopenOps_compatible : Compatible Last.none reopenOps := by
  refine ⟨⟨⟨rfl, ?_, ?_, ?_, ?_⟩, ?_⟩, trivial, ⟨⟨rfl, ?_, ?_, ?_, ?_⟩, ?_⟩,
    ⟨⟨rfl, ?_, ?_, ?_, ?_⟩, ?_⟩, ⟨⟨rfl, ?_, ?_, ?_, ?_⟩, ?_⟩, trivial⟩
  all_goals first
    | decide +kernel
    | exact Or.inl (by decide +kernel)
    | exact Or.inr ⟨by decide +kernel, 3, by decide +kernel, Or.inr ⟨by decide +kernel, by decide +kernel⟩⟩

/-- The hypotheses of `reopen_partial` hold for it, and so it can be opened again. -/
theorem reopenOps_reopens :
    AllSucceed anyAlloc ⟨Index.new, []⟩ reopenOps ∧ (∀ op ∈ reopenOps, Distinct op) ∧
    (∀ op ∈ reopenOps, OpFits op) ∧ Described anyAlloc Last.none reopenOps ∧
    TdmsFile.new anyAlloc (session reopenOps).bytes = .ok (session reopenOps) ∧
    (session reopenOps).u16s "a" 3 = .ok (vals16 [1, 2, 13]) := by
  have hsz : (session reopenOps).bytes.length < 2 ^ 63 := by decide +kernel
  have h1 := (write_then_read_partial anyAlloc (t := ⟨Index.new, []⟩) rfl reopenOps reopenOps_compatible hsz).1
  have h2 : ∀ op ∈ reopenOps, Distinct op := by
    intro op hop
    simp only [reopenOps, List.mem_cons, List.not_mem_nil, or_false] at hop
    rcases hop with rfl | rfl | rfl | rfl | rfl
    rotate_left
    · exact True.intro
    all_goals
      unfold Distinct
      decide +kernel
  have hfits : ∀ n : String, Text.Fits (chan n).path ↔ (utf8Enc (chan n).path).length < 2 ^ 32 := fun _ => Iff.rfl
  have h3 : ∀ op ∈ reopenOps, OpFits op := by
    intro op hop
    simp only [reopenOps, List.mem_cons, List.not_mem_nil, or_false] at hop
    have ha : Text.Fits (chan "a").path := (hfits "a").mpr (by decide +kernel)
    have hb : Text.Fits (chan "b").path := (hfits "b").mpr (by decide +kernel)
    have hc : Text.Fits (chan "c").path := (hfits "c").mpr (by decide +kernel)
    have hab : ∀ c ∈ [chan "a", chan "b"], Text.Fits c.path := by
      intro c hc
      simp only [List.mem_cons, List.not_mem_nil, or_false] at hc
      rcases hc with rfl | rfl <;> assumption
    have hcc : ∀ c ∈ [chan "c"], Text.Fits c.path := by
      intro c hc
      simp only [List.mem_cons, List.not_mem_nil, or_false] at hc
      rcases hc with rfl; assumption
    rcases hop with rfl | rfl | rfl | rfl | rfl
    · exact ⟨⟨(by decide), (by decide)⟩, (by decide : 2 < 2 ^ 32), hab⟩
    · refine ⟨(show (utf8Enc _).length < 2 ^ 32 by decide +kernel), (by decide : 1 < 2 ^ 32), ?_⟩
      intro p hp
      rw [List.mem_singleton.mp hp]
      exact ⟨(show (utf8Enc _).length < 2 ^ 32 by decide +kernel), trivial⟩
    · exact ⟨⟨(by decide), (by decide)⟩, (by decide : 1 < 2 ^ 32), hcc⟩
    · exact ⟨⟨(by decide), (by decide)⟩, (by decide : 1 < 2 ^ 32), hcc⟩
    · exact ⟨⟨(by decide), (by decide)⟩, (by decide : 2 < 2 ^ 32), hab⟩
  have h4 : Described anyAlloc Last.none reopenOps :=
    ⟨Or.inl (by decide +kernel), Or.inl (by decide +kernel), Or.inr ⟨vals8 [8, 9] |>.map (fun b => UInt8.ofNat b.toNat),
      (by decide +kernel)⟩, Or.inl (by decide +kernel), trivial⟩
  have h5 := reopen_partial anyAlloc (fun _ => rfl) (t := ⟨Index.new, []⟩) rfl reopenOps h1 h2 h3 h4
    (Nat.lt_trans hsz (by decide))
  exact ⟨h1, h2, h3, h4, h5, by decide +kernel⟩

/-- C32 is false in full. After two writes to the same channel, both of which succeed, the file cannot be
    opened: the data of the second one is taken for metadata. -/
theorem reopen_repeated_counterexample :
    allOk [writeU16 ["a"] [1, 2], writeU16 ["a"] [3, 4]] = true ∧
    (session [writeU16 ["a"] [1, 2], writeU16 ["a"] [3, 4]]).u16s "a" 4 = .ok (vals16 [1, 2, 3, 4]) ∧
    TdmsFile.new anyAlloc (session [writeU16 ["a"] [1, 2], writeU16 ["a"] [3, 4]]).bytes
      = R.err (.ioError .unexpectedEof) := by
  refine ⟨?_, ?_, ?_⟩ <;> decide +kernel

/-- C32 is false for strings and extended floats: a file in which something follows them cannot be opened. -/
theorem reopen_string_counterexample :
    (let ops : List Op := [.write .little .string [chan "a"] [("xy" : String).toList] .contigious, writeU16 ["b"] [1]]
     allOk ops = true ∧
     TdmsFile.new anyAlloc (session ops).bytes = R.err (.headerPatternNotMatched [0, 0, 40, 0])) ∧
    (let ops : List Op := [.write .little .extended [chan "a"] [5#128] .contigious, writeU16 ["b"] [1]]
     allOk ops = true ∧
     TdmsFile.new anyAlloc (session ops).bytes = R.err (.headerPatternNotMatched [0, 0, 105, 18])) := by
  refine ⟨⟨?_, ?_⟩, ?_, ?_⟩ <;> decide +kernel

/-! ## C29 -/

theorem natural_size (al : Alloc) {ty : STy} (h : SizedTy ty) :
    0 < (ty.storage al).natural.size ∧ (ty.storage al).natural.size ≤ (ty.storage al).memSize := by
  cases ty <;> first | exact absurd rfl h.1 | exact absurd rfl h.2 | exact ⟨Nat.succ_pos _, Nat.le_of_ble_eq_true rfl⟩

theorem sum_le_length_mul {β : Type} (f : β → Nat) (k : Nat) : ∀ l : List β, (∀ x ∈ l, f x ≤ k) →
    (l.map f).sum ≤ l.length * k
  | [], _ => by simp
  | x :: l, h => by
    have h1 := h x List.mem_cons_self
    have h2 := sum_le_length_mul f k l (fun y hy => h y (List.mem_cons_of_mem _ hy))
    rw [List.map_cons, List.sum_cons, List.length_cons, Nat.add_mul]
    omega

theorem length_firstOccurrences_le (l : List Text) : (firstOccurrences l).length ≤ l.length := by
  induction l using snocInduction with
  | nil => exact Nat.le_refl _
  | snoc l x ih =>
    rw [firstOccurrences_snoc, List.length_append]
    split
    · exact Nat.le_trans ih (Nat.le_add_right _ _)
    · rw [List.length_append]; exact Nat.add_le_add_right ih _

theorem steady_write (al : Alloc) (e : Endian) (ty : STy) (hty : SizedTy ty) {segs : List Segment} {t : TdmsFile}
    (h : Steady segs t) (chs : List ChannelPath) (vals : List ty.Val) (layout : DataLayout) (hne : chs ≠ [])
    (hdiv : chs.length ∣ vals.length) (hv : vals ≠ [])
    (hsz : (t.writeChannels (ty.storage al) e chs vals layout).2.bytes.length < 2 ^ 63) :
    ∃ t' s, t.writeChannels (ty.storage al) e chs vals layout = (.ok (), t') ∧ Steady (segs ++ [s]) t' := by
  have hr := replay_refines h.exact'.refines
  have heq := writeChannels_eq (ty.storage al) e hr chs vals layout hne hdiv
  have hps : (chs.map ChannelPath.path).length = chs.length := List.length_map _
  have hpn : chs.map ChannelPath.path ≠ [] := fun hh => hne (List.map_eq_nil_iff.mp hh)
  generalize chs.map ChannelPath.path = ps at *
  obtain ⟨f1, f2, f3, f4, f5, f6, f7⟩ := writtenSegment_fields (ty.storage al) e segs ps vals layout
  obtain ⟨hdr, hbytes, hhdr⟩ := writtenSegment_bytes (ty.storage al) e segs ps vals layout
  have hprev := written_previous (ty.storage al) e segs ps vals layout
  have hact := active_written (ty.storage al) e segs ps vals layout
  have hlay := layout_written (ty.storage al) e segs ps vals layout
  rw [heq] at hsz ⊢
  generalize writtenSegment (ty.storage al) e segs ps vals layout = sb at *
  obtain ⟨s, bs⟩ := sb
  dsimp only at *
  have hdata : (vals.flatMap ((ty.storage al).write e)).length = (ty.storage al).memSize * vals.length :=
    length_flatMap_const _ _ _ (fun v _ => length_write_sized al hty e v)
  obtain ⟨hn0, hnm⟩ := natural_size al hty
  have hvl : 0 < vals.length := List.length_pos_iff.mpr hv
  have hmv : 0 < (ty.storage al).memSize * vals.length := Nat.mul_pos (by omega) hvl
  rw [List.length_append, hbytes, List.length_append, hhdr, hdata] at hsz
  have hnext : s.nextSegmentOffset = s.rawDataOffset + (ty.storage al).memSize * vals.length := by rw [f5, f6]
  have hends : endOf (segs ++ [s]) = (t.bytes ++ bs).length := by
    rw [endOf_snoc, h.exact'.ends, List.length_append, hbytes, List.length_append, hhdr, hdata, hnext]
    omega
  have hactne : active (segs ++ [s]) ≠ [] := by
    rw [hact]
    split
    · intro hh
      cases ps with
      | nil => exact hpn rfl
      | cons p ps =>
        have : p ∈ firstOccurrences (p :: ps) := (mem_firstOccurrences _ _).mpr List.mem_cons_self
        rw [hh] at this
        cases this
    · rename_i hd
      intro hh
      exact hd (Or.inl hh)
  have hboth : (∀ m ∈ activeLayouts (segs ++ [s]), m.totalSizeBytes = none ∧ 0 < m.dataType.size) ∧
      chunkBytes (segs ++ [s]) < 2 ^ 63 := by
    by_cases hd : Diverges (active segs) ps
    · have hal : ∀ m ∈ activeLayouts (segs ++ [s]), m = writtenFormat (ty.storage al) (vals.length / ps.length) := by
        intro m hm
        unfold activeLayouts at hm
        obtain ⟨p, hp, hpm⟩ := List.mem_filterMap.mp hm
        rw [hact, if_pos hd] at hp
        have hp' : p ∈ ps := (mem_firstOccurrences _ _).mp hp
        rw [hlay, if_pos ⟨hd, hp'⟩] at hpm
        exact (Option.some.inj hpm).symm
      refine ⟨fun m hm => by rw [hal m hm]; exact ⟨rfl, hn0⟩, ?_⟩
      have hlen : (activeLayouts (segs ++ [s])).length ≤ ps.length := by
        unfold activeLayouts
        refine Nat.le_trans (List.length_filterMap_le _ _) ?_
        rw [hact, if_pos hd]
        exact length_firstOccurrences_le ps
      unfold chunkBytes
      have h1 := sum_le_length_mul (fun m : RawDataMeta => m.numberOfValues * m.dataType.size)
        (vals.length / ps.length * (ty.storage al).memSize) (activeLayouts (segs ++ [s])) (by
          intro m hm
          rw [hal m hm]
          exact Nat.mul_le_mul_left _ hnm)
      have h2 : (activeLayouts (segs ++ [s])).length * (vals.length / ps.length * (ty.storage al).memSize)
          ≤ (ty.storage al).memSize * vals.length := by
        refine Nat.le_trans (Nat.mul_le_mul_right _ hlen) ?_
        rw [← Nat.mul_assoc, Nat.mul_comm _ (ty.storage al).memSize]
        exact Nat.mul_le_mul_left _ (Nat.mul_div_le _ _)
      omega
    · have hsame : activeLayouts (segs ++ [s]) = activeLayouts segs := by
        unfold activeLayouts
        rw [hact, if_neg hd]
        congr 1
        funext p
        rw [hlay, if_neg (fun hh => hd hh.1)]
      unfold chunkBytes
      rw [hsame]
      exact ⟨h.sized, h.chunk⟩
  have hraw : rawBytes (segs ++ [s]) = (ty.storage al).memSize * vals.length := by
    unfold rawBytes
    rw [List.getLast?_append, List.getLast?_singleton]
    show s.nextSegmentOffset - s.rawDataOffset = _
    omega
  obtain ⟨ix', hadd, href⟩ := hr.accepts (s := s) hprev (by
    intro _
    refine ⟨hactne, by omega, fun m hm => (hboth.1 m hm).1, by have := hboth.2; omega, ?_⟩
    intro p hp
    unfold valuesPerChunk
    cases hpl : layoutOf (entries (segs ++ [s])) p with
    | none => dsimp only; omega
    | some m =>
      dsimp only
      have hmem : m ∈ activeLayouts (segs ++ [s]) := List.mem_filterMap.mpr ⟨p, hp, hpl⟩
      have hch : chunks (segs ++ [s]) = if chunkBytes (segs ++ [s]) = 0 then 0
          else rawBytes (segs ++ [s]) / chunkBytes (segs ++ [s]) := by
        unfold chunks
        rw [if_neg]
        intro hany
        obtain ⟨m', hm', hs'⟩ := List.any_eq_true.mp hany
        rw [(hboth.1 m' hm').1] at hs'
        cases hs'
      have hle : m.numberOfValues * m.dataType.size ≤ chunkBytes (segs ++ [s]) := by
        unfold chunkBytes
        exact le_sum_of_mem' (List.mem_map.mpr ⟨m, hmem, rfl⟩)
      have := mul_chunks_le (raw := rawBytes (segs ++ [s])) (hboth.1 m hmem).2 hle
      rw [← hch, hraw] at this
      omega) (by
    rw [hends, List.length_append, hbytes, List.length_append, hhdr, hdata]
    omega)
  rw [hadd]
  exact ⟨_, s, rfl, ⟨⟨replay_snoc h.exact'.refines hadd, hends⟩, hboth.1, hboth.2⟩⟩

theorem steady_properties {segs : List Segment} {t : TdmsFile} (h : Steady segs t) (e : Endian)
    (path : PropertyPath) (properties : List (Text × PropertyValue))
    (hsz : (t.writeProperties e path properties).2.bytes.length < 2 ^ 64) :
    ∃ t' s, t.writeProperties e path properties = (.ok (), t') ∧ Steady (segs ++ [s]) t' := by
  obtain ⟨t', h1, _, h3⟩ := property_step h.exact' e path properties hsz
  obtain ⟨f1, f2, _⟩ := property_frame segs e path properties
  have hsame : activeLayouts (segs ++ [(propertySegment e path properties).1]) = activeLayouts segs := by
    unfold activeLayouts
    rw [f1]
    congr 1
    funext p
    exact f2 p
  refine ⟨t', _, h1, h3, ?_, ?_⟩
  · rw [hsame]; exact h.sized
  · unfold chunkBytes; rw [hsame]; exact h.chunk

theorem accepted_write {e : Endian} {ty : STy} {chs : List ChannelPath} {vals : List ty.Val} {layout : DataLayout} :
    Accepted (.write e ty chs vals layout) = true ↔ chs ≠ [] ∧ chs.length ∣ vals.length := by
  unfold Accepted
  rw [Bool.and_eq_true, Nat.dvd_iff_mod_eq_zero]
  simp

/-- **C29** (partial: no extended floats, strings and empty tables). Make any calls, some of which are
    rejected, on a file of which the index and the bytes agree: the state is the one that the calls which
    are not rejected lead to, these all succeed, and index and bytes still agree. -/
theorem failed_write_harmless_partial (al : Alloc) : ∀ (ops : List Op) (segs : List Segment) (t : TdmsFile),
    Steady segs t → (∀ op ∈ ops, Storable op) → (runOps al t ops).bytes.length < 2 ^ 63 →
    runOps al t ops = runOps al t (ops.filter Accepted) ∧ AllSucceed al t (ops.filter Accepted) ∧
    ∃ more, Steady (segs ++ more) (runOps al t ops) := by
  intro ops
  induction ops with
  | nil =>
    intro segs t h _ _
    exact ⟨rfl, fun pre op post hh => by simp at hh, [], by rw [List.append_nil]; exact h⟩
  | cons op ops ih =>
    intro segs t h hst hsz
    rw [runOps_cons] at hsz ⊢
    have hsz1 : (op.run al t).2.bytes.length < 2 ^ 63 :=
      Nat.lt_of_le_of_lt (runOps_bytes al _ ops).length_le hsz
    have hst' : ∀ o ∈ ops, Storable o := fun o ho => hst o (List.mem_cons_of_mem _ ho)
    by_cases hacc : Accepted op = true
    · rw [List.filter_cons_of_pos hacc, runOps_cons, allSucceed_cons]
      have hstep : ∃ t' s, op.run al t = (.ok (), t') ∧ Steady (segs ++ [s]) t' := by
        cases op with
        | props e path properties =>
          exact steady_properties h e path properties (Nat.lt_trans hsz1 (by decide))
        | write e ty chs vals layout =>
          obtain ⟨h1, h2⟩ := accepted_write.mp hacc
          obtain ⟨h3, h4⟩ := hst _ List.mem_cons_self
          exact steady_write al e ty h3 h chs vals layout h1 h2 (fun hh => h1 (h4 hh)) hsz1
      obtain ⟨t', s, hrun, hst2⟩ := hstep
      rw [hrun] at hsz ⊢
      obtain ⟨i1, i2, more, i3⟩ := ih (segs ++ [s]) t' hst2 hst' hsz
      exact ⟨i1, ⟨rfl, i2⟩, s :: more, by rw [List.append_cons]; exact i3⟩
    · rw [List.filter_cons_of_neg hacc]
      have hsame : (op.run al t).2 = t := by
        cases op with
        | props => exact absurd rfl hacc
        | write e ty chs vals layout =>
          show (t.writeChannels (ty.storage al) e chs vals layout).2 = t
          by_cases hne : chs = []
          · rw [(rejected_arguments _ e t chs vals layout).1 hne]
          · by_cases hd : chs.length ∣ vals.length
            · exact absurd (accepted_write.mpr ⟨hne, hd⟩) hacc
            · rw [(rejected_arguments _ e t chs vals layout).2 hne hd]
      rw [hsame] at hsz ⊢
      exact ih segs t h hst' hsz

/-- **C29, reopening** (partial, also with the limits of C32). After any calls on a new file, some of
    which fail, the file can be opened, and has everything that the session has. -/
theorem failed_write_reopen_partial (al : Alloc) (hal : Generous al) {t : TdmsFile}
    (hcreate : TdmsFile.create al = .ok t) (ops : List Op) (hst : ∀ op ∈ ops, Storable op)
    (hdist : ∀ op ∈ ops, Distinct op) (hfit : ∀ op ∈ ops, OpFits op)
    (hdesc : Described al Last.none (ops.filter Accepted))
    (hsz : (runOps al t ops).bytes.length < 2 ^ 63) :
    TdmsFile.new al (runOps al t ops).bytes = .ok (runOps al t ops) := by
  have ht := created_eq hcreate
  obtain ⟨h1, h2, _⟩ := failed_write_harmless_partial al ops [] t
    (by rw [ht]; exact ⟨⟨rfl, rfl⟩, fun _ h => (by cases h), (by decide)⟩) hst hsz
  rw [h1] at hsz ⊢
  exact reopen_partial al hal hcreate _ h2 (fun op ho => hdist op (List.mem_filter.mp ho).1)
    (fun op ho => hfit op (List.mem_filter.mp ho).1) hdesc (Nat.lt_trans hsz (by decide))

/-- **C29, later writes** (partial, also with the limits of C31). After any calls on a new file, some of
    which fail, every channel has what the calls that did not fail wrote. -/
theorem failed_write_read_partial (al : Alloc) {t : TdmsFile} (hcreate : TdmsFile.create al = .ok t)
    (ops : List Op) (hst : ∀ op ∈ ops, Storable op) (hc : Compatible Last.none (ops.filter Accepted))
    (hsz : (runOps al t ops).bytes.length < 2 ^ 63) (ty : STy) (c : ChannelPath)
    (hty : Format.ordinaryTy ty = true) (htype : ∀ op ∈ ops, Names c.path op → typeOf op = some ty)
    (hn : ∃ op ∈ ops.filter Accepted, Names c.path op) :
    (runOps al t ops).channelLength c = .ok (some (written ty c.path (ops.filter Accepted)).length) ∧
    ∀ start out, (runOps al t ops).readChannelFrom (ty.storage al) c start out
      = .ok (overlay out ((written ty c.path (ops.filter Accepted)).drop start)) := by
  have ht := created_eq hcreate
  obtain ⟨h1, h2, _⟩ := failed_write_harmless_partial al ops [] t
    (by rw [ht]; exact ⟨⟨rfl, rfl⟩, fun _ h => (by cases h), (by decide)⟩) hst hsz
  rw [h1] at hsz ⊢
  exact (write_then_read_partial al hcreate _ hc hsz).2 ty c hty
    (fun op ho => htype op (List.mem_filter.mp ho).1) hn

/-- The hypotheses hold for a history with two rejected calls, one without channels and one with three
    values for two channels. -/
theorem failed_write_example :
    let ops : List Op := [writeU16 ["a", "b"] [1, 2, 3, 4], writeU16 [] [9], writeU16 ["a", "b"] [5, 6, 7],
      writeU16 ["c"] [8]]
    ops.filter Accepted = [writeU16 ["a", "b"] [1, 2, 3, 4], writeU16 ["c"] [8]] ∧
    (∀ op ∈ ops, Storable op) ∧ allOk ops = false ∧ (session ops).u16s "c" 1 = .ok (vals16 [8]) ∧
    Described anyAlloc Last.none (ops.filter Accepted) := by
  intro ops
  have hf : ops.filter Accepted = [writeU16 ["a", "b"] [1, 2, 3, 4], writeU16 ["c"] [8]] := by
    show List.filter Accepted [_, _, _, _] = _
    rw [List.filter_cons_of_pos (by decide +kernel), List.filter_cons_of_neg (by decide +kernel),
      List.filter_cons_of_neg (by decide +kernel), List.filter_cons_of_pos (by decide +kernel)]
    rfl
  refine ⟨hf, ?_, ?_, ?_, ?_⟩
  · intro op hop
    simp only [ops, List.mem_cons, List.not_mem_nil, or_false] at hop
    rcases hop with rfl | rfl | rfl | rfl <;> exact ⟨⟨(by decide), (by decide)⟩, fun h => (by cases h)⟩
  · decide +kernel
  · decide +kernel
  · rw [hf]
    exact ⟨Or.inl (by decide +kernel), Or.inl (by decide +kernel), trivial⟩

/-- C29 is false in full. Writing no values fails, but its header is in the file: the file cannot be opened
    any more, and what is written later, without an error, cannot be read. -/
theorem failed_write_counterexample :
    (let t := session [writeU16 ["a"] [1, 2]]
     (writeU16 ["b"] []).run anyAlloc t |>.1) = R.err .zeroLengthDataBlock ∧
    TdmsFile.new anyAlloc (session [writeU16 ["a"] [1, 2], writeU16 ["b"] []]).bytes = R.err .zeroLengthDataBlock ∧
    (let t := session [writeU16 ["a"] [1, 2], writeU16 ["b"] []]
     ((writeU16 ["c"] [7]).run anyAlloc t).1 = .ok () ∧
     ((writeU16 ["c"] [7]).run anyAlloc t).2.u16s "c" 1 ≠ .ok (vals16 [7])) := by
  refine ⟨?_, ?_, ?_, ?_⟩ <;> decide +kernel

end Tedium
