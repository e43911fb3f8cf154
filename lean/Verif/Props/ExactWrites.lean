import Verif.Props.AppendExact
import Verif.Props.ReopenExact
import Verif.Props.Disk
import Verif.Props.Codec
import Verif.Props.Verdict
import Verif.Proofs.Persist

/-! # C12, C29, C34, C46, C64, exactly: where the guards are the limits -/

namespace Tedium
open SegSpec WriteSpec

/-! ## C12 -/

/-- **C12, exactly.** A written segment, of less than `2^64` bytes, is read back as it was indexed if and only if it has a
    metadata section. -/
theorem segment_roundtrip_iff (al : Alloc) (hal : Generous al) (e : Endian) (toc : ToC) (md : Option MetaData)
    (data : Option DataToWrite) (h : ∀ m, md = some m → m.Fits)
    (hs : (writeSegment e toc md data).1.nextSegmentOffset < 2 ^ 64) (pre post : Bytes) :
    (∃ q, Segment.read al (pre ++ ((writeSegment e toc md data).2 ++ post)) pre.length
      = .ok ((writeSegment e toc md data).1, q)) ↔ md.isSome = true := by
  cases md with
  | none =>
    refine ⟨fun ⟨q, hq⟩ => ?_, fun h => by cases h⟩
    exact absurd hq (segment_without_metadata_counterexample al e toc data _ _ q)
  | some m => exact ⟨fun _ => rfl, fun _ => ⟨_, segment_roundtrip_partial al hal e toc m data (h m rfl) hs pre post⟩⟩

/-! ## C46 -/

/-- **C46, exactly.** After any history of successful calls on a new file, a data write adds 28 bytes and the bytes of its
    values, and no metadata, if and only if its list of channels does not differ from the list in force at a position that both
    have; else it adds at least four bytes more. -/
theorem metadata_omitted_iff (al : Alloc) {t : TdmsFile} (hcreate : TdmsFile.create al = .ok t) (ops : List Op)
    (hdist : ∀ op ∈ ops, Distinct op) (hall : AllSucceed al t ops) (e : Endian) (ty : STy) (chs : List ChannelPath)
    (vals : List ty.Val) (layout : DataLayout) (hne : chs ≠ []) (hdiv : chs.length ∣ vals.length) :
    let before := (runOps al t ops).bytes.length
    let after := ((Op.write e ty chs vals layout).run al (runOps al t ops)).2.bytes.length
    let data := (vals.flatMap ((ty.storage al).write e)).length
    (after = before + 28 + data ↔ ¬ Diverges (inForce ops) (chs.map ChannelPath.path)) ∧
    (Diverges (inForce ops) (chs.map ChannelPath.path) → before + 28 + data + 4 ≤ after) := by
  have hact := active_in_force al ops t Last.none (Session.created hcreate) (by rw [created_eq hcreate]; rfl) hdist hall
  change inForce ops = _ at hact
  rw [hact]
  generalize runOps al t ops = t1
  intro before after data
  obtain ⟨s, bs, heq, _, _, _, _, hmd, _, _, hlen, _⟩ := writeChannels_segment (ty.storage al) e t1 chs vals layout hne hdiv
  have hafter : after = before + (28 + MetaData.optSize s.metaData + data) := by
    show (t1.writeChannels (ty.storage al) e chs vals layout).2.bytes.length = _
    rw [heq]
    dsimp only
    rw [List.length_append, hlen]
  cases hm : s.metaData with
  | none =>
    have hd := hmd.mp hm
    rw [hm] at hafter
    refine ⟨⟨fun _ => hd, fun _ => ?_⟩, fun h => absurd h hd⟩
    rw [hafter]
    show before + (28 + 0 + data) = _
    omega
  | some m =>
    have hd : Diverges (t1.index.activeObjects.map (·.path)) (chs.map ChannelPath.path) :=
      Classical.byContradiction fun hd => by rw [hmd.mpr hd] at hm; cases hm
    rw [hm] at hafter
    have h4 : 4 ≤ MetaData.optSize (some m) := Nat.le_add_right _ _
    refine ⟨⟨fun h => ?_, fun h => absurd hd h⟩, fun _ => ?_⟩ <;> omega

/-- Both cases: the list with a channel less is written without metadata, another list with it. -/
theorem metadata_omitted_example :
    let ops := [writeU16 ["a", "b"] [1, 2]]
    let t := session ops
    AllSucceed anyAlloc ⟨Index.new, []⟩ ops ∧ (∀ op ∈ ops, Distinct op) ∧
    ¬ Diverges (inForce ops) ([chan "a"].map ChannelPath.path) ∧
    ((writeU16 ["a"] [3]).run anyAlloc t).2.bytes.length = t.bytes.length + 28 + 2 ∧
    Diverges (inForce ops) ([chan "b"].map ChannelPath.path) ∧
    ((writeU16 ["b"] [3]).run anyAlloc t).2.bytes.length = t.bytes.length + 28 + 2 + 24 := by
  refine ⟨allSucceed_of_allOk (by decide +kernel), ?_, by decide +kernel, by decide +kernel, by decide +kernel,
    by decide +kernel⟩
  intro op hop
  rw [List.mem_singleton.mp hop]
  show List.Nodup _
  decide +kernel

/-! ## C34 -/

/-- The samples that a data write of `bytes` bytes adds to a channel whose list is not changed: `segs` are the segments of the
    file, and a channel that is not among the active ones gets nothing. -/
def addedTo (segs : List Segment) (bytes : Nat) (p : Text) : Nat :=
  if p ∈ active segs then
    valuesPerChunk segs p *
      (if (activeLayouts segs).any (fun m => m.totalSizeBytes.isSome) then 1
        else if chunkBytes segs = 0 then 0 else bytes / chunkBytes segs)
  else 0

/-- **C34, exactly.** A data write that succeeds, to a list of channels that differs from the active one at a position that both
    have, adds no samples to a channel that it does not name. Any other data write that succeeds adds, to every channel whatever
    it names, as many samples as the values take chunks of the last layout. -/
theorem data_write_lengths_exact (al : Alloc) {segs : List Segment} {t : TdmsFile} (h : replay Index.new segs = .ok t.index)
    (e : Endian) (ty : STy) (chs : List ChannelPath) (vals : List ty.Val) (layout : DataLayout)
    (hok : (t.writeChannels (ty.storage al) e chs vals layout).1 = .ok ()) :
    ∃ s, replay Index.new (segs ++ [s]) = .ok (t.writeChannels (ty.storage al) e chs vals layout).2.index ∧
      (Diverges (active segs) (chs.map ChannelPath.path) →
        ∀ p, p ∉ chs.map ChannelPath.path → sampleCount (segs ++ [s]) p = sampleCount segs p) ∧
      (¬ Diverges (active segs) (chs.map ChannelPath.path) →
        ∀ p, sampleCount (segs ++ [s]) p = sampleCount segs p + addedTo segs ((ty.storage al).memSize * vals.length) p) := by
  have hne : chs ≠ [] := fun hh => by
    rw [(rejected_arguments _ e t chs vals layout).1 hh] at hok; cases hok
  have hdiv : chs.length ∣ vals.length := Decidable.byContradiction fun hh => by
    rw [(rejected_arguments _ e t chs vals layout).2 hne hh] at hok; cases hok
  have hr := replay_refines h
  have heq := writeChannels_eq (ty.storage al) e hr chs vals layout hne hdiv
  rw [heq] at hok ⊢
  dsimp only at hok ⊢
  obtain ⟨n, hn⟩ := addSegment_map_ok hok
  generalize chs.map ChannelPath.path = ps at *
  refine ⟨(writtenSegment (ty.storage al) e segs ps vals layout).1, replay_snoc h (Prod.ext hn rfl), ?_, ?_⟩
  · intro hd p hp
    rw [sampleCount_snoc, if_pos (writtenSegment_fields _ e segs ps vals layout).1]
    unfold samplesIn
    rw [active_written, if_pos hd, if_neg (fun hm => hp ((mem_firstOccurrences _ _).mp hm)), Nat.add_zero]
  · intro hd p
    rw [sampleCount_snoc, if_pos (writtenSegment_fields _ e segs ps vals layout).1]
    congr 1
    obtain ⟨_, _, _, _, f5, f6, _⟩ := writtenSegment_fields (ty.storage al) e segs ps vals layout
    have hraw : rawBytes (segs ++ [(writtenSegment (ty.storage al) e segs ps vals layout).1])
        = (ty.storage al).memSize * vals.length := by
      unfold rawBytes
      rw [List.getLast?_append, List.getLast?_singleton]
      show _ - _ = _
      rw [f5, f6]
      omega
    have hlay : ∀ q, layoutOf (entries (segs ++ [(writtenSegment (ty.storage al) e segs ps vals layout).1])) q
        = layoutOf (entries segs) q := by
      intro q
      rw [layout_written, if_neg (fun hh => hd hh.1)]
    have hact : active (segs ++ [(writtenSegment (ty.storage al) e segs ps vals layout).1]) = active segs := by
      rw [active_written, if_neg hd]
    have hal' : activeLayouts (segs ++ [(writtenSegment (ty.storage al) e segs ps vals layout).1]) = activeLayouts segs := by
      unfold activeLayouts
      rw [hact]
      exact congrArg (fun f => (active segs).filterMap f) (funext hlay)
    unfold samplesIn addedTo valuesPerChunk chunks chunkBytes
    rw [hact, hlay, hal', hraw]

theorem channelLength_count {segs : List Segment} {t : TdmsFile} (h : replay Index.new segs = .ok t.index) (c : ChannelPath)
    (n : Nat) : t.channelLength c = .ok (some n) ↔
      Listed (entries segs) c.path ∧ sampleCount segs c.path = n ∧ n < 2 ^ 64 := by
  by_cases hl : Listed (entries segs) c.path
  · rw [channel_length_sum h c hl]
    change (if sampleCount segs c.path < 2 ^ 64 then Except.ok (some (sampleCount segs c.path)) else R.panic .overflow) = _ ↔ _
    split
    · rename_i hlt
      constructor
      · intro hh
        have := Option.some.inj (Except.ok.inj hh)
        exact ⟨hl, this, this ▸ hlt⟩
      · rintro ⟨_, rfl, _⟩; rfl
    · rename_i hge
      exact ⟨fun hh => (by cases hh), fun ⟨_, h1, h2⟩ => absurd (h1 ▸ h2) hge⟩
  · refine ⟨fun hh => ?_, fun hh => absurd hh.1 hl⟩
    rw [(missing_objects h .file c []).2.2.2.1.mpr hl] at hh
    cases hh

/-- ... in terms of the lengths that the program sees: an unnamed channel keeps its length exactly if the list differs from the
    active one, or nothing of its samples fits into the bytes that were written. -/
theorem data_write_frame_iff (al : Alloc) {segs : List Segment} {t : TdmsFile} (h : replay Index.new segs = .ok t.index)
    (e : Endian) (ty : STy) (chs : List ChannelPath) (vals : List ty.Val) (layout : DataLayout) (c : ChannelPath)
    (hok : (t.writeChannels (ty.storage al) e chs vals layout).1 = .ok ())
    (hc : ∀ c' ∈ chs, c'.path ≠ c.path) {n : Nat} (hlen : t.channelLength c = .ok (some n)) :
    (t.writeChannels (ty.storage al) e chs vals layout).2.channelLength c = .ok (some n) ↔
      Diverges (active segs) (chs.map ChannelPath.path) ∨ addedTo segs ((ty.storage al).memSize * vals.length) c.path = 0 := by
  have hnot : c.path ∉ chs.map ChannelPath.path := fun hh => by
    obtain ⟨c', hc', h'⟩ := List.mem_map.mp hh
    exact hc c' hc' h'
  obtain ⟨s, hs, h1, h2⟩ := data_write_lengths_exact al h e ty chs vals layout hok
  have hlen' := (channelLength_count h c n).mp hlen
  rw [channelLength_count hs c n]
  have hlist' : Listed (entries (segs ++ [s])) c.path := by
    obtain ⟨o, ho, hp⟩ := hlen'.1
    exact ⟨o, by rw [entries_snoc]; exact List.mem_append_left _ ho, hp⟩
  by_cases hd : Diverges (active segs) (chs.map ChannelPath.path)
  · rw [h1 hd c.path hnot]
    exact ⟨fun _ => Or.inl hd, fun _ => ⟨hlist', hlen'.2⟩⟩
  · rw [h2 hd c.path, hlen'.2.1]
    refine ⟨fun hh => Or.inr (Nat.add_left_cancel (hh.2.1.trans (Nat.add_zero n).symm)), ?_⟩
    rintro (hh | hh)
    · exact absurd hh hd
    · rw [hh]; exact ⟨hlist', rfl, hlen'.2.2⟩

/-! ## C64 -/

/-- After any number of the calls, all ways of closing the file and loading it again between them have led to the same state. -/
def ReopensAnywhere (al : Alloc) (t : TdmsFile) (ops : List Op) : Prop :=
  ∀ (n : Nat) (as : List Action), Action.calls as = ops.take n → runActions al t as = .ok (runOps al t (ops.take n))

theorem runActions_append (al : Alloc) : ∀ (as bs : List Action) (t : TdmsFile),
    runActions al t (as ++ bs) = (runActions al t as).bind (fun t => runActions al t bs)
  | [], _, _ => rfl
  | .call op :: as, bs, t => runActions_append al as bs (op.run al t).2
  | .reopen :: as, bs, t => by
    show (match TdmsFile.new al t.bytes with
      | .error e => Except.error e
      | .ok t => runActions al t (as ++ bs)) = Except.bind (match TdmsFile.new al t.bytes with
      | .error e => Except.error e
      | .ok t => runActions al t as) _
    cases TdmsFile.new al t.bytes with
    | error e => rfl
    | ok t => exact runActions_append al as bs t

theorem runActions_calls (al : Alloc) : ∀ (ops : List Op) (t : TdmsFile),
    runActions al t (ops.map .call) = .ok (runOps al t ops)
  | [], _ => rfl
  | op :: ops, t => by rw [runOps_cons]; exact runActions_calls al ops _

theorem calls_map (ops : List Op) : Action.calls (ops.map .call) = ops := by
  induction ops with
  | nil => rfl
  | cons op ops ih => exact congrArg (op :: ·) ih

theorem calls_append (as bs : List Action) : Action.calls (as ++ bs) = Action.calls as ++ Action.calls bs :=
  List.filterMap_append

/-- **C64, the guard is exact.** Take any calls on a new file that succeed. Closing the file and loading it again, at any
    points between the calls and any number of times, makes no difference, whatever the values that are written, exactly if
    every data write differs from the list of channels in force at a position that both lists have. (Not for extended floats
    and strings, which `OpFits` excludes.) -/
theorem reopening_iff (al : Alloc) (hal : Generous al) {t : TdmsFile} (hcreate : TdmsFile.create al = .ok t)
    (ops : List Op) (hall : AllSucceed al t ops) (hdist : ∀ op ∈ ops, Distinct op)
    (hfit : ∀ op ∈ ops, OpFits op) (hsz : (runOps al t ops).bytes.length < 2 ^ 64) :
    (∀ ops', SameShape ops ops' → ReopensAnywhere al t ops') ↔ Changing Last.none ops := by
  have hsized := opfits_sized hfit
  constructor
  · intro hre
    apply (reopens_iff al hal hcreate ops hall hdist hfit hsz).mp
    intro ops' hshape
    intro n
    have := hre ops' hshape n ((ops'.take n).map .call ++ [.reopen])
      (by rw [calls_append, calls_map]; exact List.append_nil _)
    rw [runActions_append, runActions_calls] at this
    change (match TdmsFile.new al (runOps al t (ops'.take n)).bytes with
      | .error e => Except.error e
      | .ok t => Except.ok t) = _ at this
    revert this
    cases TdmsFile.new al (runOps al t (ops'.take n)).bytes with
    | error e => intro hh; cases hh
    | ok t' => exact id
  · intro hc ops' hshape n as has
    have hall' := allSucceed_shape al hshape hsized t t rfl rfl hall
    have hfit' := opfits_shape hshape hfit
    have hdist' := distinct_shape hshape hdist
    have hsz' : (runOps al t ops').bytes.length < 2 ^ 64 := by
      rw [(runOps_shape al hshape hsized t t rfl rfl).2]
      exact hsz
    rw [← List.take_append_drop n ops'] at hall'
    have := reopening_makes_no_difference_partial al hal hcreate as (by rw [has]; exact (allSucceed_append hall').1)
      (by rw [has]; exact fun op ho => hdist' op (List.mem_of_mem_take ho))
      (by rw [has]; exact fun op ho => hfit' op (List.mem_of_mem_take ho))
      (by rw [has]; exact changing_described al _ _ (changing_take _ _ n (changing_shape hshape _ hc)))
      (by rw [has]; exact Nat.lt_of_le_of_lt (runOps_take_bytes al t ops' n) hsz')
    rw [has] at this
    exact this

/-! ## C29 -/

/-- In every state, a write that names channels and has no values fails. -/
theorem empty_write_fails (al : Alloc) {segs : List Segment} {t : TdmsFile} (h : replay Index.new segs = .ok t.index)
    (e : Endian) (ty : STy) (chs : List ChannelPath) (layout : DataLayout) (hne : chs ≠ []) :
    (t.writeChannels (ty.storage al) e chs [] layout).1 = R.err .zeroLengthDataBlock := by
  have hr := replay_refines h
  rw [writeChannels_eq (ty.storage al) e hr chs [] layout hne ⟨0, rfl⟩]
  dsimp only
  rw [segment_verdict h]
  have hpn : chs.map ChannelPath.path ≠ [] := fun hh => hne (List.map_eq_nil_iff.mp hh)
  generalize chs.map ChannelPath.path = ps at *
  obtain ⟨f1, _, _, _, f5, f6, _⟩ := writtenSegment_fields (ty.storage al) e segs ps [] layout
  have hact : active (segs ++ [(writtenSegment (ty.storage al) e segs ps [] layout).1]) ≠ [] := by
    rw [active_written]
    split
    · intro hh
      cases ps with
      | nil => exact hpn rfl
      | cons p ps =>
        have := (mem_firstOccurrences (p :: ps) p).mpr List.mem_cons_self
        rw [hh] at this
        cases this
    · rename_i hd
      exact fun hh => hd (Or.inl hh)
  have hun : unresolved segs (writtenSegment (ty.storage al) e segs ps [] layout).1 = false := by
    rw [Bool.eq_false_iff]
    intro hh
    obtain ⟨pre, o, post, h1, h2⟩ := (unresolved_iff _ _).mp hh
    exact written_previous (ty.storage al) e segs ps [] layout pre o post h1 h2
  have heq : (writtenSegment (ty.storage al) e segs ps [] layout).1.nextSegmentOffset
      = (writtenSegment (ty.storage al) e segs ps [] layout).1.rawDataOffset := by
    rw [f5, f6]; rfl
  unfold verdict
  dsimp only
  rw [hun, if_neg (by decide), if_neg (fun hh => hact hh.2), if_neg (fun hh => by omega), if_pos ⟨f1, heq⟩]
  rfl

/-- After a write that names channels and has no values the file cannot be opened; if its list differs from the active one,
    not even when anything is appended to it. -/
theorem empty_write_breaks (al : Alloc) (hal : Generous al) {fs : List FileSegment} {t : TdmsFile} (h : Holds fs t)
    (e : Endian) (ty : STy) (hty : SizedTy ty) (chs : List ChannelPath) (layout : DataLayout) (hne : chs ≠ [])
    (hfit : ∀ c ∈ chs, Text.Fits c.path) (hcount : chs.length < 2 ^ 32)
    (hsize : (t.writeChannels (ty.storage al) e chs [] layout).2.bytes.length < 2 ^ 64) :
    (∃ err, TdmsFile.new al (t.writeChannels (ty.storage al) e chs [] layout).2.bytes = .error err) ∧
    (Diverges (t.index.activeObjects.map (·.path)) (chs.map ChannelPath.path) →
      ∀ more, TdmsFile.new al ((t.writeChannels (ty.storage al) e chs [] layout).2.bytes ++ more)
        = R.err .zeroLengthDataBlock) := by
  have hfail := empty_write_fails al h.index e ty chs layout hne
  have hdiverges : Diverges (t.index.activeObjects.map (·.path)) (chs.map ChannelPath.path) →
      ∀ more, TdmsFile.new al ((t.writeChannels (ty.storage al) e chs [] layout).2.bytes ++ more)
        = R.err .zeroLengthDataBlock := by
    intro hd more
    obtain ⟨s, hs, hrun, _, _⟩ := diverging_file_segment al e ty hty t chs [] layout hne ⟨0, rfl⟩ hd hfit hcount hsize
    rw [hrun] at hfail ⊢
    dsimp only at hfail ⊢
    have hadd : (t.index.addSegment s.segment).1 = R.err .zeroLengthDataBlock := by
      revert hfail
      cases (t.index.addSegment s.segment).1 with
      | error e => exact fun hh => (by cases hh; rfl)
      | ok n => exact fun hh => (by cases hh)
    obtain ⟨segs, last, hp⟩ := Parses.exists al ((fs ++ [s]).flatMap FileSegment.encode ++ more)
      ((fs ++ [s]).flatMap FileSegment.encode).length
    have hparse := FileSegment.parses al hal (fs ++ [s]) (by
      intro x hx
      rcases List.mem_append.mp hx with hx | hx
      · exact h.fits x hx
      · rw [List.mem_singleton.mp hx]; exact hs) [] more (segs := segs) (last := last) (by
        rw [List.nil_append, List.length_nil, Nat.zero_add]; exact hp)
    rw [List.nil_append] at hparse
    have hbytes : t.bytes ++ s.encode = (fs ++ [s]).flatMap FileSegment.encode := by
      rw [List.flatMap_append, ← h.bytes]; simp
    rw [hbytes]
    refine (open_verdict hparse).1 _ ?_
    rw [refusal_some]
    refine ⟨fs.map FileSegment.segment, s.segment, segs, by simp, ?_, ?_⟩
    · cases hrf : refusal [] (fs.map FileSegment.segment) with
      | none => rfl
      | some err =>
        have := (replay_refusal (fs.map FileSegment.segment) [] (ix := Index.new) rfl).1 err hrf
        rw [h.index] at this
        cases this
    · rw [List.nil_append, ← segment_verdict h.index]
      exact hadd
  refine ⟨?_, hdiverges⟩
  by_cases hd : Diverges (t.index.activeObjects.map (·.path)) (chs.map ChannelPath.path)
  · have := hdiverges hd []
    rw [List.append_nil] at this
    exact ⟨_, this⟩
  · obtain ⟨header, hl, hb⟩ := live_write_bytes (ty.storage al) e t chs [] layout hne ⟨0, rfl⟩ hd
    rw [List.flatMap_nil, List.append_nil] at hb
    rw [hb]
    have hones : Ones (t.bytes ++ header) (t.bytes.length + 28) := by
      intro x hx
      rw [List.drop_eq_nil_of_le (by rw [List.length_append, hl]; exact Nat.le_refl _)] at hx
      cases hx
    obtain ⟨last, hlast⟩ := Ones.segment (al := al) hones
    have hne' : last ≠ .err .endOfFile := by
      rintro rfl
      have := (Segment.read_eof_iff al _ _).mp hlast
      rw [List.length_append, hl] at this
      omega
    rw [h.bytes] at hlast
    have hp := FileSegment.parses_done al hal fs h.fits header hlast
    rw [← h.bytes] at hp
    refine ⟨last, ?_⟩
    unfold TdmsFile.new
    rw [buildIndex_eq hp]
    unfold openResult
    rw [h.index]
    dsimp only
    rw [if_neg hne']
    rfl

/-- The histories of C29: created anew, with calls that may be rejected, that can be reopened. -/
structure Recoverable (al : Alloc) (t : TdmsFile) (ops : List Op) : Prop where
  storable : ∀ op ∈ ops, Storable op
  distinct : ∀ op ∈ ops, Distinct op
  fit : ∀ op ∈ ops, OpFits op
  described : Described al Last.none (ops.filter Accepted)
  size : (runOps al t ops).bytes.length < 2 ^ 63

/-- **C29, exactly.** After any calls on a new file, some of which were rejected, a data write returns `Ok` exactly if it names
    channels, and has values, as many for each channel. If it fails, it has not changed the file exactly if it was rejected for
    its arguments, and that is also exactly when the file can still be opened. What else can fail is a write of no values: the
    file cannot be opened after it. -/
theorem failed_write_iff (al : Alloc) (hal : Generous al) {t : TdmsFile} (hcreate : TdmsFile.create al = .ok t)
    (ops : List Op) (h : Recoverable al t ops) (e : Endian) (ty : STy) (chs : List ChannelPath) (vals : List ty.Val)
    (layout : DataLayout) (hfit : OpFits (.write e ty chs vals layout))
    (hsz : ((Op.write e ty chs vals layout).run al (runOps al t ops)).2.bytes.length < 2 ^ 63) :
    let before := runOps al t ops
    let call := (Op.write e ty chs vals layout).run al before
    (call.1 = .ok () ↔ chs ≠ [] ∧ vals ≠ [] ∧ chs.length ∣ vals.length) ∧
    (call.1 ≠ .ok () →
      ((∃ after, TdmsFile.new al call.2.bytes = .ok after) ↔ Accepted (.write e ty chs vals layout) = false) ∧
      (call.2 = before ↔ Accepted (.write e ty chs vals layout) = false)) := by
  have ht := created_eq hcreate
  have hst : Steady [] t := by rw [ht]; exact ⟨⟨rfl, rfl⟩, fun _ h => (by cases h), (by decide)⟩
  obtain ⟨h1, h2, more, h3⟩ := failed_write_harmless_partial al ops [] t hst h.storable h.size
  rw [List.nil_append] at h3
  have hreads : ∃ fs, Holds fs (runOps al t ops) := by
    rw [h1]
    have hholds : Holds [] t := by
      rw [ht]
      exact ⟨fun _ h => (by cases h), rfl, rfl⟩
    have hsize := h.size
    rw [h1] at hsize
    obtain ⟨fs, hfs⟩ := reads_history al (ops.filter Accepted) [] t Last.none hholds (.created hcreate)
      (by rw [ht]; rfl) h2 (fun op ho => h.distinct op (List.mem_filter.mp ho).1)
      (fun op ho => h.fit op (List.mem_filter.mp ho).1) h.described (Nat.lt_trans hsize (by decide))
    exact ⟨_, hfs⟩
  obtain ⟨fs, hfs⟩ := hreads
  intro before call
  have hbefore : TdmsFile.new al before.bytes = .ok before := hfs.new al hal
  change call.2.bytes.length < 2 ^ 63 at hsz
  change Steady more before at h3
  change Holds fs before at hfs
  obtain ⟨hf1, hf2, hf3⟩ := hfit
  clear_value before
  have hrej : Accepted (.write e ty chs vals layout) = false → call.1 ≠ .ok () ∧ call.2 = before := by
    intro hacc
    by_cases hne : chs = []
    · have hr : call = _ := (rejected_arguments (ty.storage al) e before chs vals layout).1 hne
      rw [hr]
      exact ⟨fun hh => (by cases hh), rfl⟩
    · by_cases hd : chs.length ∣ vals.length
      · rw [accepted_write.mpr ⟨hne, hd⟩] at hacc; cases hacc
      · have hr : call = _ := (rejected_arguments (ty.storage al) e before chs vals layout).2 hne hd
        rw [hr]
        exact ⟨fun hh => (by cases hh), rfl⟩
  cases hacc : Accepted (.write e ty chs vals layout) with
  | false =>
    obtain ⟨hr1, hr2⟩ := hrej hacc
    refine ⟨⟨fun hh => absurd hh hr1, fun ⟨hne, _, hd⟩ => ?_⟩, fun _ => ⟨⟨fun _ => rfl, fun _ => ?_⟩, ⟨fun _ => rfl, fun _ => hr2⟩⟩⟩
    · rw [accepted_write.mpr ⟨hne, hd⟩] at hacc; cases hacc
    · rw [hr2]; exact ⟨_, hbefore⟩
  | true =>
    obtain ⟨hne, hd⟩ := accepted_write.mp hacc
    by_cases hv : vals = []
    · subst hv
      have hfail : call.1 = R.err .zeroLengthDataBlock := empty_write_fails al hfs.index e ty chs layout hne
      have hbad := (empty_write_breaks al hal hfs e ty hf1 chs layout hne hf3 hf2 (Nat.lt_trans hsz (by decide))).1
      change ∃ err, TdmsFile.new al call.2.bytes = .error err at hbad
      obtain ⟨err, hbad⟩ := hbad
      refine ⟨⟨fun hh => (by rw [hfail] at hh; cases hh), fun hh => absurd rfl hh.2.1⟩, fun _ => ⟨⟨?_, fun hh => (by cases hh)⟩, ⟨?_, fun hh => (by cases hh)⟩⟩⟩
      · rintro ⟨t', ht'⟩
        rw [hbad] at ht'
        cases ht'
      · intro hh
        rw [hh, hbefore] at hbad
        cases hbad
    · obtain ⟨t', s, hrun, _⟩ := steady_write al e ty hf1 h3 chs vals layout hne hd hv hsz
      have hok : call.1 = .ok () := congrArg Prod.fst hrun
      exact ⟨⟨fun _ => ⟨hne, hv, hd⟩, fun _ => hok⟩, fun hh => absurd hok hh⟩

/-- The hypotheses hold for a history with two rejected calls; the next call can be any of the three kinds. -/
theorem failed_write_iff_example :
    let ops : List Op := [writeU16 ["a", "b"] [1, 2, 3, 4], writeU16 [] [9], writeU16 ["a", "b"] [5, 6, 7],
      writeU16 ["c"] [8]]
    Recoverable anyAlloc ⟨Index.new, []⟩ ops ∧
    ((writeU16 ["c", "d"] [1, 2]).run anyAlloc (session ops)).1 = .ok () ∧
    ((writeU16 ["c", "d"] [1]).run anyAlloc (session ops)).1 ≠ .ok () ∧
    ((writeU16 ["c", "d"] []).run anyAlloc (session ops)).1 ≠ .ok () := by
  intro ops
  refine ⟨⟨failed_write_example.2.1, ?_, ?_, failed_write_example.2.2.2.2, by decide +kernel⟩, by decide +kernel,
    by decide +kernel, by decide +kernel⟩
  · intro op hop
    simp only [ops, List.mem_cons, List.not_mem_nil, or_false] at hop
    rcases hop with rfl | rfl | rfl | rfl <;> (show List.Nodup _; decide +kernel)
  · intro op hop
    simp only [ops, List.mem_cons, List.not_mem_nil, or_false] at hop
    rcases hop with rfl | rfl | rfl | rfl <;> exact ⟨⟨by decide, by decide⟩, by decide, by unfold Text.Fits; decide +kernel⟩

/-- The hypotheses of `data_write_frame_iff` hold on both sides: writing to `a` alone after `a` and `b` adds a sample to `b`, but
    not when the bytes are no whole chunk, and not when another channel is written. -/
theorem data_write_frame_iff_example :
    let t := session [writeU16 ["a", "b"] [1, 2, 3, 4]]
    t.channelLength (chan "b") = .ok (some 2) ∧
    ((writeU16 ["a"] [5, 6, 7, 8]).run anyAlloc t).2.channelLength (chan "b") = .ok (some 4) ∧
    ((writeU16 ["a"] [5, 6, 7]).run anyAlloc t).1 = .ok () ∧
    ((writeU16 ["a"] [5, 6, 7]).run anyAlloc t).2.channelLength (chan "b") = .ok (some 2) ∧
    ((writeU16 ["c"] [5, 6, 7, 8]).run anyAlloc t).2.channelLength (chan "b") = .ok (some 2) := by
  refine ⟨?_, ?_, ?_, ?_, ?_⟩ <;> decide +kernel

end Tedium
