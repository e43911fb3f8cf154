import Verif.Model.BufW
import Verif.Proofs.Frame
import Verif.Props.Write

/-! # Properties of single calls: appending, rejected arguments, frames, buffering (C27, C28, C30, C34, C35, C46) -/

namespace Tedium
open SegSpec WriteSpec

/-! ## C27 -/

/-- **C27.** Whatever calls are made in whatever state, successful or not: the bytes that were in the
    file stay where they are. -/
theorem append_only (al : Alloc) (t : TdmsFile) (ops : List Op) :
    ∃ more, (runOps al t ops).bytes = t.bytes ++ more := by
  obtain ⟨g, hg⟩ := runOps_bytes al t ops
  exact ⟨g, hg.symm⟩

/-- Including calls that fail: the second call has no values, and its header is in the file. -/
theorem append_only_example :
    (session [writeU16 ["a"] [1, 2]]).bytes.length = 72 ∧
    ((writeU16 ["b"] []).run anyAlloc (session [writeU16 ["a"] [1, 2]])).1 = R.err .zeroLengthDataBlock ∧
    (session [writeU16 ["a"] [1, 2], writeU16 ["b"] []]).bytes.length = 140 := by
  refine ⟨?_, ?_, ?_⟩ <;> decide +kernel

/-! ## C28 -/

/-- **C28.** Without channels, or with a number of values that is not a multiple of the number of
    channels, `write_channels` fails with the right error and changes nothing, in any state. -/
theorem rejected_arguments {α : Type} (S : Storage α) (e : Endian) (t : TdmsFile) (chs : List ChannelPath)
    (vals : List α) (layout : DataLayout) :
    (chs = [] → t.writeChannels S e chs vals layout = (R.err .noChannels, t)) ∧
    (chs ≠ [] → ¬ chs.length ∣ vals.length →
      t.writeChannels S e chs vals layout = (R.err (.badDataBlockLength vals.length chs.length), t)) := by
  constructor
  · rintro rfl; rfl
  · intro hne hnd
    unfold TdmsFile.writeChannels
    rw [if_neg (fun h => hne (List.length_eq_zero_iff.mp h)), if_pos (fun h => hnd (Nat.dvd_of_mod_eq_zero h))]

/-- Conversely these errors are reported only for such arguments. -/
theorem rejected_arguments_only {α : Type} (S : Storage α) (e : Endian) {al : Alloc} {t : TdmsFile}
    (ht : Session al t) (chs : List ChannelPath) (vals : List α) (layout : DataLayout) :
    ((t.writeChannels S e chs vals layout).1 = R.err .noChannels → chs = []) ∧
    (∀ a b, (t.writeChannels S e chs vals layout).1 = R.err (.badDataBlockLength a b) →
      a = vals.length ∧ b = chs.length ∧ ¬ chs.length ∣ vals.length) := by
  by_cases hne : chs = []
  · refine ⟨fun _ => hne, fun a b h => ?_⟩
    rw [(rejected_arguments S e t chs vals layout).1 hne] at h
    cases h
  · by_cases hd : chs.length ∣ vals.length
    · obtain ⟨s, bs, heq, _⟩ := writeChannels_segment S e t chs vals layout hne hd
      rw [heq]
      rcases (ht.reach.inv.addSegment s).2 with ⟨n, h, _⟩ | ⟨er, h, hse, _⟩
      · rw [h]
        exact ⟨fun hh => (by cases hh), fun a b hh => (by cases hh)⟩
      · rw [h]
        constructor
        · intro hh
          injection hh with hh
          subst hh
          cases hse with | raw _ hr => cases hr
        · intro a b hh
          injection hh with hh
          subst hh
          cases hse with | raw _ hr => cases hr
    · rw [(rejected_arguments S e t chs vals layout).2 hne hd]
      refine ⟨fun hh => (by cases hh), fun a b hh => ?_⟩
      cases hh
      exact ⟨rfl, rfl, hd⟩

/-- Both kinds of arguments, after some data was written. -/
theorem rejected_arguments_example :
    let t := session [writeU16 ["a"] [1, 2]]
    Session anyAlloc t ∧ (writeU16 [] [1]).run anyAlloc t = (R.err .noChannels, t) ∧
    (writeU16 ["a", "b"] [1, 2, 3]).run anyAlloc t = (R.err (.badDataBlockLength 3 2), t) := by
  refine ⟨Session.runOps (Session.created rfl) _, rfl, ?_⟩
  decide +kernel

/-! ## C30 -/

theorem length_write_sized (al : Alloc) {ty : STy} (h : SizedTy ty) (e : Endian) (v : ty.Val) :
    ((ty.storage al).write e v).length = (ty.storage al).memSize := by
  by_cases ho : Format.ordinaryTy ty = true
  · exact STy.length_write al ty ho e v
  · cases ty with
    | timestamp => exact length_encNat e 16 _
    | extended => exact absurd rfl h.1
    | string => exact absurd rfl h.2
    | _ => exact absurd rfl ho

theorem addSegment_map_ok {ix : Index} {s : Segment} (h : (ix.addSegment s).1.map (fun _ => ()) = .ok ()) :
    ∃ n, (ix.addSegment s).1 = .ok n := by
  cases hh : (ix.addSegment s).1 with
  | ok n => exact ⟨n, rfl⟩
  | error e => rw [hh] at h; cases h

/-- **C30** (partial: not for extended floats and strings). If the index expects the next segment at the
    end of the file, then it does so after any history of successful calls. -/
theorem index_end_partial (al : Alloc) (ops : List Op) : ∀ (t : TdmsFile),
    t.index.nextSegmentStart = t.bytes.length → (∀ op ∈ ops, ∀ ty, typeOf op = some ty → SizedTy ty) →
    AllSucceed al t ops → (runOps al t ops).index.nextSegmentStart = (runOps al t ops).bytes.length := by
  induction ops with
  | nil => intro t h _ _; exact h
  | cons op ops ih =>
    intro t h hty hall
    rw [allSucceed_cons] at hall
    rw [runOps_cons]
    refine ih _ ?_ (fun o ho => hty o (List.mem_cons_of_mem _ ho)) hall.2
    have hok := hall.1
    cases op with
    | props e path properties =>
      obtain ⟨hdr, hbytes, hhdr⟩ := writeSegment_header e {}
        (some { objects := [{ path := path.path, properties, rawDataIndex := .none }] }) none
      obtain ⟨n, hn⟩ := addSegment_map_ok (s := (propertySegment e path properties).1) hok
      obtain ⟨h1, h2, _⟩ := addSegment_next (Prod.ext hn rfl :
        t.index.addSegment (propertySegment e path properties).1 = (.ok n, _))
      show (t.index.addSegment (propertySegment e path properties).1).2.nextSegmentStart
        = (t.bytes ++ (propertySegment e path properties).2).length
      have hb : (propertySegment e path properties).2.length = _ := congrArg List.length hbytes
      rw [h2, h1, h, List.length_append, hb, List.length_append, hhdr]
      rfl
    | write e ty chs vals layout =>
      have hs := hty _ List.mem_cons_self ty rfl
      change (t.writeChannels (ty.storage al) e chs vals layout).1 = .ok () at hok
      show (t.writeChannels (ty.storage al) e chs vals layout).2.index.nextSegmentStart
        = (t.writeChannels (ty.storage al) e chs vals layout).2.bytes.length
      by_cases hne : chs = []
      · rw [(rejected_arguments _ e t chs vals layout).1 hne] at hok
        cases hok
      · by_cases hd : chs.length ∣ vals.length
        · obtain ⟨s, bs, heq, _, _, _, _, _, _, hnext, hlen, _⟩ :=
            writeChannels_segment (ty.storage al) e t chs vals layout hne hd
          rw [heq] at hok ⊢
          obtain ⟨n, hn⟩ := addSegment_map_ok hok
          obtain ⟨h1, h2, _⟩ := addSegment_next (Prod.ext hn rfl : t.index.addSegment s = (.ok n, _))
          dsimp only
          rw [h2, h1, h, List.length_append, hlen, hnext,
            length_flatMap_const _ _ _ (fun v _ => length_write_sized al hs e v)]
          omega
        · rw [(rejected_arguments _ e t chs vals layout).2 hne hd] at hok
          cases hok

/-- The hypotheses hold for a history on a new file. -/
theorem index_end_example :
    AllSucceed anyAlloc ⟨Index.new, []⟩ exampleOps ∧
    (∀ op ∈ exampleOps, ∀ ty, typeOf op = some ty → SizedTy ty) ∧
    (session exampleOps).index.nextSegmentStart = 430 ∧ (session exampleOps).bytes.length = 430 := by
  refine ⟨(write_then_read_partial anyAlloc (t := ⟨Index.new, []⟩) rfl exampleOps exampleOps_compatible
    exampleOps_written.2.2.2.1).1, ?_, ?_, ?_⟩
  · intro op hop ty hty
    simp only [exampleOps, List.mem_cons, List.not_mem_nil, or_false] at hop
    rcases hop with rfl | rfl | rfl | rfl | rfl | rfl <;> cases hty <;> exact ⟨(by decide), (by decide)⟩
  · decide +kernel
  · decide +kernel

/-- C30 is false for extended floats (10 bytes written, 16 expected) and strings. -/
theorem index_end_counterexample :
    (let t := session [.write .little .extended [chan "a"] [5#128] .contigious]
     t.index.nextSegmentStart = 84 ∧ t.bytes.length = 78) ∧
    (let t := session [.write .little .string [chan "a"] [("xy" : String).toList] .contigious]
     t.index.nextSegmentStart = 92 ∧ t.bytes.length = 74) := by
  refine ⟨⟨?_, ?_⟩, ?_, ?_⟩ <;> decide +kernel

/-! ## C34 -/

theorem grows_write (al : Alloc) (t : TdmsFile) (op : Op) : Grows t (op.run al t).2 := by
  obtain ⟨g, hg⟩ := Op.run_bytes al t op
  refine ⟨⟨g, hg.symm⟩, ?_⟩
  rcases Op.run_index al t op with h | ⟨s, h⟩
  · rw [h]; exact ⟨[], (List.append_nil _).symm⟩
  · rw [h]; exact addSegment_blocks _ _

/-- Two objects with the same locations have the same length and data. -/
theorem same_locations {t t' : TdmsFile} {c : ChannelPath}
    (h : (t'.index.objects.get? c.path).map (·.dataLocations) = (t.index.objects.get? c.path).map (·.dataLocations)) :
    t'.channelLength c = t.channelLength c ∧
    t'.index.getChannelDataPositions c = t.index.getChannelDataPositions c := by
  refine ⟨?_, h⟩
  unfold TdmsFile.channelLength Index.channelLength
  revert h
  cases t'.index.objects.get? c.path <;> cases t.index.objects.get? c.path
  · intro _; rfl
  · intro h; cases h
  · intro h; cases h
  · intro h
    have h' := Option.some.inj h
    dsimp only at h' ⊢
    rw [h']

/-- **C34, data writes and data** (partial: the channel must not be in the list of the last data write,
    unless the new list differs from that at a position they share). In any state, a data write,
    successful or not, changes neither the length nor what is read of a channel it does not name. -/
theorem data_write_frame_partial (al : Alloc) (t : TdmsFile) (e : Endian) (ty : STy) (chs : List ChannelPath)
    (vals : List ty.Val) (layout : DataLayout) (c : ChannelPath) (hc : ∀ c' ∈ chs, c'.path ≠ c.path)
    (hd : Diverges (t.index.activeObjects.map (·.path)) (chs.map ChannelPath.path) ∨
      c.path ∉ t.index.activeObjects.map (·.path)) :
    (t.writeChannels (ty.storage al) e chs vals layout).2.channelLength c = t.channelLength c ∧
    ∀ (rty : STy) start out res, t.readChannelFrom (rty.storage al) c start out = .ok res →
      (t.writeChannels (ty.storage al) e chs vals layout).2.readChannelFrom (rty.storage al) c start out = .ok res := by
  have hnot : c.path ∉ chs.map ChannelPath.path := fun h => by
    obtain ⟨c', hc', h'⟩ := List.mem_map.mp h
    exact hc c' hc' h'
  have key : (t.writeChannels (ty.storage al) e chs vals layout).2.index.objects.get? c.path
      = t.index.objects.get? c.path := by
    by_cases hne : chs = []
    · rw [(rejected_arguments _ e t chs vals layout).1 hne]
    · by_cases hdv : chs.length ∣ vals.length
      · obtain ⟨s, bs, heq, _, hnew, _, hpaths, _⟩ :=
          writeChannels_segment (ty.storage al) e t chs vals layout hne hdv
        rw [heq]
        dsimp only
        have hent : c.path ∉ (entriesOf s).map (·.path) := by
          rw [hpaths]
          split
          · exact hnot
          · exact fun h => by cases h
        rw [addSegment_other, afterObjects_other _ _ _ hent]
        intro _ hact
        rcases afterObjects_active _ _ _ hact with ⟨hn, hact⟩ | h
        · rw [hnew] at hn
          rcases hd with hd | hd
          · rw [decide_eq_true hd] at hn; cases hn
          · exact hd hact
        · exact hent h
      · rw [(rejected_arguments _ e t chs vals layout).2 hne hdv]
  obtain ⟨h1, h2⟩ := same_locations (t := t) (t' := (t.writeChannels (ty.storage al) e chs vals layout).2) (c := c)
    (by rw [key])
  exact ⟨h1, fun rty start out res hr =>
    readChannelFrom_mono (STy.mono al rty) (grows_write al t (.write e ty chs vals layout)) h2 hr⟩

/-- **C34, data writes and properties.** In any state, a data write, successful or not, changes no
    property of any object. (It may create objects, without properties, for the channels it names.) -/
theorem data_write_properties (al : Alloc) (t : TdmsFile) (e : Endian) (ty : STy) (chs : List ChannelPath)
    (vals : List ty.Val) (layout : DataLayout) (path : PropertyPath) :
    (∀ ps, t.readAllProperties path = some ps →
      (t.writeChannels (ty.storage al) e chs vals layout).2.readAllProperties path = some ps) ∧
    (∀ n v, t.readProperty path n = .ok v →
      (t.writeChannels (ty.storage al) e chs vals layout).2.readProperty path n = .ok v) ∧
    ((∀ c ∈ chs, c.path ≠ path.path) → t.readAllProperties path = none →
      (t.writeChannels (ty.storage al) e chs vals layout).2.readAllProperties path = none) := by
  by_cases hne : chs = []
  · rw [(rejected_arguments _ e t chs vals layout).1 hne]
    exact ⟨fun _ h => h, fun _ _ h => h, fun _ h => h⟩
  by_cases hdv : chs.length ∣ vals.length
  case neg =>
    rw [(rejected_arguments _ e t chs vals layout).2 hne hdv]
    exact ⟨fun _ h => h, fun _ _ h => h, fun _ h => h⟩
  obtain ⟨s, bs, heq, _, _, hprops, hpaths, _⟩ :=
    writeChannels_segment (ty.storage al) e t chs vals layout hne hdv
  rw [heq]
  obtain ⟨ls, hls⟩ := addSegment_objects t.index s path.path
  obtain ⟨kept, ⟨pre, hpre, hk⟩, hobj⟩ := afterObjects_objects t.index s
  have hkept : ∀ x ∈ kept, x.properties = [] := fun x hx => (hprops x (hpre.subset (hk.subset hx))).1
  have hsome : ∀ o, t.index.objects.get? path.path = some o →
      ∃ o', (t.index.addSegment s).2.objects.get? path.path = some o' ∧ o'.properties = o.properties := by
    intro o ho
    obtain ⟨o', h1, h2⟩ := fold_same kept hkept t.index.objects path.path o ho
    rw [hls, hobj, h1]
    exact ⟨_, rfl, h2⟩
  refine ⟨?_, ?_, ?_⟩
  · intro ps hps
    obtain ⟨o, ho, rfl⟩ := Option.map_eq_some_iff.mp hps
    obtain ⟨o', h1, h2⟩ := hsome o ho
    exact Option.map_eq_some_iff.mpr ⟨o', h1, h2⟩
  · intro n v hv
    unfold TdmsFile.readProperty Index.getObjectProperty at hv ⊢
    cases ho : t.index.objects.get? path.path with
    | none => rw [ho] at hv; cases hv
    | some o =>
      obtain ⟨o', h1, h2⟩ := hsome o ho
      rw [ho] at hv
      dsimp only
      rw [h1]
      dsimp only at hv ⊢
      rw [h2]
      exact hv
  · intro hc hnone
    have hn := Option.map_eq_none_iff.mp hnone
    apply Option.map_eq_none_iff.mpr
    dsimp only
    rw [hls, afterObjects_other, hn]
    · rfl
    · rw [hpaths]
      split
      · intro h
        obtain ⟨c', hc', h'⟩ := List.mem_map.mp h
        exact hc c' hc' h'
      · exact fun h => by cases h

/-- **C34, property writes.** In any state, writing properties, successfully or not, changes no other
    object's properties and no channel's length or data. (If the object is a channel that does not exist,
    it is created, without data.) -/
theorem property_write_frame (al : Alloc) (t : TdmsFile) (e : Endian) (path : PropertyPath)
    (ps : List (Text × PropertyValue)) :
    (∀ other : PropertyPath, other.path ≠ path.path →
      (t.writeProperties e path ps).2.readAllProperties other = t.readAllProperties other ∧
      ∀ n, (t.writeProperties e path ps).2.readProperty other n = t.readProperty other n) ∧
    ∀ c : ChannelPath, (c.path ≠ path.path ∨ t.channelLength c ≠ .ok none) →
      (t.writeProperties e path ps).2.channelLength c = t.channelLength c ∧
      ∀ (rty : STy) start out res, t.readChannelFrom (rty.storage al) c start out = .ok res →
        (t.writeProperties e path ps).2.readChannelFrom (rty.storage al) c start out = .ok res := by
  have hidx : (t.writeProperties e path ps).2.index = (t.index.addSegment (propertySegment e path ps).1).2 := rfl
  have hent : entriesOf (propertySegment e path ps).1
      = [{ path := path.path, properties := ps, rawDataIndex := .none }] := rfl
  have hget : ∀ p, (t.writeProperties e path ps).2.index.objects.get? p
      = (afterObjects t.index (propertySegment e path ps).1).2.objects.get? p := by
    intro p
    rw [hidx, addSegment_other]
    intro h
    cases h
  have hother : ∀ p, p ≠ path.path → (t.writeProperties e path ps).2.index.objects.get? p = t.index.objects.get? p := by
    intro p hp
    rw [hget, afterObjects_other]
    rw [hent]
    intro h
    exact hp (List.mem_singleton.mp h)
  constructor
  · intro other hne
    constructor
    · unfold TdmsFile.readAllProperties Index.getObjectProperties
      rw [hother _ hne]
    · intro n
      unfold TdmsFile.readProperty Index.getObjectProperty
      rw [hother _ hne]
  · intro c hc
    have hloc : ((t.writeProperties e path ps).2.index.objects.get? c.path).map (·.dataLocations)
        = (t.index.objects.get? c.path).map (·.dataLocations) := by
      by_cases hp : c.path = path.path
      · rcases hc with hc | hc
        · exact absurd hp hc
        · cases ho : t.index.objects.get? c.path with
          | none =>
            exfalso
            apply hc
            unfold TdmsFile.channelLength Index.channelLength
            rw [ho]
          | some o =>
            obtain ⟨kept, _, hobj⟩ := afterObjects_objects t.index (propertySegment e path ps).1
            obtain ⟨o', h1, h2⟩ := fold_locations kept t.index.objects c.path o ho
            rw [hget, hobj, h1]
            exact congrArg some h2
      · rw [hother _ hp]
    obtain ⟨h1, h2⟩ := same_locations (t := t) (t' := (t.writeProperties e path ps).2) hloc
    exact ⟨h1, fun rty start out res hr =>
      readChannelFrom_mono (STy.mono al rty) (grows_write al t (.props e path ps)) h2 hr⟩

/-- The hypotheses of the frame theorems hold: `b` is not named, and the lists differ at the first place. -/
theorem data_write_frame_example :
    let t := session [writeU16 ["a", "b"] [1, 2, 3, 4]]
    Diverges (t.index.activeObjects.map (·.path)) ([chan "c"].map ChannelPath.path) ∧
    t.u16s "b" 2 = .ok (vals16 [3, 4]) ∧
    ((writeU16 ["c"] [5]).run anyAlloc t).2.u16s "b" 2 = .ok (vals16 [3, 4]) := by
  refine ⟨?_, ?_, ?_⟩ <;> decide +kernel

/-- C34 is false in full: writing to `a` alone after `a` and `b` adds a sample to `b`. -/
theorem data_write_frame_counterexample :
    let t := session [writeU16 ["a", "b"] [1, 2]]
    t.channelLength (chan "b") = .ok (some 1) ∧
    ((writeU16 ["a"] [3, 4]).run anyAlloc t).2.channelLength (chan "b") = .ok (some 2) := by
  constructor <;> decide +kernel

/-! ## C35 -/

/-- The bytes that the events write. -/
def eventBytes (evs : List BufEvent) : Bytes :=
  evs.flatMap (fun | .write bs => bs | _ => [])

theorem bufw_run (evs : List BufEvent) : ∀ b : BufW,
    (b.run evs).disk ++ (b.run evs).pending = b.disk ++ b.pending ++ eventBytes evs ∧ b.disk <+: (b.run evs).disk := by
  induction evs with
  | nil => intro b; exact ⟨(List.append_nil _).symm, List.prefix_rfl⟩
  | cons ev evs ih =>
    intro b
    obtain ⟨h1, h2⟩ := ih (b.step ev)
    show ((b.step ev).run evs).disk ++ ((b.step ev).run evs).pending = _ ∧ b.disk <+: ((b.step ev).run evs).disk
    rw [h1]
    cases ev with
    | write bs =>
      refine ⟨?_, h2⟩
      show b.disk ++ (b.pending ++ bs) ++ eventBytes evs = b.disk ++ b.pending ++ (bs ++ eventBytes evs)
      simp only [List.append_assoc]
    | spill n =>
      refine ⟨?_, (List.prefix_append _ _).trans h2⟩
      show b.disk ++ b.pending.take n ++ b.pending.drop n ++ eventBytes evs = b.disk ++ b.pending ++ eventBytes evs
      rw [List.append_assoc b.disk, List.take_append_drop]
    | sync =>
      refine ⟨?_, (List.prefix_append _ _).trans h2⟩
      show b.disk ++ b.pending ++ [] ++ eventBytes evs = b.disk ++ b.pending ++ eventBytes evs
      rw [List.append_nil]

/-- **C35.** The calls `ops` are made through a buffered writer; `evs` is any sequence of events in which
    the bytes of these calls are written in any pieces, and in which the buffer passes on any parts at any
    moment. At every moment (after the events `before`) the file holds its old contents and a prefix of
    what the calls wrote, at least what it held before; after `sync` (or when the writer is dropped) it
    holds everything. -/
theorem sync_and_crash (al : Alloc) (t : TdmsFile) (ops : List Op) (evs : List BufEvent)
    (hevs : t.bytes ++ eventBytes evs = (runOps al t ops).bytes) :
    ((BufW.new t.bytes).run (evs ++ [.sync])).disk = (runOps al t ops).bytes ∧
    ∀ before after, evs = before ++ after →
      t.bytes <+: ((BufW.new t.bytes).run before).disk ∧
      ((BufW.new t.bytes).run before).disk <+: t.bytes ++ eventBytes before ∧
      t.bytes ++ eventBytes before <+: (runOps al t ops).bytes := by
  have happ : ∀ (evs evs' : List BufEvent) (b : BufW), b.run (evs ++ evs') = (b.run evs).run evs' := by
    intro evs
    induction evs with
    | nil => intros; rfl
    | cons ev evs ih => intro evs' b; exact ih evs' _
  have hnew : ∀ evs, ((BufW.new t.bytes).run evs).disk ++ ((BufW.new t.bytes).run evs).pending
      = t.bytes ++ eventBytes evs := by
    intro evs
    have := (bufw_run evs (BufW.new t.bytes)).1
    rw [this]
    show t.bytes ++ [] ++ _ = _
    rw [List.append_nil]
  constructor
  · rw [happ, ← hevs, ← hnew]
    rfl
  · rintro before after rfl
    refine ⟨(bufw_run before (BufW.new t.bytes)).2, ⟨_, hnew before⟩, ?_⟩
    rw [← hevs]
    unfold eventBytes
    rw [List.flatMap_append, ← List.append_assoc]
    exact List.prefix_append _ _

/-- The bytes of two calls, the second one in two pieces, with the buffer passing on some of them. -/
theorem sync_and_crash_example :
    let ops := [writeU16 ["a"] [1, 2], writeU16 ["b"] [3]]
    let bs := (session ops).bytes
    let evs : List BufEvent := [.write (bs.take 72), .spill 50, .write ((bs.drop 72).take 10), .spill 7, .write (bs.drop 82)]
    [] ++ eventBytes evs = (runOps anyAlloc ⟨Index.new, []⟩ ops).bytes ∧
    ((BufW.new []).run (evs.take 4)).disk = bs.take 57 ∧ bs.length = 142 := by
  refine ⟨?_, ?_, ?_⟩ <;> decide +kernel

/-! ## C46 -/

theorem last_after_congr (op : Op) (l l' : Last) (h : l.channels = l'.channels) :
    (l.after op).channels = (l'.after op).channels := by
  cases op with
  | props => exact h
  | write e ty chs vals layout =>
    unfold Last.after
    dsimp only
    rw [h]
    split
    · rfl
    · exact h

theorem last_after_active (al : Alloc) {t : TdmsFile} {l : Last} (hs : Session al t)
    (h : l.channels = t.index.activeObjects.map (·.path)) (op : Op) (hd : Distinct op)
    (hok : (op.run al t).1 = .ok ()) :
    (l.after op).channels = (op.run al t).2.index.activeObjects.map (·.path) := by
  cases op with
  | props e path ps =>
    show l.channels = (t.writeProperties e path ps).2.index.activeObjects.map (·.path)
    rw [writeProperties_active]
    exact h
  | write e ty chs vals layout =>
    have := writeChannels_active (ty.storage al) e t hs.reach.inv chs vals layout hd hok
    refine Eq.trans ?_ this.symm
    unfold Last.after
    dsimp only
    rw [h]
    split
    · rfl
    · exact h

theorem active_in_force (al : Alloc) (ops : List Op) : ∀ (t : TdmsFile) (l : Last), Session al t →
    l.channels = t.index.activeObjects.map (·.path) → (∀ op ∈ ops, Distinct op) → AllSucceed al t ops →
    (ops.foldl Last.after l).channels = (runOps al t ops).index.activeObjects.map (·.path) := by
  induction ops with
  | nil => intro t l _ h _ _; exact h
  | cons op ops ih =>
    intro t l hs h hd hall
    rw [allSucceed_cons] at hall
    rw [runOps_cons, List.foldl_cons]
    exact ih _ _ (.call op hs) (last_after_active al hs h op (hd op List.mem_cons_self) hall.1)
      (fun o ho => hd o (List.mem_cons_of_mem _ ho)) hall.2

/-- A data write whose list does not diverge from the active one adds 28 bytes and the data. -/
theorem live_write_bytes {α : Type} (S : Storage α) (e : Endian) (t : TdmsFile) (chs : List ChannelPath)
    (vals : List α) (layout : DataLayout) (hne : chs ≠ []) (hdiv : chs.length ∣ vals.length)
    (hd : ¬ Diverges (t.index.activeObjects.map (·.path)) (chs.map ChannelPath.path)) :
    ∃ header : Bytes, header.length = 28 ∧
      (t.writeChannels S e chs vals layout).2.bytes = t.bytes ++ header ++ vals.flatMap (S.write e) := by
  obtain ⟨s, bs, heq, _, _, _, _, hmd, _, _, _, toc, htoc⟩ :=
    writeChannels_segment S e t chs vals layout hne hdiv
  have hm := hmd.mpr hd
  rw [hm] at htoc
  obtain ⟨hdr, hb, hl⟩ := writeSegment_header e toc none (some (TdmsFile.sliceData S e vals))
  refine ⟨hdr, hl, ?_⟩
  rw [heq]
  dsimp only
  have hbs : bs = _ := (congrArg Prod.snd htoc).trans hb
  rw [hbs, List.append_assoc]
  rfl

/-- **C46, repeated lists.** In any state, after a successful write to distinct channels and any property
    writes, a write to the same channels adds exactly 28 bytes and the data. -/
theorem repeated_list_no_metadata (al : Alloc) {t : TdmsFile} (hs : Session al t) (e e' : Endian) (ty ty' : STy)
    (chs : List ChannelPath) (vals : List ty.Val) (vals' : List ty'.Val) (layout layout' : DataLayout)
    (between : List Op) (hprops : ∀ op ∈ between, IsProps op) (hn : (chs.map ChannelPath.path).Nodup)
    (hok : ((Op.write e ty chs vals layout).run al t).1 = .ok ()) (hdiv : chs.length ∣ vals'.length) :
    let t' := runOps al t (.write e ty chs vals layout :: between)
    ∃ header : Bytes, header.length = 28 ∧
      ((Op.write e' ty' chs vals' layout').run al t').2.bytes
        = t'.bytes ++ header ++ vals'.flatMap ((ty'.storage al).write e') := by
  intro t'
  have hne : chs ≠ [] := fun h => by
    change (t.writeChannels (ty.storage al) e chs vals layout).1 = .ok () at hok
    rw [(rejected_arguments _ e t chs vals layout).1 h] at hok
    cases hok
  have hbetween : ∀ (ops : List Op) (t : TdmsFile), (∀ op ∈ ops, IsProps op) →
      (runOps al t ops).index.activeObjects = t.index.activeObjects := by
    intro ops
    induction ops with
    | nil => intros; rfl
    | cons op ops ih =>
      intro t h
      rw [runOps_cons, ih _ (fun o ho => h o (List.mem_cons_of_mem _ ho))]
      cases op with
      | write => exact absurd (h _ List.mem_cons_self) (fun h => h)
      | props e path ps => exact writeProperties_active t e path ps
  apply live_write_bytes (ty'.storage al) e' t' chs vals' layout' hne hdiv
  show ¬ Diverges ((runOps al t (.write e ty chs vals layout :: between)).index.activeObjects.map (·.path)) _
  rw [runOps_cons, hbetween _ _ hprops]
  have hact := writeChannels_active (ty.storage al) e t hs.reach.inv chs vals layout hn hok
  change List.map _ (t.writeChannels (ty.storage al) e chs vals layout).2.index.activeObjects = _ at hact
  show ¬ Diverges (List.map _ (t.writeChannels (ty.storage al) e chs vals layout).2.index.activeObjects) _
  rw [hact]
  by_cases hd : Diverges (t.index.activeObjects.map (·.path)) (chs.map ChannelPath.path)
  · rw [if_pos hd]
    intro h
    exact hne (List.map_eq_nil_iff.mp (diverges_self h))
  · rw [if_neg hd]; exact hd

/-- A data write whose list diverges from the active one adds a segment with metadata. -/
theorem diverging_file_segment (al : Alloc) (e : Endian) (ty : STy) (hty : SizedTy ty) (t : TdmsFile)
    (chs : List ChannelPath) (vals : List ty.Val) (layout : DataLayout) (hne : chs ≠ [])
    (hdiv : chs.length ∣ vals.length)
    (hd : Diverges (t.index.activeObjects.map (·.path)) (chs.map ChannelPath.path))
    (hfit : ∀ c ∈ chs, Text.Fits c.path) (hcount : chs.length < 2 ^ 32)
    (hsize : (t.writeChannels (ty.storage al) e chs vals layout).2.bytes.length < 2 ^ 64) :
    ∃ fs : FileSegment, fs.Fits ∧
      t.writeChannels (ty.storage al) e chs vals layout = ((t.index.addSegment fs.segment).1.map (fun _ => ()),
        ⟨(t.index.addSegment fs.segment).2, t.bytes ++ fs.encode⟩) ∧
      fs.rest = vals.flatMap ((ty.storage al).write e) ∧
      fs.metaData.objects.map (·.path) = chs.map ChannelPath.path := by
  obtain ⟨s, bs, heq, _, _, hent, hpaths, hmd, _, hnext, hlen, toc, htoc⟩ :=
    writeChannels_segment (ty.storage al) e t chs vals layout hne hdiv
  rw [if_pos hd] at hpaths
  cases hm : s.metaData with
  | none => exact absurd hd (hmd.mp hm)
  | some m =>
    have hento : entriesOf s = m.objects := by unfold entriesOf; rw [hm]
    rw [hento] at hpaths hent
    rw [hm] at htoc hlen
    rw [heq] at hsize
    dsimp only at hsize
    rw [List.length_append, hlen] at hsize
    have hdata : DataToWrite.optSize (some (TdmsFile.sliceData (ty.storage al) e vals))
        = (DataToWrite.optBytes (some (TdmsFile.sliceData (ty.storage al) e vals))).length := by
      show (ty.storage al).memSize * vals.length = (vals.flatMap ((ty.storage al).write e)).length
      rw [length_flatMap_const _ _ _ (fun v _ => length_write_sized al hty e v), Nat.mul_comm]
    have hfits : m.Fits := by
      constructor
      · rw [← List.length_map (f := (·.path)), hpaths, List.length_map]; exact hcount
      · intro o ho
        have hop : o.path ∈ chs.map ChannelPath.path := by rw [← hpaths]; exact List.mem_map_of_mem ho
        obtain ⟨c, hc, hcp⟩ := List.mem_map.mp hop
        refine ⟨?_, ?_, ?_, ?_⟩
        · rw [← hcp]; exact hfit c hc
        · rcases (hent o ho).2 with h | h <;> rw [h]
          · trivial
          · refine ⟨?_, rfl⟩
            show vals.length / chs.length < 2 ^ 64
            have h1 : vals.length ≤ (vals.flatMap ((ty.storage al).write e)).length := by
              rw [length_flatMap_const _ _ _ (fun v _ => length_write_sized al hty e v)]
              have : 0 < (ty.storage al).memSize := by cases ty <;> exact Nat.succ_pos _
              exact Nat.le_mul_of_pos_left _ this
            have h2 := Nat.div_le_self vals.length chs.length
            omega
        · rw [(hent o ho).1]; exact Nat.pos_of_ne_zero (by decide)
        · rw [(hent o ho).1]; exact fun _ h => by cases h
    obtain ⟨fs, hfs, henc, hseg, hfm, hrest⟩ := written_segment_is_file_segment e toc m _ hdata hfits (by
      rw [hdata]
      change t.bytes.length
        + (28 + m.size + (DataToWrite.optBytes (some (TdmsFile.sliceData (ty.storage al) e vals))).length) < _ at hsize
      omega)
    refine ⟨fs, hfs, ?_, hrest, by rw [hfm]; exact hpaths⟩
    rw [heq, henc, hseg]
    have h1 : s = _ := congrArg Prod.fst htoc
    have h2 : bs = _ := congrArg Prod.snd htoc
    rw [← h1, ← h2]

/-- **C46, other lists** (partial: the list must differ from the one in force at a position that both
    have, and no extended floats or strings). After any history of successful calls on a new file, a write
    with such a list adds a segment whose metadata section, as it is read back from the file, names all its
    channels, in order. -/
theorem changed_list_metadata_partial (al : Alloc) (hal : Generous al) {t : TdmsFile}
    (hcreate : TdmsFile.create al = .ok t) (ops : List Op) (hdist : ∀ op ∈ ops, Distinct op)
    (hall : AllSucceed al t ops) (e : Endian) (ty : STy) (hty : SizedTy ty) (chs : List ChannelPath)
    (vals : List ty.Val) (layout : DataLayout) (hne : chs ≠ []) (hdiv : chs.length ∣ vals.length)
    (hd : Diverges (inForce ops) (chs.map ChannelPath.path))
    (hfit : ∀ c ∈ chs, Text.Fits c.path) (hcount : chs.length < 2 ^ 32)
    (hsize : ((Op.write e ty chs vals layout).run al (runOps al t ops)).2.bytes.length < 2 ^ 64) :
    ∃ (s : Segment) (m : MetaData) (header : Bytes),
      ((Op.write e ty chs vals layout).run al (runOps al t ops)).2.bytes
        = (runOps al t ops).bytes ++ header ++ vals.flatMap ((ty.storage al).write e) ∧
      Segment.read al ((Op.write e ty chs vals layout).run al (runOps al t ops)).2.bytes
        (runOps al t ops).bytes.length = .ok (s, (runOps al t ops).bytes.length + header.length) ∧
      s.metaData = some m ∧ m.objects.map (·.path) = chs.map ChannelPath.path := by
  have hact := active_in_force al ops t Last.none (Session.created hcreate) (by
    have : t = ⟨Index.new, []⟩ := by
      have h : TdmsFile.create al = .ok ⟨Index.new, []⟩ := rfl
      rw [h] at hcreate
      exact (Except.ok.inj hcreate).symm
    rw [this]; rfl) hdist hall
  change inForce ops = _ at hact
  rw [hact] at hd
  generalize runOps al t ops = t1 at *
  obtain ⟨fs, hfs, hrun, hrest, hpaths⟩ :=
    diverging_file_segment al e ty hty t1 chs vals layout hne hdiv hd hfit hcount hsize
  change (Op.write e ty chs vals layout).run al t1 = _ at hrun
  refine ⟨fs.segment, fs.metaData, fs.head, ?_, ?_, rfl, hpaths⟩
  · rw [hrun]
    show t1.bytes ++ (fs.head ++ fs.rest) = _
    rw [hrest, List.append_assoc]
  · rw [hrun]
    show Segment.read al (t1.bytes ++ (fs.head ++ fs.rest)) _ = _
    rw [fs.read_at al hal hfs, FileSegment.length_head]

/-- The first call succeeds, the second one repeats its list after a property write: 28 bytes and the data. -/
theorem repeated_list_no_metadata_example :
    let t := session [writeU16 ["a", "b"] [1, 2, 3, 4], .props .little .file [("p".toList, .i32 5)]]
    ((writeU16 ["a", "b"] [1, 2, 3, 4]).run anyAlloc ⟨Index.new, []⟩).1 = .ok () ∧
    ((writeU16 ["a", "b"] [5, 6] .interleaved).run anyAlloc t).2.bytes.length = t.bytes.length + 28 + 4 := by
  constructor <;> decide +kernel

/-- The hypotheses hold: the list in force is `a`, `b`, and the next one starts with `c`. -/
theorem changed_list_metadata_example :
    inForce [writeU16 ["a", "b"] [1, 2, 3, 4], writeU16 ["a", "b"] [5, 6]]
      = [(chan "a").path, (chan "b").path] ∧
    Diverges (inForce [writeU16 ["a", "b"] [1, 2, 3, 4], writeU16 ["a", "b"] [5, 6]])
      ([chan "c", chan "b"].map ChannelPath.path) ∧
    allOk [writeU16 ["a", "b"] [1, 2, 3, 4], writeU16 ["a", "b"] [5, 6], writeU16 ["c", "b"] [7, 8]] = true := by
  refine ⟨?_, ?_, ?_⟩ <;> decide +kernel

/-- C46 is false in full: a list with one more channel, one channel less, and another type or number of
    values, are all written without metadata. -/
theorem changed_list_metadata_counterexample :
    (let t := session [writeU16 ["a"] [1]]
     ((writeU16 ["a", "b"] [2, 3]).run anyAlloc t).2.bytes.length = t.bytes.length + 28 + 4) ∧
    (let t := session [writeU16 ["a", "b"] [1, 2]]
     ((writeU16 ["a"] [3]).run anyAlloc t).2.bytes.length = t.bytes.length + 28 + 2) ∧
    (let t := session [writeU16 ["a"] [1]]
     ((Op.write .little .u8 [chan "a"] (vals8 [2, 3]) .contigious).run anyAlloc t).2.bytes.length
       = t.bytes.length + 28 + 2) := by
  refine ⟨?_, ?_, ?_⟩ <;> decide +kernel

end Tedium
