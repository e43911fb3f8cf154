import Verif.Spec.SampleData
import Verif.Proofs.Act
import Verif.Props.Open
import Verif.Props.ReopenExact

/-! # Opening and sample values (C106) -/

namespace Tedium
open SegSpec SampleData WriteSpec

/-! ## Programs that only read forward -/

/-- The program never moves the position. -/
def Act.Straight {α : Type} : Act α → Prop
  | .ret _ => True
  | .stop _ => True
  | .exact _ next => ∀ bs, Straight (next bs)
  | .move _ _ => False

namespace Act.Straight
variable {α β : Type}

theorem bind {x : Act α} {k : α → Act β} (hx : x.Straight) (hk : ∀ a, (k a).Straight) : Act.Straight (x >>= k) := by
  show Act.Straight (Act.bind x k)
  induction x with
  | ret a => exact hk a
  | stop e => trivial
  | exact n next ih => exact fun bs => ih bs (hx bs)
  | move o next ih => exact hx.elim

theorem take (n : Nat) : Act.Straight (Act.take n) := fun _ => trivial

theorem many {x : Act α} (h : x.Straight) : ∀ n, Act.Straight (Act.many x n) := by
  intro n
  induction n with
  | zero => trivial
  | succ n ih => exact h.bind (fun a => ih.bind (fun l => trivial))

theorem uint (e : Endian) (w : Nat) : Act.Straight (Act.uint e w) := (take w).bind (fun _ => trivial)

theorem string (al : Alloc) (e : Endian) : Act.Straight (Act.string al e) := by
  refine (uint e 4).bind (fun n => ?_)
  unfold Act.stringWithLength
  split
  · refine (take n).bind (fun b => ?_)
    cases utf8Dec b <;> trivial
  · trivial

theorem dataType (e : Endian) : Act.Straight (Act.dataType e) := by
  unfold Act.dataType
  refine (uint e 4).bind (fun c => ?_)
  cases DataType.ofCode? c <;> trivial

theorem value (al : Alloc) (t : STy) (e : Endian) : Act.Straight (Act.value al t e) := by
  have hnum : ∀ w, Act.Straight (Act.numeric w e) := fun w => (take w).bind (fun _ => trivial)
  cases t <;> first
    | exact hnum _
    | exact (hnum _).bind (fun _ => (hnum _).bind (fun _ => trivial))
    | exact (take _).bind (fun _ => trivial)
    | exact string al e
    | skip
  refine (take 10).bind (fun b => ?_)
  cases e <;> trivial

theorem property (al : Alloc) (e : Endian) : Act.Straight (Act.property al e) := by
  unfold Act.property
  refine (dataType e).bind (fun t => ?_)
  cases t <;> first
    | trivial
    | exact (value al _ e).bind (fun _ => trivial)

theorem rawDataIndex (e : Endian) : Act.Straight (Act.rawDataIndex e) := by
  unfold Act.rawDataIndex
  refine (uint e 4).bind (fun c => ?_)
  split
  · trivial
  · split
    · trivial
    · split
      · trivial
      · split
        · trivial
        · exact (dataType e).bind (fun _ => (uint e 4).bind (fun _ => (uint e 8).bind (fun _ => trivial)))

theorem object (al : Alloc) (e : Endian) : Act.Straight (Act.object al e) := by
  unfold Act.object
  refine (string al e).bind (fun _ => (rawDataIndex e).bind (fun i => (uint e 4).bind (fun n => ?_)))
  split
  · refine (many ?_ n).bind (fun _ => trivial)
    exact (string al e).bind (fun _ => (property al e).bind (fun _ => trivial))
  · trivial

theorem segment (al : Alloc) (e : Endian) (toc : ToC) : Act.Straight (Act.segment al e toc) := by
  unfold Act.segment
  refine (uint e 4).bind (fun _ => (uint e 8).bind (fun _ => (uint e 8).bind (fun _ => ?_)))
  refine Act.Straight.bind ?_ (fun md => trivial)
  unfold Act.metaData
  refine (uint e 4).bind (fun n => ?_)
  split
  · exact (many (object al e) n).bind (fun _ => trivial)
  · trivial

end Act.Straight

/-! ## They depend on what they read only -/

/-- The result depends only on the bytes from the position up to where reading ends, and, if it fails, on the bytes
    from the position on. -/
def Rd.Local {α : Type} (x : Rd α) : Prop := ∀ (f g : Bytes) (p : Nat),
  (∀ a q, x f p = .ok (a, q) → p ≤ q ∧ (SameBytes f g p q → x g p = .ok (a, q))) ∧
  (∀ e, x f p = .error e → (∀ i, p ≤ i → f[i]? = g[i]?) → x g p = .error e)

theorem drop_take_same {f g : Bytes} {p n : Nat} (h : SameBytes f g p (p + n)) :
    (f.drop p).take n = (g.drop p).take n := by
  apply List.ext_getElem?
  intro i
  rw [List.getElem?_take, List.getElem?_take]
  split
  · rw [List.getElem?_drop, List.getElem?_drop]
    exact h _ (by omega) (by omega)
  · rfl

theorem length_of_same {f g : Bytes} {p n : Nat} (h : SameBytes f g p (p + n)) (hn : n ≠ 0) (hf : p + n ≤ f.length) :
    p + n ≤ g.length := by
  have h1 := h (p + n - 1) (by omega) (by omega)
  rw [List.getElem?_eq_getElem (by omega)] at h1
  have h2 := (List.getElem?_eq_some_iff.mp h1.symm).1
  omega

theorem Rd.Local.exact (n : Nat) : Rd.Local (Rd.exact n) := by
  intro f g p
  constructor
  · intro a q h
    unfold Rd.exact at h
    split at h
    · rename_i hc
      injection h with h
      injection h with h1 h2
      subst h1 h2
      refine ⟨by omega, fun hs => ?_⟩
      unfold Rd.exact
      rw [if_pos, drop_take_same hs]
      by_cases hn : n = 0
      · exact Or.inl hn
      · exact Or.inr (length_of_same hs hn (hc.resolve_left hn))
    · cases h
  · intro e h hs
    unfold Rd.exact at h
    split at h
    · cases h
    · rename_i hc
      unfold Rd.exact
      rw [if_neg]
      · exact h
      · intro hg
        apply hc
        by_cases hn : n = 0
        · exact Or.inl hn
        · exact Or.inr (length_of_same (fun i h1 _ => (hs i h1).symm) hn (hg.resolve_left hn))

theorem Rd.Local.bind {α β : Type} {x : Rd α} {k : α → Rd β} (hx : x.Local) (hk : ∀ a, (k a).Local) :
    Rd.Local (Rd.bind x k) := by
  intro f g p
  have h1 := hx f g p
  unfold Rd.bind
  cases hxf : x f p with
  | error e =>
    refine ⟨(fun a q h => by cases h), fun e' h hs => ?_⟩
    rw [h1.2 e hxf hs]
    exact h
  | ok r =>
    obtain ⟨a, q⟩ := r
    obtain ⟨hle, hsame⟩ := h1.1 a q hxf
    have h2 := hk a f g q
    constructor
    · intro b q' h
      obtain ⟨hle', hsame'⟩ := h2.1 b q' h
      refine ⟨by omega, fun hs => ?_⟩
      rw [hsame (fun i h3 h4 => hs i h3 (by omega))]
      exact hsame' (fun i h3 h4 => hs i (by omega) h4)
    · intro e h hs
      rw [hsame (fun i h3 _ => hs i h3)]
      exact h2.2 e h (fun i h3 => hs i (by omega))

theorem Act.Straight.local {α : Type} {x : Act α} (h : x.Straight) : Rd.Local x.denote := by
  induction x with
  | ret a =>
    intro f g p
    refine ⟨fun b q hb => ?_, fun e he => by cases he⟩
    injection hb with hb
    injection hb with h1 h2
    subst h1 h2
    exact ⟨Nat.le_refl _, fun _ => rfl⟩
  | stop e => exact fun f g p => ⟨(fun b q hb => by cases hb), fun e' he _ => he⟩
  | exact n next ih => exact (Rd.Local.exact n).bind (fun bs => ih bs (h bs))
  | move o next ih => exact h.elim

theorem readSegment_local (al : Alloc) (e : Endian) (toc : ToC) : Rd.Local (Segment.readSegment al e toc) := by
  rw [← Act.denote_segment]
  exact (Act.Straight.segment al e toc).local

theorem segment_read_local (al : Alloc) : Rd.Local (Segment.read al) := by
  intro f g p
  have h1 := Rd.Local.exact 4 f g p
  have hb : Rd.Local (do
      let buf ← Rd.exact 4
      let toc := ToC.fromU32 (decNat .little buf)
      Segment.readSegment al (if toc.bigEndian then .big else .little) toc) :=
    (Rd.Local.exact 4).bind (fun buf => readSegment_local al _ _)
  unfold Segment.read
  cases hx : Rd.exact 4 f p with
  | error e =>
    have he : e = .err (.ioError .unexpectedEof) := by
      unfold Rd.exact at hx
      split at hx
      · cases hx
      · injection hx with hx
        exact hx.symm
    refine ⟨fun a q h => ?_, fun e' h hs => ?_⟩
    · subst he
      cases h
    · rw [h1.2 e hx hs]
      subst he
      exact h
  | ok r =>
    obtain ⟨tag, q⟩ := r
    obtain ⟨hle, hsame⟩ := h1.1 tag q hx
    dsimp only
    by_cases ht : tag ≠ tdsmTag
    · rw [if_pos ht]
      refine ⟨(fun a q h => by cases h), fun e h hs => ?_⟩
      rw [hsame (fun i h3 _ => hs i h3)]
      dsimp only
      rw [if_pos ht]
      exact h
    · rw [if_neg ht]
      have h2 := hb f g q
      constructor
      · intro s q' h
        obtain ⟨hle', hsame'⟩ := h2.1 s q' h
        refine ⟨by omega, fun hs => ?_⟩
        rw [hsame (fun i h3 h4 => hs i h3 (by omega))]
        dsimp only
        rw [if_neg ht]
        exact hsame' (fun i h3 h4 => hs i (by omega) h4)
      · intro e h hs
        rw [hsame (fun i h3 _ => hs i h3)]
        dsimp only
        rw [if_neg ht]
        exact h2.2 e h (fun i h3 => hs i (by omega))

theorem parses_of_sameHeads {al : Alloc} {f g : Bytes} {pos : Nat} (h : SameHeads al f g pos) :
    ∃ segs last, Parses al f pos segs last ∧ Parses al g pos segs last := by
  induction h with
  | done he hs => exact ⟨[], _, .done he, .done ((segment_read_local al f g _).2 _ he hs)⟩
  | segment hr hs _ ih =>
    obtain ⟨segs, last, h1, h2⟩ := ih
    exact ⟨_ :: segs, last, .segment hr h1, .segment (((segment_read_local al f g _).1 _ _ hr).2 hs) h2⟩

theorem buildIndex_sameHeads {al : Alloc} {f g : Bytes} (h : SameHeads al f g 0) : buildIndex al g = buildIndex al f := by
  obtain ⟨segs, last, h1, h2⟩ := parses_of_sameHeads h
  rw [buildIndex_eq h1, buildIndex_eq h2]

/-- Two openings have the same outcome: the same error, or files that give the same answers to every question that is
    not about sample values. -/
def SameAnswers (r r' : R TdmsFile) : Prop :=
  match r, r' with
  | .error e, .error e' => e = e'
  | .ok t, .ok t' => t.index = t'.index ∧
      (∀ path name, t.readProperty path name = t'.readProperty path name) ∧
      (∀ path, t.readAllProperties path = t'.readAllProperties path) ∧
      t.listGroups = t'.listGroups ∧
      (∀ group, t.listChannelsInGroup group = t'.listChannelsInGroup group) ∧
      (∀ channel, t.channelLength channel = t'.channelLength channel)
  | _, _ => False

theorem sameAnswers_of_index {al : Alloc} {f g : Bytes} (h : buildIndex al g = buildIndex al f) :
    SameAnswers (TdmsFile.new al f) (TdmsFile.new al g) := by
  unfold TdmsFile.new
  rw [h]
  cases buildIndex al f with
  | error e => exact rfl
  | ok ix => exact ⟨rfl, fun _ _ => rfl, fun _ => rfl, rfl, fun _ => rfl, fun _ => rfl⟩

/-! ## C106 -/

/-- **C106, any two files** (partial: what is read as a metadata section has to be the same, and the library reads a
    section also in segments that have none, see `open_samples_counterexample`). Files with the same headers and metadata
    sections, whatever is between these and whether it is complete, are opened alike: the same error, or the same
    answers to every question that is not about sample values. -/
theorem open_same_heads_partial (al : Alloc) (f g : Bytes) (h : SameHeads al f g 0) :
    SameAnswers (TdmsFile.new al f) (TdmsFile.new al g) :=
  sameAnswers_of_index (buildIndex_sameHeads h)

/-- The example file of C25, and a file with its headers and metadata, but other data after the first and none after
    the second. -/
def exampleFull : Bytes := exampleFile.flatMap FileSegment.encode
def exampleOther : Bytes := exampleFull.take 117 ++ (List.replicate 48 1 ++ (exampleFull.drop 165).take 52)

/-- They have the same headers and metadata, and different bytes, and so they are opened alike. -/
theorem open_same_heads_example : SameHeads anyAlloc exampleFull exampleOther 0 ∧
    exampleOther.length < exampleFull.length ∧ exampleFull[120]? ≠ exampleOther[120]? ∧
    (do let t ← TdmsFile.new anyAlloc exampleOther
        return (← t.channelLength (.new "g".toList "a".toList), ← t.channelLength (.new "g".toList "b".toList)))
      = .ok (some 6, some 6) := by
  refine ⟨?_, by decide +kernel, by decide +kernel, by decide +kernel⟩
  have hsame : ∀ p q, (∀ i, i < q → p ≤ i → exampleFull[i]? = exampleOther[i]?) → SameBytes exampleFull exampleOther p q :=
    fun p q h i h1 h2 => h i h2 h1
  have h1 : Segment.read anyAlloc exampleFull 0 = .ok ((exampleFile.map FileSegment.segment)[0], 117) := by decide +kernel
  have h2 : Segment.read anyAlloc exampleFull 165 = .ok ((exampleFile.map FileSegment.segment)[1], 217) := by decide +kernel
  have h3 : Segment.read anyAlloc exampleFull 241 = R.err .endOfFile := by decide +kernel
  refine .segment h1 (hsame _ _ (by decide +kernel)) ?_
  refine .segment (pos := 165) h2 (hsame _ _ (by decide +kernel)) ?_
  refine .done (pos := 241) h3 (fun i hi => ?_)
  have hl : exampleFull.length = 241 := by decide +kernel
  have hl' : exampleOther.length ≤ 241 := by decide +kernel
  rw [List.getElem?_eq_none (by omega), List.getElem?_eq_none (by omega)]

theorem segments_of_replaced : ∀ {fs gs : List FileSegment}, Replaced fs gs →
    gs.map FileSegment.segment = fs.map FileSegment.segment ∧ ((∀ s ∈ fs, s.Fits) → ∀ s ∈ gs, s.Fits)
  | [], [], _ => ⟨rfl, fun _ _ h => by cases h⟩
  | [], _ :: _, h => h.elim
  | _ :: _, [], h => h.elim
  | s :: ss, s' :: ss', h => by
    obtain ⟨⟨bytes, hl, rfl⟩, hr⟩ := h
    obtain ⟨h1, h2⟩ := segments_of_replaced hr
    constructor
    · rw [List.map_cons, List.map_cons, h1]
      congr 1
      unfold FileSegment.segment
      dsimp only
      rw [hl]
    · intro hf x hx
      rcases List.mem_cons.mp hx with rfl | hx
      · have h3 := hf s (List.mem_cons_self ..)
        refine ⟨h3.flag, h3.version, h3.raw, ?_, h3.metaData⟩
        have := h3.next
        show s.metaData.size + bytes.length < _
        omega
      · exact h2 (fun y hy => hf y (List.mem_cons_of_mem _ hy)) x hx

/-- **C106, replacing the sample data** (partial: all segments have a metadata section). Put other bytes, as many, in the
    place of everything that follows the metadata sections: the file is opened as before. -/
theorem open_replaced_partial (al : Alloc) (hal : Generous al) (fs gs : List FileSegment) (hf : ∀ s ∈ fs, s.Fits)
    (h : Replaced fs gs) (tail : Bytes) (ht : tail.length < 4) :
    SameAnswers (TdmsFile.new al (fs.flatMap FileSegment.encode ++ tail))
      (TdmsFile.new al (gs.flatMap FileSegment.encode ++ tail)) := by
  obtain ⟨h1, h2⟩ := segments_of_replaced h
  apply sameAnswers_of_index
  rw [(open_segments al hal fs hf tail).1 ht, (open_segments al hal gs (h2 hf) tail).1 ht, h1]

/-- The example file of C25 with zeros for all data. -/
theorem open_replaced_example : Replaced exampleFile (exampleFile.map fun s => { s with rest := s.rest.map fun _ => 0 }) ∧
    (exampleFile.map fun s => { s with rest := s.rest.map fun _ => 0 }).flatMap FileSegment.encode ≠ exampleFull :=
  ⟨⟨⟨_, by decide +kernel, rfl⟩, ⟨_, by decide +kernel, rfl⟩, trivial⟩, by decide +kernel⟩

theorem write_ignores_samples (al : Alloc) {t t' : TdmsFile} (ht : t.index = t'.index) (e : Endian) (ty : STy)
    (channels : List ChannelPath) {vals vals' : List ty.Val} (hl : vals'.length = vals.length) (layout : DataLayout) :
    (Op.run al t (.write e ty channels vals layout)).1 = (Op.run al t' (.write e ty channels vals' layout)).1 ∧
    (Op.run al t (.write e ty channels vals layout)).2.index
      = (Op.run al t' (.write e ty channels vals' layout)).2.index := by
  have hd : ∀ n, TdmsFile.dataStructure (ty.storage al) vals n = TdmsFile.dataStructure (ty.storage al) vals' n := by
    intro n
    unfold TdmsFile.dataStructure
    rw [hl]
  unfold Op.run TdmsFile.writeChannels
  dsimp only
  rw [hd, ht, hl]
  split
  · exact ⟨rfl, ht⟩
  · split
    · exact ⟨rfl, ht⟩
    · have hs : ∀ toc md, (writeSegment e toc md (some (TdmsFile.sliceData (ty.storage al) e vals))).1
          = (writeSegment e toc md (some (TdmsFile.sliceData (ty.storage al) e vals'))).1 := by
        intro toc md
        unfold writeSegment TdmsFile.sliceData DataToWrite.optSize
        dsimp only
        rw [hl]
        rfl
      dsimp only
      rw [hs]
      exact ⟨rfl, rfl⟩

/-- **C106, in one session.** The same calls with other sample values have the same results, on any file, and after them
    the file gives the same answers to every question that is not about sample values. -/
theorem calls_ignore_samples (al : Alloc) {ops ops' : List Op} (h : SameShape ops ops') :
    ∀ t t' : TdmsFile, t.index = t'.index →
    results al t ops = results al t' ops' ∧ SameAnswers (.ok (runOps al t ops)) (.ok (runOps al t' ops')) := by
  induction h with
  | nil =>
    intro t t' ht
    refine ⟨rfl, ht, ?_, ?_, ?_, ?_, ?_⟩ <;>
      simp [runOps, TdmsFile.readProperty, TdmsFile.readAllProperties, TdmsFile.listGroups,
        TdmsFile.listChannelsInGroup, TdmsFile.channelLength, ht]
  | @props e path properties ops ops' _ ih =>
    intro t t' ht
    have h1 : (Op.run al t (.props e path properties)).1 = (Op.run al t' (.props e path properties)).1 ∧
        (Op.run al t (.props e path properties)).2.index = (Op.run al t' (.props e path properties)).2.index := by
      unfold Op.run TdmsFile.writeProperties
      dsimp only
      rw [ht]
      exact ⟨rfl, rfl⟩
    obtain ⟨h3, h4⟩ := ih _ _ h1.2
    refine ⟨?_, h4⟩
    unfold results
    rw [h1.1, h3]
  | @write e ty channels vals vals' layout ops ops' hl _ ih =>
    intro t t' ht
    obtain ⟨h1, h2⟩ := write_ignores_samples al ht e ty channels hl layout
    obtain ⟨h3, h4⟩ := ih _ _ h2
    refine ⟨?_, h4⟩
    unfold results
    rw [h1, h3]

/-- **C106, after reopening** (partial: every data write changes the list of channels; by `reopens_iff` of C32 this is
    exactly what is needed for all values, and extended floats and strings are excluded by `OpFits`). The same calls
    with other sample values make a file that opens as well, with the same answers to every question that is not about
    sample values. -/
theorem reopen_ignores_samples_partial (al : Alloc) (hal : Generous al) {t : TdmsFile}
    (hcreate : TdmsFile.create al = .ok t) {ops ops' : List Op} (h : SameShape ops ops') (hall : AllSucceed al t ops)
    (hdist : ∀ op ∈ ops, Distinct op) (hfit : ∀ op ∈ ops, OpFits op) (hc : Changing Last.none ops)
    (hsz : (runOps al t ops).bytes.length < 2 ^ 64) :
    (∃ s, TdmsFile.new al (runOps al t ops).bytes = .ok s) ∧
    SameAnswers (TdmsFile.new al (runOps al t ops).bytes) (TdmsFile.new al (runOps al t ops').bytes) := by
  have hsized := opfits_sized hfit
  have h1 := reopen_partial al hal hcreate ops hall hdist hfit (changing_described al ops _ hc) hsz
  have h2 := reopen_partial al hal hcreate ops' (allSucceed_shape al h hsized t t rfl rfl hall) (distinct_shape h hdist)
    (opfits_shape h hfit) (changing_described al ops' _ (changing_shape h _ hc))
    (by rw [(runOps_shape al h hsized t t rfl rfl).2]; exact hsz)
  rw [h1, h2]
  exact ⟨⟨_, rfl⟩, (calls_ignore_samples al h t t rfl).2⟩

/-- The history of `reopens_iff_example` and one with other values. -/
theorem reopen_ignores_samples_example :
    SameShape changingOps [writeU16 ["a", "b"] [7, 7, 0, 4], .props .big (.group "g".toList) [("n".toList, .i32 5)],
      writeU16 ["c"] [0, 6, 1], writeU16 ["a", "b"] [3, 9]] ∧
    AllSucceed anyAlloc ⟨Index.new, []⟩ changingOps ∧ (∀ op ∈ changingOps, Distinct op) ∧
    (∀ op ∈ changingOps, OpFits op) ∧ (session changingOps).bytes.length < 2 ^ 64 ∧ Changing Last.none changingOps :=
  ⟨.write rfl (.props (.write rfl (.write rfl .nil))), reopens_iff_example⟩

/-- Three calls of which the last is refused, with two choices of values, on a file with another channel. -/
theorem calls_ignore_samples_example :
    SameShape [writeU16 ["a", "b"] [1, 2, 3, 4], writeU16 ["a", "b"] [5, 6, 7, 8], writeU16 ["a", "b"] [9]]
      [writeU16 ["a", "b"] [0, 0, 0, 1], writeU16 ["a", "b"] [8, 8, 8, 8], writeU16 ["a", "b"] [2]] ∧
    results anyAlloc (session [writeU16 ["c"] [1]])
      [writeU16 ["a", "b"] [1, 2, 3, 4], writeU16 ["a", "b"] [5, 6, 7, 8], writeU16 ["a", "b"] [9]]
      = [.ok (), .ok (), R.err (.badDataBlockLength 1 2)] :=
  ⟨.write rfl (.write rfl (.write rfl .nil)), by decide +kernel⟩

/-- C106 is false in full. The same calls, all of which succeed, with other sample values: the one file can be opened
    again, the other cannot. -/
theorem open_samples_counterexample :
    SameShape [writeU16 ["a"] [1, 2], writeU16 ["a"] [0, 0]] [writeU16 ["a"] [1, 2], writeU16 ["a"] [3, 4]] ∧
    allOk [writeU16 ["a"] [1, 2], writeU16 ["a"] [0, 0]] = true ∧
    allOk [writeU16 ["a"] [1, 2], writeU16 ["a"] [3, 4]] = true ∧
    TdmsFile.new anyAlloc (session [writeU16 ["a"] [1, 2], writeU16 ["a"] [0, 0]]).bytes
      = .ok (session [writeU16 ["a"] [1, 2], writeU16 ["a"] [0, 0]]) ∧
    TdmsFile.new anyAlloc (session [writeU16 ["a"] [1, 2], writeU16 ["a"] [3, 4]]).bytes
      = R.err (.ioError .unexpectedEof) :=
  ⟨.write rfl (.write rfl .nil),
    by decide +kernel, by decide +kernel, by decide +kernel, by decide +kernel⟩

end Tedium
