import Verif.Proofs.Meanwhile
import Verif.Props.FailedReads

/-!
# C81: calls on a file to which another program appends during the call

`Growing` (`Model/Growing.lean`) is a stream with a list of what others append to it: the head of the list arrives before the
next operation of the stream, so that a file can grow between any two operations that a call makes.
-/

namespace Tedium
open SegSpec Faults ReadSpec

/-! ## Opening -/

/-- C81. Whatever arrives during the call and when, opening gives what it gives on the contents as they are at the end
    of the call. Reads of the stream may be short or interrupted. -/
theorem open_while_growing (al : Alloc) (capacity : Nat) (g : Growing) (hlen : g.total < 2 ^ 64) (hr : g.Reliable) :
    ∃ r g', g.buildIndex al capacity = (r, g') ∧ g.Later g' ∧ g'.Reliable ∧ r = Tedium.buildIndex al g'.contents := by
  obtain ⟨segs, last, hp⟩ := Parses.exists al (g.buildIndex al capacity).2.contents 0
  obtain ⟨h1, used, h2, h3⟩ := g.buildIndex_told al capacity hlen hp
  have hno : NoFailure used := fun o ho => hr o (by rw [h2]; exact List.mem_append_left _ ho)
  refine ⟨_, _, rfl, h1, fun o ho => hr o (by rw [h2]; exact List.mem_append_right _ ho), ?_⟩
  rcases h3 with (⟨_, h3⟩ | ⟨c, hc, _⟩) | ⟨c, _, _, _, hc, _⟩
  · exact h3.trans (buildIndex_eq hp).symm
  · exact absurd hno hc.failure
  · exact absurd hno hc.failure

/-- C81. The same for streams that fail: then the error is returned, or the index covers the first segments only, as on
    a stream that does not grow (C54). -/
theorem open_while_growing_failing_partial (al : Alloc) (capacity : Nat) (g : Growing) (hlen : g.total < 2 ^ 64) :
    ∃ r g' used, g.buildIndex al capacity = (r, g') ∧ g.Later g' ∧ g.dev.script = used ++ g'.dev.script ∧
      ((NoFailure used ∧ r = Tedium.buildIndex al g'.contents) ∨
        (∃ kind, Failed used kind ∧ r = .error (.err (.ioError kind))) ∨
        ∃ kind pre post last ix, Failed used kind ∧ (pre = [] → kind = .unexpectedEof) ∧
          Parses al g'.contents 0 (pre ++ post) last ∧ replay Index.new pre = .ok ix ∧ r = .ok ix) := by
  obtain ⟨segs, last, hp⟩ := Parses.exists al (g.buildIndex al capacity).2.contents 0
  obtain ⟨h1, used, h2, h3⟩ := g.buildIndex_told al capacity hlen hp
  refine ⟨_, _, used, rfl, h1, h2, ?_⟩
  rcases h3 with (⟨hn, h3⟩ | ⟨c, hc, h3⟩) | ⟨c, pre, post, ix, hc, hpre, rfl, hrep, hres⟩
  · exact Or.inl ⟨hn, h3.trans (buildIndex_eq hp).symm⟩
  · exact Or.inr (Or.inl ⟨c, hc, h3⟩)
  · exact Or.inr (Or.inr ⟨c, pre, post, last, ix, hc, hpre, hp, hrep, hres⟩)

/-! ## Reading -/

/-- The index of a file that a program has: it has opened it, perhaps while it grew, or has used it in any way since. -/
def Obtained (al : Alloc) (ix : Index) : Prop :=
  (∃ capacity g, (Growing.buildIndex al capacity g).1 = .ok ix) ∨
    ∃ split capacity h, Reached al split capacity h ∧ h.index = ix

theorem Obtained.startsFit {al : Alloc} {ix : Index} (h : Obtained al ix) : StartsFit ix := by
  rcases h with ⟨_, _, h⟩ | ⟨_, _, _, h, rfl⟩
  · exact Growing.buildIndex_startsFit h
  · exact h.startsFit

/-- C81. A read of one channel, whatever the stream does: it gives, in the result and in the buffer, what it gives on the
    contents as they are at the end of the call. If an operation of the stream fails the call returns its error, and
    the buffer has a front part of that. -/
theorem read_while_growing (al : Alloc) (capacity : Nat) {ix : Index} (hix : Obtained al ix) (g : Growing) (hlen : g.total < 2 ^ 64)
    (ty : STy) (channel : ChannelPath) (start : Nat) (output : List ty.Val) :
    ∃ r buffer g' used, g.readChannelInto al capacity ty ix channel start output = (r, buffer, g') ∧ g.Later g' ∧
      g.dev.script = used ++ g'.dev.script ∧
      ((NoFailure used ∧ (r, buffer) = TdmsFile.readChannelInto al ty ⟨ix, g'.contents⟩ channel start output) ∨
        ∃ kind n, Failed used kind ∧ r = .error (.err (.ioError kind)) ∧ n ≤ output.length ∧
          buffer = (TdmsFile.readChannelInto al ty ⟨ix, g'.contents⟩ channel start output).2.take n ++ output.drop n) := by
  obtain ⟨h1, used, h2, h3⟩ := readChannelLog_told al capacity ty hix.startsFit channel start output g hlen
  unfold Growing.readChannelInto
  generalize readChannelLog al ty (Runner.growing capacity) ix channel start output g = x at h1 h2 h3
  obtain ⟨r, log, g'⟩ := x
  dsimp only at h1 h2 h3 ⊢
  refine ⟨_, _, _, used, rfl, h1, h2, ?_⟩
  rcases h3 with ⟨hn, rfl, rfl⟩ | ⟨kind, hk, rfl, h4⟩
  · exact Or.inl ⟨hn, rfl⟩
  · refine Or.inr ⟨kind, ?_⟩
    by_cases ho : output = []
    · subst ho
      refine ⟨0, hk, rfl, Nat.le_refl _, ?_⟩
      obtain ⟨o, i1, i2⟩ := applyAll_one log ([] : List ty.Val)
      rw [i2]
      exact List.length_eq_zero_iff.mp i1
    · obtain ⟨vs, i1, i2, i3⟩ := readChannelInto_run al ty ⟨ix, g'.contents⟩ channel start output ho
      rw [i3]
      dsimp only at i2
      rw [i2] at h4
      obtain ⟨n, j1, j2⟩ := run_prefix ty h4 i1
      exact ⟨n, hk, rfl, j1, j2⟩

/-- C81. The same for several channels. When the stream fails, the cells assigned are the first of those that the read
    should have assigned. -/
theorem read_many_while_growing (al : Alloc) (capacity : Nat) {ix : Index} (hix : Obtained al ix) (g : Growing) (hlen : g.total < 2 ^ 64)
    (ty : STy) (channels : List ChannelPath) (start : Nat) (outputs : List (List ty.Val)) :
    ∃ r buffers g' used, g.readChannelsInto al capacity ty ix channels start outputs = (r, buffers, g') ∧ g.Later g' ∧
      g.dev.script = used ++ g'.dev.script ∧
      ((NoFailure used ∧ (r, buffers) = TdmsFile.readChannelsInto al ty ⟨ix, g'.contents⟩ channels start outputs) ∨
        ∃ kind log more, Failed used kind ∧ r = .error (.err (.ioError kind)) ∧ buffers = log.foldl CellStore.apply outputs ∧
          (readChannelsLog al ty Runner.contents ix channels start outputs g'.contents).2.1 = log ++ more) := by
  obtain ⟨h1, used, h2, h3⟩ := readChannelsLog_told al capacity ty hix.startsFit channels start outputs g hlen
  unfold Growing.readChannelsInto
  generalize readChannelsLog al ty (Runner.growing capacity) ix channels start outputs g = x at h1 h2 h3
  obtain ⟨r, log, g'⟩ := x
  dsimp only at h1 h2 h3 ⊢
  refine ⟨_, _, _, used, rfl, h1, h2, ?_⟩
  rcases h3 with ⟨hn, rfl, rfl⟩ | ⟨kind, hk, rfl, more, h4⟩
  · exact Or.inl ⟨hn, rfl⟩
  · exact Or.inr ⟨kind, log, more, hk, rfl, rfl, h4.symm⟩

/-- C81. A read that would succeed on the contents as they are at the beginning of the call gives the same, whatever arrives. -/
theorem read_undisturbed (al : Alloc) (capacity : Nat) {ix : Index} (hix : Obtained al ix) (g : Growing) (hlen : g.total < 2 ^ 64)
    (hr : g.Reliable) (ty : STy) (channels : List ChannelPath) (start : Nat) (outputs : List (List ty.Val)) {buffers : List (List ty.Val)}
    (h : TdmsFile.readChannelsFrom (ty.storage al) ⟨ix, g.contents⟩ channels start outputs = .ok buffers) :
    ∃ g', g.readChannelsInto al capacity ty ix channels start outputs = (.ok (), buffers, g') := by
  obtain ⟨r, b, g', used, h1, h2, h3, h4⟩ := read_many_while_growing al capacity hix g hlen ty channels start outputs
  have hno : NoFailure used := fun o ho => hr o (by rw [h3]; exact List.mem_append_left _ ho)
  rcases h4 with ⟨_, h4⟩ | ⟨c, _, _, hc, _⟩
  · obtain ⟨x, hx⟩ := h2.grows
    have hgrow : Grows ⟨ix, g.contents⟩ ⟨ix, g'.contents⟩ := ⟨⟨x, hx.symm⟩, [], (List.append_nil _).symm⟩
    have hm := readChannelsFrom_mono (STy.mono al ty) hgrow (fun _ _ => rfl) h
    obtain ⟨i1, i2⟩ := read_many_into_agrees al ty ⟨ix, g'.contents⟩ channels start outputs
    rw [hm] at i1
    rw [← h4] at i1 i2
    dsimp only at i1 i2
    exact ⟨g', by rw [h1, i2 _ hm, i1]; rfl⟩
  · exact absurd hno hc.failure

/-! ## Following a file -/

theorem take_over {α : Type} {x o : List α} (hx : x.length = o.length) {m n : Nat} (hm : m ≤ o.length) (hn : n ≤ o.length) :
    (x.take n ++ o.drop n).take m ++ o.drop m = x.take (min m n) ++ o.drop (min m n) := by
  rw [List.take_append, List.take_take, List.length_take, List.append_assoc]
  congr 1
  rw [List.take_drop]
  by_cases h : m ≤ n
  · rw [show min m n = m by omega, show m - min n x.length = 0 by omega]
    simp
  · rw [show min m n = n by omega, show n + (m - min n x.length) = m by omega]
    conv => rhs; rw [← List.take_append_drop m o]
    rw [List.drop_append_of_le_length (by rw [List.length_take]; omega)]

/-- C81. What a program sees that opens a file and reads from it while it is being written is never taken back: whatever
    it finds in its buffer, at whatever moment it opened the file and at whatever moment it reads, is a front part of
    what the same read finds when the file is complete. The stream may fail at any time. -/
theorem live_read_is_final (al : Alloc) (capacity capacity' : Nat) {g₀ g₁ g : Growing} {ix : Index} (hlen : g₀.total < 2 ^ 64)
    (hopen : g₀.buildIndex al capacity = (.ok ix, g₁)) (hlater : g₁.Later g) (ty : STy) (channel : ChannelPath) (start : Nat)
    (output : List ty.Val) {r : R Unit} {buffer : List ty.Val} {g' : Growing}
    (hread : g.readChannelInto al capacity' ty ix channel start output = (r, buffer, g'))
    {rest : Bytes} {t : TdmsFile} (ht : TdmsFile.new al (g'.contents ++ rest) = .ok t) :
    ∃ n, n ≤ output.length ∧ buffer = (t.readChannelInto al ty channel start output).2.take n ++ output.drop n := by
  have hix : Obtained al ix := Or.inl ⟨capacity, g₀, by rw [hopen]⟩
  obtain ⟨segs, last, hp⟩ := Parses.exists al (g₀.buildIndex al capacity).2.contents 0
  obtain ⟨h1, used, h2, h3⟩ := g₀.buildIndex_told al capacity hlen hp
  rw [hopen] at hp h1 h3
  have hpart : ∃ pre post, segs = pre ++ post ∧ replay Index.new pre = .ok ix := by
    rcases h3 with (⟨_, h3⟩ | ⟨c, _, h3⟩) | ⟨c, pre, post, ix', hc, _, hseg, hrep, hres⟩
    · refine ⟨segs, [], (List.append_nil _).symm, ?_⟩
      unfold openResult at h3
      cases hrep : replay Index.new segs with
      | error e => rw [hrep] at h3; cases h3
      | ok ix' =>
        rw [hrep] at h3
        dsimp only at h3
        split at h3
        · cases h3; rfl
        · cases h3
    · cases h3
    · cases hres; exact ⟨pre, post, hseg, hrep⟩
  obtain ⟨pre, post, rfl, hrep⟩ := hpart
  have hlen' : g.total < 2 ^ 64 := by rw [hlater.total]; exact h1.total ▸ hlen
  obtain ⟨r', b', g'', used', i1, i2, i3, i4⟩ := read_while_growing al capacity' hix g hlen' ty channel start output
  rw [hread] at i1
  cases i1
  obtain ⟨x, hx⟩ := (hlater.trans i2).grows
  obtain ⟨hb', segs', hp', hr'⟩ := opened ht
  obtain ⟨more, last', hm⟩ := parses_grow (x ++ rest) hp
  rw [← List.append_assoc, hx] at hm
  obtain ⟨rfl, _⟩ := hp'.unique hm
  rw [List.append_assoc, replay_append, hrep] at hr'
  have hi := IndexGrows.replay hr'
  have hgrow : Grows ⟨ix, g'.contents⟩ t := ⟨⟨rest, hb'⟩, hi.blocks⟩
  obtain ⟨n, j1, j2⟩ := read_into_front (al := al) hgrow hi ty channel start output
  rcases i4 with ⟨_, i4⟩ | ⟨kind, m, _, _, hm, i4⟩
  · exact ⟨n, j1, (congrArg Prod.snd i4).trans j2⟩
  · have hl : (t.readChannelInto al ty channel start output).2.length = output.length := by
      obtain ⟨o, k1, k2⟩ := applyAll_one (readChannelLog al ty Runner.contents t.index channel start output t.bytes).2.1 output
      show (((readChannelLog al ty Runner.contents t.index channel start output t.bytes).2.1.foldl CellStore.apply [output]).headD []).length = _
      rw [k2]
      exact k1
    refine ⟨min m n, by omega, ?_⟩
    rw [i4, j2]
    exact take_over hl hm j1

/-- Several reads, one after the other, of a file to which others append all the time: the answers, and the contents at
    the end of each read. -/
def Growing.readAll (al : Alloc) (capacity : Nat) (ty : STy) (ix : Index) (g : Growing) :
    List (List ChannelPath × Nat × List (List ty.Val)) → List ((R Unit × List (List ty.Val)) × Bytes)
  | [] => []
  | (channels, start, outputs) :: calls =>
    let (r, buffers, g) := g.readChannelsInto al capacity ty ix channels start outputs
    ((r, buffers), g.contents) :: g.readAll al capacity ty ix calls

/-- C81. Each of the reads gives what it gives on the contents at some moment, and the moments are in order. -/
theorem reads_while_growing (al : Alloc) (capacity : Nat) {ix : Index} (hix : Obtained al ix) (ty : STy)
    (calls : List (List ChannelPath × Nat × List (List ty.Val))) : ∀ (g : Growing), g.total < 2 ^ 64 → g.Reliable →
    ((g.readAll al capacity ty ix calls).length = calls.length ∧
      List.Pairwise (· <+: ·) (g.contents :: (g.readAll al capacity ty ix calls).map (·.2))) ∧
    ∀ (i : Nat) channels start outputs answer contents, calls[i]? = some (channels, start, outputs) →
      (g.readAll al capacity ty ix calls)[i]? = some (answer, contents) →
      answer = TdmsFile.readChannelsInto al ty ⟨ix, contents⟩ channels start outputs := by
  induction calls with
  | nil => intro g _ _; exact ⟨⟨rfl, by simp [Growing.readAll]⟩, fun i _ _ _ _ _ h => by simp at h⟩
  | cons call calls ih =>
    intro g hlen hr
    obtain ⟨channels, start, outputs⟩ := call
    obtain ⟨r, b, g', used, h1, h2, h3, h4⟩ := read_many_while_growing al capacity hix g hlen ty channels start outputs
    have hno : NoFailure used := fun o ho => hr o (by rw [h3]; exact List.mem_append_left _ ho)
    have hr' : g'.Reliable := fun o ho => hr o (by rw [h3]; exact List.mem_append_right _ ho)
    obtain ⟨⟨i1, i2⟩, i3⟩ := ih g' (by rw [h2.total]; exact hlen) hr'
    unfold Growing.readAll
    rw [h1]
    dsimp only
    refine ⟨⟨by rw [List.length_cons, i1, List.length_cons], ?_⟩, ?_⟩
    · rw [List.map_cons, List.pairwise_cons]
      refine ⟨?_, i2⟩
      intro c hc
      rcases List.mem_cons.mp hc with rfl | hc
      · exact h2.grows
      · exact h2.grows.trans ((List.pairwise_cons.mp i2).1 c hc)
    · intro i cs st outs a c hcall hans
      cases i with
      | succ i => exact i3 i cs st outs a c hcall hans
      | zero =>
        cases hcall
        cases hans
        rcases h4 with ⟨_, h4⟩ | ⟨c, _, _, hc, _⟩
        · exact h4
        · exact absurd hno hc.failure

/-! ## Examples -/

/-- Two segments: channel `a` with 1, 2 in 72 bytes, then channel `b` with 3. -/
def twoPartFile : Bytes := (session [writeU16 ["a"] [1, 2], writeU16 ["b"] [3]]).bytes

/-- The first segment is there. The operations of opening it are the seek to the beginning, two reads of four bytes, one
    read of the rest, and the seek behind it. Then `more` arrives. -/
def arriving (more : Bytes) : Growing := ⟨⟨twoPartFile.take 72, 9, []⟩, [[], [], [], [], [], more]⟩

/-- What opening finds: the lengths of `a` and `b`. -/
def foundLengths (x : R Index × Growing) : R (R (Option Nat) × R (Option Nat)) :=
  x.1.map fun ix => (TdmsFile.channelLength ⟨ix, []⟩ (chan "a"), TdmsFile.channelLength ⟨ix, []⟩ (chan "b"))

/-- Nothing arrives in time; the whole second segment arrives when the first one has been read; only ten bytes of it
    arrive; only three bytes. -/
theorem opening_while_growing_example :
    foundLengths ((arriving []).buildIndex anyAlloc 8192) = .ok (.ok (some 2), .ok none) ∧
    foundLengths ((arriving (twoPartFile.drop 72)).buildIndex anyAlloc 8192) = .ok (.ok (some 2), .ok (some 1)) ∧
    foundLengths ((arriving ((twoPartFile.drop 72).take 10)).buildIndex anyAlloc 8192) = R.err (.ioError .unexpectedEof) ∧
    foundLengths ((arriving ((twoPartFile.drop 72).take 3)).buildIndex anyAlloc 8192) = .ok (.ok (some 2), .ok none) ∧
    (arriving (twoPartFile.drop 72)).Reliable ∧ (arriving (twoPartFile.drop 72)).total < 2 ^ 64 ∧
    ((arriving (twoPartFile.drop 72)).buildIndex anyAlloc 8192).2.contents = twoPartFile := by
  refine ⟨?_, ?_, ?_, ?_, nofun, ?_, ?_⟩ <;> decide +kernel

/-- The file without its last byte: opening succeeds, and a read of `b` fails or succeeds, as the last byte arrives
    after it, during it, or before it. -/
theorem reading_while_growing_example :
    let g := fun growth => (⟨⟨twoPartFile.take 141, 0, [.short 3, .interrupted]⟩, growth⟩ : Growing)
    let go := fun growth => match (g growth).buildIndex anyAlloc 8192 with
      | (.ok ix, g1) =>
        let (r, b, g2) := g1.readChannelInto anyAlloc 8192 .u16 ix (chan "b") 0 (vals16 [9, 9])
        some (intoNums (r, b), g1.contents.length, g2.contents.length)
      | _ => none
    go [] = some ((false, [9, 9]), 141, 141) ∧
    go (List.replicate 11 [] ++ [twoPartFile.drop 141]) = some ((true, [3, 9]), 141, 142) ∧
    go (List.replicate 4 [] ++ [twoPartFile.drop 141]) = some ((true, [3, 9]), 142, 142) := by
  decide +kernel

end Tedium
