import Verif.Spec.Recording
import Verif.Props.Meanwhile
import Verif.Props.Crash
import Verif.Props.ReadBack

/-!
# C82: one program writes a file with this library and another watches it

The writer's bytes reach the file in pieces of any size, at any moments, also during the calls of the other program.
-/

namespace Tedium
open SegSpec WriteSpec ReadSpec Faults

theorem Growing.Shows.length {al : Alloc} {ops : List Op} {g : Growing} (h : g.Shows al ops) :
    g.total = (runOps al ⟨Index.new, []⟩ ops).bytes.length := by
  unfold Growing.Shows at h
  rw [← h, List.length_append, List.length_flatten]
  rfl

theorem Growing.Shows.later {al : Alloc} {ops : List Op} {g g' : Growing} (h : g.Shows al ops) (hl : g.Later g') : g'.Shows al ops := by
  obtain ⟨now, h1, h2⟩ := hl
  unfold Growing.Shows at h ⊢
  rw [h2, ← h, h1, List.flatten_append, List.append_assoc]

theorem Growing.Shows.part {al : Alloc} {ops : List Op} {g : Growing} (h : g.Shows al ops) :
    g.contents <+: (runOps al ⟨Index.new, []⟩ ops).bytes := ⟨_, h⟩

theorem Recording.succeeds {al : Alloc} {ops : List Op} (h : Recording al ops) : AllSucceed al ⟨Index.new, []⟩ ops :=
  (write_then_read_partial al (t := ⟨Index.new, []⟩) rfl ops h.compatible h.size).1

/-- C82, opening (partial, with the limits of C31 and C32). At the end of the call some number `k` of the writer's calls
    are complete in the file. The result is the file with the objects, properties and data blocks of these, or with
    those of the next call too, or the error `UnexpectedEof`. It is the first when fewer than four bytes of the next
    call have arrived, so also when all calls are complete. -/
theorem watch_open_partial (al : Alloc) (hal : Generous al) {ops : List Op} (hrec : Recording al ops) (capacity : Nat)
    {g : Growing} (hshow : g.Shows al ops) (hr : g.Reliable) :
    ∃ r g' k, g.buildIndex al capacity = (r, g') ∧ g.Later g' ∧ k ≤ ops.length ∧
      (∀ j, j ≤ ops.length → (g'.Has al ops j ↔ j ≤ k)) ∧
      (r = .ok (runOps al ⟨Index.new, []⟩ (ops.take k)).index ∨ r = R.err (.ioError .unexpectedEof) ∨
        r = .ok (runOps al ⟨Index.new, []⟩ (ops.take (k + 1))).index) ∧
      (g'.contents.length < (runOps al ⟨Index.new, []⟩ (ops.take k)).bytes.length + 4 →
        r = .ok (runOps al ⟨Index.new, []⟩ (ops.take k)).index) := by
  have hsize := hrec.size
  obtain ⟨r, g', h1, h2, _, h3⟩ := open_while_growing al capacity g (by rw [hshow.length]; omega) hr
  obtain ⟨k, hk, hiff, hlow, hcases, _⟩ := crash_recovery_partial al hal [] (fun _ h => by cases h) (t := ⟨Index.new, []⟩) rfl ops
    hrec.succeeds hrec.distinct hrec.fits hrec.described (by omega) g'.contents List.nil_prefix (hshow.later h2).part
  have hnew : ∀ ix, TdmsFile.new al g'.contents = .ok ⟨ix, g'.contents⟩ → r = .ok ix := by
    intro ix hix
    rw [h3]
    unfold TdmsFile.new at hix
    cases hb : Tedium.buildIndex al g'.contents with
    | error e => rw [hb] at hix; cases hix
    | ok ix' => rw [hb] at hix; cases hix; rfl
  refine ⟨r, g', k, h1, h2, hk, hiff, ?_, fun h => hnew _ (hlow h)⟩
  rcases hcases with h | h | h
  · exact Or.inl (hnew _ h)
  · refine Or.inr (Or.inl ?_)
    rw [h3]
    unfold TdmsFile.new at h
    cases hb : Tedium.buildIndex al g'.contents with
    | error e => rw [hb] at h; cases h; rfl
    | ok ix' => rw [hb] at h; cases h
  · exact Or.inr (Or.inr (hnew _ h))

/-- C82, reading (partial, as above). Open the file at any moment and read at any later one. However the calls of the
    two programs overlap, and even if the stream fails, the buffer holds a front part of the values that
    the writer gives to the channel, from the start asked for, and behind it what the buffer held before. -/
theorem watch_read_partial (al : Alloc) (hal : Generous al) {ops : List Op} (hrec : Recording al ops) (capacity capacity' : Nat)
    {g₀ g₁ g g' : Growing} (hshow : g₀.Shows al ops) {ix : Index} (hopen : g₀.buildIndex al capacity = (.ok ix, g₁))
    (hlater : g₁.Later g) (ty : STy) (hty : Format.ordinaryTy ty = true) (c : ChannelPath)
    (htype : ∀ op ∈ ops, Names c.path op → typeOf op = some ty) (hnamed : ∃ op ∈ ops, Names c.path op)
    (start : Nat) (out : List ty.Val) {r : R Unit} {buffer : List ty.Val}
    (hread : g.readChannelInto al capacity' ty ix c start out = (r, buffer, g')) :
    ∃ n, n ≤ out.length ∧ n ≤ (written ty c.path ops).length - start ∧
      buffer = ((written ty c.path ops).drop start).take n ++ out.drop n := by
  have hsize := hrec.size
  have hlen : g₀.total < 2 ^ 64 := by rw [hshow.length]; omega
  have hl₁ : g₀.Later g₁ := by
    obtain ⟨segs, last, hp⟩ := Parses.exists al (g₀.buildIndex al capacity).2.contents 0
    have := (g₀.buildIndex_told al capacity hlen hp).1
    rw [hopen] at this
    exact this
  have hix : Obtained al ix := Or.inl ⟨capacity, g₀, by rw [hopen]⟩
  have hl' : g.Later g' := by
    obtain ⟨_, _, _, _, i1, i2, _⟩ := read_while_growing al capacity' hix g (by rw [(hl₁.trans hlater).total]; exact hlen) ty c start out
    rw [hread] at i1
    cases i1
    exact i2
  have hfin := ((hshow.later hl₁).later hlater).later hl'
  have hre := reopen_partial al hal (t := ⟨Index.new, []⟩) rfl ops hrec.succeeds hrec.distinct hrec.fits hrec.described (by omega)
  rw [← hfin] at hre
  obtain ⟨n, h1, h2⟩ := live_read_is_final al capacity capacity' hlen hopen hlater ty c start out hread hre
  have hw := ((write_then_read_partial al (t := ⟨Index.new, []⟩) rfl ops hrec.compatible hrec.size).2 ty c hty htype hnamed).2 start out
  rw [(read_into_agrees al ty _ c start out).2 _ hw] at h2
  generalize hv : (written ty c.path ops).drop start = vals at h2 hw
  have hvl : vals.length = (written ty c.path ops).length - start := by rw [← hv, List.length_drop]
  refine ⟨min n vals.length, by omega, by omega, ?_⟩
  rw [h2]
  unfold overlay
  by_cases hn : n ≤ vals.length
  · rw [Nat.min_eq_left hn, List.take_append_of_le_length (by rw [List.length_take]; omega), List.take_take, Nat.min_eq_left h1]
  · rw [Nat.min_eq_right (by omega), List.take_append, List.take_of_length_le (by rw [List.length_take]; omega),
      List.take_of_length_le (by omega), List.take_of_length_le (Nat.le_refl _), List.append_assoc, List.take_drop]
    congr 1
    conv => rhs; rw [← List.take_append_drop n out]
    rw [List.drop_append_of_le_length (by rw [List.length_take]; omega)]
    rw [show vals.length + (n - vals.length) = n by omega]

/-- C82, completeness (partial, as above). When the stream does not fail, whatever was complete in the file when it was
    opened is delivered: if the file had the first `j` calls then, a later read puts all values of these calls into
    the buffer, from the start asked for, as many as the buffer takes. -/
theorem watch_sees_partial (al : Alloc) (hal : Generous al) {ops : List Op} (hrec : Recording al ops) (capacity capacity' : Nat)
    {g₀ g₁ g g' : Growing} (hshow : g₀.Shows al ops) (hr₀ : g₀.Reliable) (hr : g.Reliable) {ix : Index}
    (hopen : g₀.buildIndex al capacity = (.ok ix, g₁)) (hlater : g₁.Later g) (ty : STy) (hty : Format.ordinaryTy ty = true) (c : ChannelPath)
    (htype : ∀ op ∈ ops, Names c.path op → typeOf op = some ty)
    (start : Nat) (out : List ty.Val) {r : R Unit} {buffer : List ty.Val}
    (hread : g.readChannelInto al capacity' ty ix c start out = (r, buffer, g'))
    {j : Nat} (hj : j ≤ ops.length) (hhas : g₁.Has al ops j) :
    ((written ty c.path (ops.take j)).drop start).take out.length <+: buffer := by
  have hsize := hrec.size
  have hlen : g₀.total < 2 ^ 64 := by rw [hshow.length]; omega
  obtain ⟨r₁, g₁', i1, hl₁, _, i2⟩ := open_while_growing al capacity g₀ hlen hr₀
  rw [hopen] at i1
  cases i1
  have hix : Obtained al ix := Or.inl ⟨capacity, g₀, by rw [hopen]⟩
  obtain ⟨r', b', g'', used, i3, hl', i4, i5⟩ :=
    read_while_growing al capacity' hix g (by rw [(hl₁.trans hlater).total]; exact hlen) ty c start out
  rw [hread] at i3
  cases i3
  have hno : NoFailure used := fun o ho => hr o (by rw [i4]; exact List.mem_append_left _ ho)
  rcases i5 with ⟨_, i5⟩ | ⟨_, _, hc, _⟩
  rotate_left
  · exact absurd hno hc.failure
  generalize hv : ((written ty c.path (ops.take j)).drop start).take out.length = vals
  by_cases hz : vals.length = 0
  · rw [List.length_eq_zero_iff.mp hz]; exact List.nil_prefix
  have hnamed : ∃ op ∈ ops.take j, Names c.path op := by
    refine Classical.byContradiction fun hcon => hz ?_
    have : written ty c.path (ops.take j) = [] := by
      unfold written
      rw [List.flatMap_eq_nil_iff]
      intro op hop
      cases op with
      | props => rfl
      | write e ty' channels vs layout =>
        unfold valuesFor
        dsimp only
        split
        · have : (channels.map ChannelPath.path).idxOf? c.path = none := by
            rw [List.idxOf?_eq_none_iff]
            intro hm
            obtain ⟨c', h1, h2⟩ := List.mem_map.mp hm
            exact hcon ⟨_, hop, c', h1, h2⟩
          rw [this]
        · rfl
    rw [← hv, this]
    simp
  have hw := ((write_then_read_partial al (t := ⟨Index.new, []⟩) rfl (ops.take j) (compatible_take ops _ j hrec.compatible)
    (Nat.lt_of_le_of_lt (runOps_take_bytes al _ ops j) hrec.size)).2 ty c hty
    (fun op ho => htype op (List.mem_of_mem_take ho)) hnamed).2 start
  have hvl : vals.length ≤ out.length := by rw [← hv, List.length_take]; omega
  have hdel : Delivers (ty.storage al) (runOps al ⟨Index.new, []⟩ (ops.take j)) c start vals.length vals := by
    refine ⟨Nat.le_refl _, fun o ho => ?_⟩
    rw [hw o]
    have hle : vals.length ≤ ((written ty c.path (ops.take j)).drop start).length := by
      rw [← hv, List.length_take]; omega
    unfold overlay
    rw [List.drop_of_length_le (l := o) (by omega), List.drop_of_length_le (l := o) (by omega), ho, List.append_nil, List.append_nil]
    refine congrArg _ ?_
    conv => rhs; rw [← hv]
    rw [← hv, List.length_take, List.take_eq_take_iff]
    omega
  have hfound : TdmsFile.new al g₁.contents = .ok ⟨ix, g₁.contents⟩ := by
    unfold TdmsFile.new
    rw [← i2]
    rfl
  have hd₁ := crash_keeps_reads_partial al hal [] (fun _ h => by cases h) (t := ⟨Index.new, []⟩) rfl ops
    hrec.succeeds hrec.distinct hrec.fits hrec.described (by omega) g₁.contents List.nil_prefix (hshow.later hl₁).part hfound hj hhas
    ty c (by omega : 0 < vals.length) hdel rfl
  obtain ⟨x, hx⟩ := (hlater.trans hl').grows
  have hgrow : Grows ⟨ix, g₁.contents⟩ ⟨ix, g'.contents⟩ := ⟨⟨x, hx.symm⟩, [], (List.append_nil _).symm⟩
  have hd' : Delivers (ty.storage al) ⟨ix, g'.contents⟩ c start vals.length vals :=
    ⟨hd₁.1, fun o ho => readChannelFrom_mono (STy.mono al ty) hgrow rfl (hd₁.2 o ho)⟩
  have := failed_read_delivers al ty _ c start _ hd' out hvl
  have hb : buffer = _ := congrArg Prod.snd i5
  rw [hb]
  exact this

/-- C82, exactly (partial, as above). Opening that succeeds gives the index of the first `i` calls: those that are
    complete at its end, and perhaps the one after. From the moment when these `i` calls are complete in the file, every
    read succeeds and gives the values that they write, and `channel_length` is right; the calls after these
    change nothing in it until the file is opened again. -/
theorem watch_exact_partial (al : Alloc) (hal : Generous al) {ops : List Op} (hrec : Recording al ops) (capacity capacity' : Nat)
    {g₀ g₁ : Growing} (hshow : g₀.Shows al ops) (hr₀ : g₀.Reliable) {ix : Index} (hopen : g₀.buildIndex al capacity = (.ok ix, g₁)) :
    ∃ i, i ≤ ops.length ∧ ix = (runOps al ⟨Index.new, []⟩ (ops.take i)).index ∧
      (∀ j, j ≤ ops.length → g₁.Has al ops j → j ≤ i) ∧ (i = 0 ∨ g₁.Has al ops (i - 1)) ∧
      ∀ g, g₁.Later g → g.Reliable → g.Has al ops i → ∀ ty, Format.ordinaryTy ty = true → ∀ c : ChannelPath,
        (∀ op ∈ ops.take i, Names c.path op → typeOf op = some ty) → (∃ op ∈ ops.take i, Names c.path op) →
        TdmsFile.channelLength ⟨ix, g.contents⟩ c = .ok (some (written ty c.path (ops.take i)).length) ∧
        ∀ start out, ∃ g', g.readChannelInto al capacity' ty ix c start out
          = (.ok (), overlay out ((written ty c.path (ops.take i)).drop start), g') := by
  have hsize := hrec.size
  have hlen : g₀.total < 2 ^ 64 := by rw [hshow.length]; omega
  obtain ⟨r, g', k, i1, hl₁, hk, hiff, hcases, hlow⟩ := watch_open_partial al hal hrec capacity hshow hr₀
  rw [hopen] at i1
  cases i1
  have hix : Obtained al ix := Or.inl ⟨capacity, g₀, by rw [hopen]⟩
  have hi : ∃ i, i ≤ ops.length ∧ k ≤ i ∧ i - 1 ≤ k ∧ ix = (runOps al ⟨Index.new, []⟩ (ops.take i)).index := by
    rcases hcases with h | h | h
    · exact ⟨k, hk, Nat.le_refl _, by omega, Except.ok.inj h⟩
    · cases h
    · by_cases hk' : k = ops.length
      · refine ⟨k, hk, Nat.le_refl _, by omega, ?_⟩
        rw [List.take_of_length_le (by omega)] at h
        rw [List.take_of_length_le (by omega)]
        exact Except.ok.inj h
      · exact ⟨k + 1, by omega, by omega, by omega, Except.ok.inj h⟩
  obtain ⟨i, hi, hki, hik, rfl⟩ := hi
  refine ⟨i, hi, rfl, fun j hj h => Nat.le_trans ((hiff j hj).mp h) hki, ?_, ?_⟩
  · by_cases h0 : i = 0
    · exact Or.inl h0
    · exact Or.inr ((hiff (i - 1) (by omega)).mpr hik)
  · intro g hlater hr hhas ty hty c htype hnamed
    obtain ⟨hw1, hw2⟩ := (write_then_read_partial al (t := ⟨Index.new, []⟩) rfl (ops.take i) (compatible_take ops _ i hrec.compatible)
      (Nat.lt_of_le_of_lt (runOps_take_bytes al _ ops i) hrec.size)).2 ty c hty htype hnamed
    refine ⟨hw1, fun start out => ?_⟩
    obtain ⟨r', b', g', used, i3, hl', i4, i5⟩ :=
      read_while_growing al capacity' hix g (by rw [(hl₁.trans hlater).total]; exact hlen) ty c start out
    have hno : NoFailure used := fun o ho => hr o (by rw [i4]; exact List.mem_append_left _ ho)
    rcases i5 with ⟨_, i5⟩ | ⟨_, _, hc, _⟩
    rotate_left
    · exact absurd hno hc.failure
    obtain ⟨x, hx⟩ := hhas.trans hl'.grows
    have hgrow : Grows (runOps al ⟨Index.new, []⟩ (ops.take i)) ⟨(runOps al ⟨Index.new, []⟩ (ops.take i)).index, g'.contents⟩ :=
      ⟨⟨x, hx.symm⟩, [], (List.append_nil _).symm⟩
    have hm := readChannelFrom_mono (STy.mono al ty) hgrow rfl (hw2 start out)
    obtain ⟨k1, k2⟩ := read_into_agrees al ty ⟨(runOps al ⟨Index.new, []⟩ (ops.take i)).index, g'.contents⟩ c start out
    refine ⟨g', ?_⟩
    rw [i3, show r' = _ from congrArg Prod.fst i5, show b' = _ from congrArg Prod.snd i5, k1, k2 _ hm, hm]
    rfl

/-! ## Example -/

theorem reopenOps_recording : Recording anyAlloc reopenOps :=
  let h := reopenOps_reopens
  ⟨reopenOps_compatible, h.2.2.2.1, h.2.1, h.2.2.1, by decide +kernel⟩

/-- The writer is in the middle of the fourth call of `reopenOps`: `there` bytes are in the file. When `ops` operations
    of the stream have been made, the rest arrives, in two pieces. -/
def watched (there ops : Nat) : Growing :=
  let bytes := (session reopenOps).bytes
  ⟨⟨bytes.take there, 5, [.short 1, .interrupted]⟩, List.replicate ops [] ++ [(bytes.drop there).take 20, (bytes.drop there).drop 20]⟩

/-- The other program opens the file, and reads nine values of `c` into a buffer of sevens. -/
def watchC (g : Growing) : R (Bool × List Nat) :=
  match g.buildIndex anyAlloc 64 with
  | (.error e, _) => .error e
  | (.ok ix, g) =>
    let (r, buffer, _) := g.readChannelInto anyAlloc 64 .u8 ix (chan "c") 1 (vals8 [7, 7, 7, 7, 7, 7, 7, 7, 7])
    .ok (r.isOk, buffer.map BitVec.toNat)

/-- Channel `c` gets 1, 2, 3 in the third call and 0, 0, 0, 0, 8, 9 in the fourth. The program finds the third call
    only; or fails; or finds the fourth call and gets the values up to the end of the file; or all of them; and so it
    does when the rest arrives during its calls. -/
theorem watch_example :
    (watched 276 99).Shows anyAlloc reopenOps ∧ (watched 276 99).Reliable ∧ (watched 276 99).Has anyAlloc reopenOps 3 ∧
    (watched 277 99).Shows anyAlloc reopenOps ∧
    written .u8 (chan "c").path reopenOps = vals8 [1, 2, 3, 0, 0, 0, 0, 8, 9] ∧
    watchC (watched 247 99) = .ok (true, [2, 3, 7, 7, 7, 7, 7, 7, 7]) ∧
    watchC (watched 260 99) = R.err (.ioError .unexpectedEof) ∧
    watchC (watched 277 99) = .ok (false, [2, 3, 0, 0, 0, 0, 8, 7, 7]) ∧
    watchC (watched 278 99) = .ok (true, [2, 3, 0, 0, 0, 0, 8, 9, 7]) ∧
    watchC (watched 260 3) = .ok (true, [2, 3, 0, 0, 0, 0, 8, 9, 7]) := by
  refine ⟨?_, ?_, ?_, ?_, ?_, ?_, ?_, ?_, ?_, ?_⟩
  · exact show (watched 276 99).contents ++ (watched 276 99).growth.flatten = (session reopenOps).bytes by decide +kernel
  · intro o ho
    have : o = .short 1 ∨ o = .interrupted := by simpa [watched] using ho
    rcases this with rfl | rfl <;> rfl
  · exact show (session (reopenOps.take 3)).bytes <+: (watched 276 99).contents by decide +kernel
  · exact show (watched 277 99).contents ++ (watched 277 99).growth.flatten = (session reopenOps).bytes by decide +kernel
  all_goals decide +kernel

/-- C82 is false without the limits, as C32 is: when the list of channels is repeated, the program that watches cannot
    open the file although both calls are complete in it. -/
theorem watch_counterexample :
    let ops := [writeU16 ["a"] [1, 2], writeU16 ["a"] [3, 4]]
    let g : Growing := ⟨⟨(session ops).bytes, 0, []⟩, []⟩
    allOk ops = true ∧ g.Shows anyAlloc ops ∧ g.Reliable ∧ g.Has anyAlloc ops 2 ∧
    (g.buildIndex anyAlloc 8192).1 = R.err (.ioError .unexpectedEof) := by
  intro ops g
  refine ⟨by decide +kernel, List.append_nil _, nofun, List.prefix_rfl, by decide +kernel⟩

end Tedium
