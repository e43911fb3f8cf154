import Verif.Proofs.MemoryServes
import Verif.Props.Source

/-!
# C86: strings and memory that was never written

`M` is any implementation of `Read + Seek` without `unsafe`, and `s` any state of it. `undefined` says whether a byte that was
never written has become part of a value, `handed` lists the lengths of the buffers with such bytes that the stream got.
-/

namespace Tedium

section
variable {σ : Type} (M : SafeStream σ) (al : Alloc) (capacity : Nat) (s : σ) (calls : List ReadCall)

theorem history_kept {P : Nat → Prop} (hP : ∀ n, n ≤ 16 → P n) (hal : ∀ n, al (.str n) = true → P n) :
    MemReader.Kept M P capacity [] (M.history al capacity s calls) := by
  unfold SafeStream.history
  have h := SafeStream.buildIndex_kept (M := M) (capacity := capacity) (old := []) hP hal (s := Seen.new s)
    ⟨[], rfl, nofun, fun h => by cases h⟩
  generalize M.buildIndex al capacity (Seen.new s) = x at h
  obtain ⟨r, s'⟩ := x
  cases r with
  | error e => exact h
  | ok ix =>
    dsimp only at h ⊢
    induction calls generalizing s' with
    | nil => exact h
    | cons call calls ih =>
      refine ih _ ?_
      cases call with
      | one ty c start out =>
        exact readChannelLog_preserves (fun e => Act.Asks.value hP hal ty e) SafeStream.runner_kept ix c start out s' h
      | joint ty cs start outs =>
        exact readChannelsLog_preserves (fun e => Act.Asks.value hP hal ty e) SafeStream.runner_kept ix cs start outs s' h

/-- **C86, honest streams.** If the stream never says that it has written what it has not, then no byte that was never
    written becomes part of a value, while a file is opened and read in any way. (In full the claim is about every stream;
    then it is false: `memory_counterexample`.) -/
theorem memory_honest_partial (h : M.Honest) : (M.history al capacity s calls).undefined = false := by
  obtain ⟨l, _, _, h3⟩ := history_kept M al capacity s calls (P := fun _ => True) (fun _ _ => trivial) (fun _ _ => trivial)
  cases hu : (M.history al capacity s calls).undefined with
  | false => rfl
  | true => exact absurd h (h3 hu).2

/-- **C86, what streams get to see.** Whatever the stream does: a buffer with bytes that were never written that it gets is
    not shorter than the buffer of the `BufReader`, and it is the end of a string that there was memory for. Only if there
    was one, such a byte can have become part of a value. -/
theorem memory_handed (hc : 16 < capacity) :
    (∀ m ∈ (M.history al capacity s calls).handed, capacity ≤ m ∧ ∃ n, m ≤ n ∧ al (.str n) = true) ∧
    ((M.history al capacity s calls).undefined = true → (M.history al capacity s calls).handed ≠ []) := by
  obtain ⟨l, h1, h2, h3⟩ := history_kept M al capacity s calls (P := fun n => n ≤ 16 ∨ al (.str n) = true)
    (fun _ h => Or.inl h) (fun _ h => Or.inr h)
  rw [List.nil_append] at h1
  rw [h1]
  refine ⟨fun m hm => ?_, fun hu => (h3 hu).1⟩
  obtain ⟨h4, n, h5, h6⟩ := h2 m hm
  refine ⟨h4, n, h5, ?_⟩
  rcases h6 with h6 | h6
  · omega
  · exact h6

/-- **C86, short strings.** If strings as long as the buffer of the `BufReader` are refused, no stream gets to see bytes that
    were never written, and no such byte becomes part of a value, whatever the stream does. -/
theorem memory_short (hc : 16 < capacity) (hal : ∀ n, capacity ≤ n → al (.str n) = false) :
    (M.history al capacity s calls).handed = [] ∧ (M.history al capacity s calls).undefined = false := by
  obtain ⟨h1, h2⟩ := memory_handed M al capacity s calls hc
  have hnil : (M.history al capacity s calls).handed = [] := by
    cases hl : (M.history al capacity s calls).handed with
    | nil => rfl
    | cons m l =>
      obtain ⟨h3, n, h4, h5⟩ := h1 m (by rw [hl]; exact List.mem_cons_self)
      rw [hal n (by omega)] at h5
      cases h5
  refine ⟨hnil, ?_⟩
  cases hu : (M.history al capacity s calls).undefined with
  | false => rfl
  | true => exact absurd hnil (h2 hu)

/-- **C86, numbers.** Reading values that are not strings never passes bytes that were never written to any stream, and
    uses none. -/
theorem memory_numbers (hc : 16 < capacity) (ty : STy) (ht : ty ≠ .string) (ix : Index) (x : Seen σ) (hx : x.undefined = false)
    (start : Nat) :
    (∀ c out, (M.readChannelInto al capacity ty ix x c start out).2.2.handed = x.handed ∧
      (M.readChannelInto al capacity ty ix x c start out).2.2.undefined = false) ∧
    ∀ cs outs, (M.readChannelsInto al capacity ty ix x cs start outs).2.2.handed = x.handed ∧
      (M.readChannelsInto al capacity ty ix x cs start outs).2.2.undefined = false := by
  have hend : ∀ y : Seen σ, MemReader.Kept M (fun n => n ≤ 16) capacity x.handed y → y.handed = x.handed ∧ y.undefined = false := by
    rintro y ⟨l, h1, h2, h3⟩
    have hl : l = [] := by
      cases l with
      | nil => rfl
      | cons m l =>
        obtain ⟨h4, n, h5, h6⟩ := h2 m List.mem_cons_self
        omega
    subst hl
    refine ⟨by rw [h1, List.append_nil], ?_⟩
    cases hu : y.undefined with
    | false => rfl
    | true => exact absurd rfl (h3 hu).1
  have h0 : MemReader.Kept M (fun n => n ≤ 16) capacity x.handed x :=
    ⟨[], (List.append_nil _).symm, nofun, fun h => by rw [hx] at h; cases h⟩
  constructor
  · intro c out
    exact hend _ (readChannelLog_preserves (fun e => Act.Asks.number (fun _ h => h) al ht e) SafeStream.runner_kept ix c start out x h0)
  · intro cs outs
    exact hend _ (readChannelsLog_preserves (fun e => Act.Asks.number (fun _ h => h) al ht e) SafeStream.runner_kept ix cs start outs x h0)

/-- **C86, the streams of C83.** Let `M` put into the buffers what the stream `F` answers. Then opening and reading have the
    outcomes, and leave the buffers of the caller and the stream, that they do in C83; and no byte that was never
    written is used. For each `F` there is such a stream. -/
theorem memory_serves (F : Source σ) :
    F.serve.Serves F ∧
    (M.Serves F → ∀ x : Seen σ,
      (M.buildIndex al capacity x).1 = (F.buildIndex al capacity x.str).1 ∧
      (M.buildIndex al capacity x).2.str = (F.buildIndex al capacity x.str).2 ∧
      (M.history al capacity s calls).undefined = false ∧
      ∀ (ty : STy) (ix : Index) (start : Nat),
        (∀ c out, ((M.readChannelInto al capacity ty ix x c start out).1, (M.readChannelInto al capacity ty ix x c start out).2.1,
            (M.readChannelInto al capacity ty ix x c start out).2.2.str)
          = F.readChannelInto al capacity ty ix x.str c start out) ∧
        ∀ cs outs, ((M.readChannelsInto al capacity ty ix x cs start outs).1, (M.readChannelsInto al capacity ty ix x cs start outs).2.1,
            (M.readChannelsInto al capacity ty ix x cs start outs).2.2.str)
          = F.readChannelsInto al capacity ty ix x.str cs start outs) := by
  refine ⟨F.serve_serves, fun h x => ?_⟩
  have hopen : (M.buildIndex al capacity x).1 = (F.buildIndex al capacity x.str).1 ∧
      (M.buildIndex al capacity x).2.str = (F.buildIndex al capacity x.str).2 := by
    unfold SafeStream.buildIndex Source.buildIndex
    rw [h.seekStart]
    cases F.seekStart x.str 0 with
    | mk r str =>
    cases r with
    | some k => exact ⟨rfl, rfl⟩
    | none => exact SafeStream.openLoop_serves h al capacity _ _ _
  refine ⟨hopen.1, hopen.2, memory_honest_partial M al capacity s calls h.honest, fun ty ix start => ⟨fun c out => ?_, fun cs outs => ?_⟩⟩
  · obtain ⟨h1, h2, h3⟩ := readChannelLog_mirrors (al := al) (SafeStream.runner_serves h capacity) ix c start out x
    unfold SafeStream.readChannelInto Source.readChannelInto
    generalize readChannelLog al ty (M.runner capacity) ix c start out x = y at h1 h2 h3
    generalize readChannelLog al ty (F.runner capacity) ix c start out x.str = z at h1 h2 h3
    obtain ⟨r, log, d⟩ := y
    obtain ⟨r', log', d'⟩ := z
    dsimp only at h1 h2 h3
    subst h1 h2 h3
    rfl
  · obtain ⟨h1, h2, h3⟩ := readChannelsLog_mirrors (al := al) (SafeStream.runner_serves h capacity) ix cs start outs x
    unfold SafeStream.readChannelsInto Source.readChannelsInto
    generalize readChannelsLog al ty (M.runner capacity) ix cs start outs x = y at h1 h2 h3
    generalize readChannelsLog al ty (F.runner capacity) ix cs start outs x.str = z at h1 h2 h3
    obtain ⟨r, log, d⟩ := y
    obtain ⟨r', log', d'⟩ := z
    dsimp only at h1 h2 h3
    subst h1 h2 h3
    rfl

end

/-! ## Examples -/

/-- A stream that answers each `read` with the next of the given answers: the number that it says, and the bytes that it
    puts into the buffer. -/
def SafeStream.script : SafeStream (List (Nat × (Nat → Option UInt8))) where
  read s _ := match s with
    | [] => ((.ok 0, fun _ => none), [])
    | (n, puts) :: s => ((.ok n, puts), s)
  seekStart s _ := (none, s)
  seekCurrent s _ := (none, s)

/-- An honest answer. -/
def giving (bs : Bytes) : Nat × (Nat → Option UInt8) := (bs.length, fun i => bs[i]?)

/-- The beginning of a file: one segment with one object, whose path has `n` bytes. -/
def pathHead (n : Nat) : List (Nat × (Nat → Option UInt8)) := [giving tdsmTag, giving [0, 0, 0, 0],
  giving (encNat .little 4 4713 ++ encNat .little 8 9000 ++ encNat .little 8 9000 ++ encNat .little 4 1 ++ encNat .little 4 n)]

/-- A stream without `unsafe` that says it has read a path of 8192 bytes makes opening use memory that was never written. -/
theorem memory_counterexample :
    (fun x : Seen _ => (x.handed, x.undefined)) (SafeStream.script.history anyAlloc 8192 (pathHead 8192 ++ [(8192, fun _ => none)]) [])
      = ([8192], true) := by
  decide +kernel

/-- The same with a path that is one byte shorter: it is read through the `BufReader`, whose buffer has been written. -/
theorem memory_short_example :
    (fun x : Seen _ => (x.handed, x.undefined)) (SafeStream.script.history anyAlloc 8192 (pathHead 8191 ++ [(8192, fun _ => none)]) [])
      = ([], false) := by
  decide +kernel

/-- A stream that does put the bytes there, in two steps: it gets to see memory that was never written, but none is used. -/
theorem memory_handed_example :
    (fun x : Seen _ => (x.handed, x.undefined)) (SafeStream.script.history anyAlloc 8192
        (pathHead 9000 ++ [(500, fun i => if i < 500 then some 255 else none), (8500, fun _ => some 255)]) [])
      = ([9000, 8500], false) := by
  decide +kernel

/-- A stream that says it has put more bytes into the buffer than fit makes opening panic. -/
theorem memory_overclaim_example :
    (SafeStream.script.buildIndex anyAlloc 8192 (Seen.new (pathHead 8192 ++ [(8193, fun _ => none)]))).1 = R.panic .sliceRange := by
  decide +kernel

end Tedium
