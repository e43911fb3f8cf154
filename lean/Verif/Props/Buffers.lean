import Verif.Spec.Reads
import Verif.Proofs.SingleFile
import Verif.Props.Append

/-! # Buffers of different sizes, and reads of a file that grows (C50, C51, C52) -/

namespace Tedium
open SegSpec WriteSpec ReadSpec

theorem exec_delivers {α : Type} {S : Storage α} {t : TdmsFile} {c : ChannelPath} {start n : Nat} (hn : 0 < n)
    {ls : List DataLocation} (hc : t.index.getChannelDataPositions c = some ls) {vs : List α}
    (h : execOne S t ls start n = .ok vs) : Delivers S t c start n vs := by
  refine ⟨execOne_le S h, ?_⟩
  rintro out rfl
  rw [readChannelFrom_one S t c start out (List.length_pos_iff.mp hn), hc]
  dsimp only
  rw [h]
  rfl

theorem empty_delivers {α : Type} {S : Storage α} {t : TdmsFile} {c : ChannelPath} {start : Nat} {r : List α}
    (h : t.readChannelFrom S c start [] = .ok r) : Delivers S t c start 0 [] := by
  refine ⟨Nat.le_refl 0, ?_⟩
  intro out ho
  obtain rfl := List.length_eq_zero_iff.mp ho
  rw [h, readChannelFrom_empty S h]
  rfl

/-- A successful read, seen from the locations of the channel. -/
theorem read_exec {α : Type} {S : Storage α} {t : TdmsFile} {c : ChannelPath} {start : Nat} {out r : List α}
    (hn : 0 < out.length) (h : t.readChannelFrom S c start out = .ok r) :
    ∃ ls vs, t.index.getChannelDataPositions c = some ls ∧ execOne S t ls start out.length = .ok vs := by
  rw [readChannelFrom_one S t c start out (List.length_pos_iff.mp hn)] at h
  cases hc : t.index.getChannelDataPositions c with
  | none => rw [hc] at h; cases h
  | some ls =>
    rw [hc] at h
    dsimp only at h
    cases hx : execOne S t ls start out.length with
    | error er => rw [hx] at h; cases h
    | ok vs => exact ⟨ls, vs, rfl, hx⟩

/-! ## C50 -/

/-- **C50.** For every state of a file whatsoever, every value type, channel, start and buffer size:
    either the read fails with the same error whatever the buffer holds, or there are values, no more
    than the buffer has cells, that it stores at the front of the buffer, whatever the buffer holds,
    leaving the cells behind them untouched. -/
theorem read_fills_front {α : Type} (S : Storage α) (t : TdmsFile) (c : ChannelPath) (start n : Nat) :
    (∃ vals, Delivers S t c start n vals) ∨ (∃ e, Fails S t c start n e) := by
  cases n with
  | zero =>
    cases h : t.readChannelFrom S c start [] with
    | ok r => exact Or.inl ⟨[], empty_delivers h⟩
    | error er =>
      refine Or.inr ⟨er, ?_⟩
      intro out ho
      obtain rfl := List.length_eq_zero_iff.mp ho
      exact h
  | succ n =>
    cases hc : t.index.getChannelDataPositions c with
    | none =>
      refine Or.inr ⟨.err (.missingObject c.path), ?_⟩
      intro out ho
      rw [readChannelFrom_one S t c start out (by rintro rfl; cases ho), hc]
    | some ls =>
      cases hx : execOne S t ls start (n + 1) with
      | ok vs => exact Or.inl ⟨vs, exec_delivers (Nat.succ_pos n) hc hx⟩
      | error er =>
        refine Or.inr ⟨er, ?_⟩
        intro out ho
        rw [readChannelFrom_one S t c start out (by rintro rfl; cases ho), hc]
        dsimp only
        rw [ho, hx]
        rfl

/-- A successful read into one buffer determines what all buffers of that size receive. -/
theorem read_delivers {α : Type} {S : Storage α} {t : TdmsFile} {c : ChannelPath} {start : Nat} {out r : List α}
    (h : t.readChannelFrom S c start out = .ok r) :
    ∃ vals, Delivers S t c start out.length vals ∧ r = vals ++ out.drop vals.length := by
  rcases read_fills_front S t c start out.length with ⟨vals, hv⟩ | ⟨e, he⟩
  · refine ⟨vals, hv, ?_⟩
    have := hv.2 out rfl
    rw [h] at this
    exact Except.ok.inj this
  · have := he out rfl
    rw [h] at this
    cases this

/-- Every type has two different values. -/
theorem STy.two_values (ty : STy) : ∃ a b : ty.Val, a ≠ b := by
  cases ty
  case string => exact (⟨[], ['a'], by decide⟩ : ∃ a b : Text, a ≠ b)
  case bool => exact (⟨false, true, by decide⟩ : ∃ a b : Bool, a ≠ b)
  case complex32 => exact (⟨⟨0, 0⟩, ⟨0, 1⟩, by decide⟩ : ∃ a b : Complex (BitVec 32), a ≠ b)
  case complex64 => exact (⟨⟨0, 0⟩, ⟨0, 1⟩, by decide⟩ : ∃ a b : Complex (BitVec 64), a ≠ b)
  case i8 => exact (⟨0, 1, by decide⟩ : ∃ a b : BitVec 8, a ≠ b)
  case u8 => exact (⟨0, 1, by decide⟩ : ∃ a b : BitVec 8, a ≠ b)
  case i16 => exact (⟨0, 1, by decide⟩ : ∃ a b : BitVec 16, a ≠ b)
  case u16 => exact (⟨0, 1, by decide⟩ : ∃ a b : BitVec 16, a ≠ b)
  case i32 => exact (⟨0, 1, by decide⟩ : ∃ a b : BitVec 32, a ≠ b)
  case u32 => exact (⟨0, 1, by decide⟩ : ∃ a b : BitVec 32, a ≠ b)
  case f32 => exact (⟨0, 1, by decide⟩ : ∃ a b : BitVec 32, a ≠ b)
  case i64 => exact (⟨0, 1, by decide⟩ : ∃ a b : BitVec 64, a ≠ b)
  case u64 => exact (⟨0, 1, by decide⟩ : ∃ a b : BitVec 64, a ≠ b)
  case f64 => exact (⟨0, 1, by decide⟩ : ∃ a b : BitVec 64, a ≠ b)
  case extended => exact (⟨0, 1, by decide⟩ : ∃ a b : BitVec 128, a ≠ b)
  case timestamp => exact (⟨0, 1, by decide⟩ : ∃ a b : BitVec 128, a ≠ b)

/-- Two fillings of a buffer that agree for two different old contents are the same. -/
theorem filling_unique {β : Type} {a b : β} (hab : a ≠ b) {n : Nat} {xs ys : List β} (hx : xs.length ≤ n)
    (hy : ys.length ≤ n)
    (h : ∀ v, v = a ∨ v = b → xs ++ (List.replicate n v).drop xs.length = ys ++ (List.replicate n v).drop ys.length) :
    xs = ys := by
  have key : ∀ {xs ys : List β}, ys.length ≤ n →
      (∀ v, v = a ∨ v = b → xs ++ (List.replicate n v).drop xs.length = ys ++ (List.replicate n v).drop ys.length) →
      ¬ xs.length < ys.length := by
    intro xs ys hy h hlt
    have same : ∀ v, v = a ∨ v = b → ys[xs.length]? = some v := by
      intro v hv
      have h2 := congrArg (·[xs.length]?) (h v hv)
      simp only [List.getElem?_append_left hlt, List.getElem?_append_right (Nat.le_refl _), Nat.sub_self] at h2
      rw [← h2]
      simp only [List.drop_replicate, List.getElem?_replicate]
      rw [if_pos (by omega)]
    exact hab (Option.some.inj ((same a (Or.inl rfl)).symm.trans (same b (Or.inr rfl))))
  have hlen : xs.length = ys.length := by
    have h1 := key hy h
    have h2 := key hx (fun v hv => (h v hv).symm)
    omega
  exact (List.append_inj (h a (Or.inl rfl)) hlen).1

/-- **C50, the values are determined.** A read delivers one list of values: the cells it stores into
    and those it leaves can be told apart. -/
theorem delivers_unique {al : Alloc} {ty : STy} {t : TdmsFile} {c : ChannelPath} {start n : Nat}
    {vals vals' : List ty.Val} (h : Delivers (ty.storage al) t c start n vals)
    (h' : Delivers (ty.storage al) t c start n vals') : vals = vals' := by
  obtain ⟨a, b, hab⟩ := ty.two_values
  refine filling_unique hab h.1 h'.1 ?_
  intro v _
  have h1 := h.2 (List.replicate n v) (by simp)
  rw [h'.2 (List.replicate n v) (by simp)] at h1
  exact (Except.ok.inj h1).symm

/-- Two reads show what a channel delivers. -/
theorem delivers_of_two_reads {α : Type} {S : Storage α} {t : TdmsFile} {c : ChannelPath} {start n : Nat}
    {vals : List α} {a b : α} (hab : a ≠ b) (hle : vals.length ≤ n)
    (ha : t.readChannelFrom S c start (List.replicate n a) = .ok (vals ++ (List.replicate n a).drop vals.length))
    (hb : t.readChannelFrom S c start (List.replicate n b) = .ok (vals ++ (List.replicate n b).drop vals.length)) :
    Delivers S t c start n vals := by
  rcases read_fills_front S t c start n with ⟨vs, hv⟩ | ⟨e, he⟩
  · suffices vals = vs by rw [this]; exact hv
    refine filling_unique hab hle hv.1 ?_
    rintro v (rfl | rfl)
    · rw [hv.2 _ (by simp)] at ha; exact (Except.ok.inj ha).symm
    · rw [hv.2 _ (by simp)] at hb; exact (Except.ok.inj hb).symm
  · rw [he _ (by simp)] at ha; cases ha

/-- The same read, into five cells: two values are stored, the other three cells keep what they had. -/
theorem read_fills_front_example :
    Delivers (STy.u16.storage anyAlloc) (session [writeU16 ["a", "b"] [1, 2, 3, 4]]) (chan "b") 0 5 (vals16 [3, 4]) :=
  delivers_of_two_reads (a := BitVec.ofNat 16 8) (b := BitVec.ofNat 16 9) (show BitVec.ofNat 16 8 ≠ BitVec.ofNat 16 9 by decide) (by decide) (by decide +kernel)
    (by decide +kernel)

/-- A missing channel fails in the same way for all buffers. -/
theorem read_fails_example :
    Fails (STy.u16.storage anyAlloc) (session [writeU16 ["a", "b"] [1, 2, 3, 4]]) (chan "c") 0 5
      (.err (.missingObject (chan "c").path)) := by
  intro out ho
  rw [readChannelFrom_one _ _ _ _ _ (by rintro rfl; cases ho)]
  have : (session [writeU16 ["a", "b"] [1, 2, 3, 4]]).index.getChannelDataPositions (chan "c") = none := by
    decide +kernel
  rw [this]

/-! ## C51 -/

/-- **C51.** If a channel can be read into a buffer of `n` cells and into a buffer of `m ≥ n` cells
    from the same start, the smaller buffer receives the first values of those the larger one receives. -/
theorem longer_buffer {al : Alloc} {ty : STy} {t : TdmsFile} {c : ChannelPath} {start n m : Nat} (hle : n ≤ m)
    {vals vals' : List ty.Val} (h : Delivers (ty.storage al) t c start n vals)
    (h' : Delivers (ty.storage al) t c start m vals') : vals = vals'.take n := by
  by_cases hn : 0 < n
  · obtain ⟨a, _, _⟩ := ty.two_values
    obtain ⟨ls, vs, hc, hx⟩ := read_exec (by simpa using hn) (h.2 (List.replicate n a) (by simp))
    obtain ⟨ls', vs', hc', hx'⟩ := read_exec (by simp; omega) (h'.2 (List.replicate m a) (by simp))
    rw [hc] at hc'
    cases hc'
    rw [List.length_replicate] at hx hx'
    rw [delivers_unique h (exec_delivers hn hc hx), delivers_unique h' (exec_delivers (by omega) hc hx')]
    exact (execOne_ext _ ls hle hx hx').2
  · obtain rfl : n = 0 := by omega
    rw [List.take_zero]
    exact List.length_eq_zero_iff.mp (Nat.le_zero.mp h.1)

/-- Five cells and one cell of a channel in two data blocks. -/
theorem longer_buffer_example :
    Delivers (STy.u16.storage anyAlloc) (session [writeU16 ["a", "b"] [1, 2, 3, 4], writeU16 ["b"] [5, 6, 7]])
      (chan "b") 1 3 (vals16 [4, 5, 6]) ∧
    Delivers (STy.u16.storage anyAlloc) (session [writeU16 ["a", "b"] [1, 2, 3, 4], writeU16 ["b"] [5, 6, 7]])
      (chan "b") 1 5 (vals16 [4, 5, 6, 7]) := by
  constructor <;>
    exact delivers_of_two_reads (a := BitVec.ofNat 16 8) (b := BitVec.ofNat 16 9) (show BitVec.ofNat 16 8 ≠ BitVec.ofNat 16 9 by decide) (by decide) (by decide +kernel)
      (by decide +kernel)

/-! ## C52 -/

/-- Calls only append to the file, its data blocks and the locations of every channel. -/
theorem locations_grow (al : Alloc) (t : TdmsFile) (op : Op) {c : ChannelPath} {ls : List DataLocation}
    (h : t.index.getChannelDataPositions c = some ls) :
    ∃ more, (op.run al t).2.index.getChannelDataPositions c = some (ls ++ more) := by
  rcases Op.run_index al t op with hi | ⟨s, hi⟩
  · rw [hi]; exact ⟨[], by rw [List.append_nil]; exact h⟩
  · rw [hi]
    unfold Index.getChannelDataPositions at h ⊢
    cases ho : t.index.objects.get? c.path with
    | none => rw [ho] at h; cases h
    | some o =>
      rw [ho] at h
      cases h
      obtain ⟨o', h1, more, h2⟩ := addSegment_grows t.index s c.path o ho
      exact ⟨more, by rw [h1, h2]; rfl⟩

theorem grows_refl (t : TdmsFile) : Grows t t := ⟨⟨[], by simp⟩, [], by simp⟩

theorem Grows.trans {t t' t'' : TdmsFile} (h : Grows t t') (h' : Grows t' t'') : Grows t t'' := by
  obtain ⟨⟨g, hg⟩, bs, hb⟩ := h
  obtain ⟨⟨g', hg'⟩, bs', hb'⟩ := h'
  exact ⟨⟨g ++ g', by rw [hg', hg, List.append_assoc]⟩, bs ++ bs', by rw [hb', hb, List.append_assoc]⟩

theorem later (al : Alloc) (ops : List Op) : ∀ (t : TdmsFile), Grows t (runOps al t ops) ∧
    ∀ (c : ChannelPath) (ls : List DataLocation), t.index.getChannelDataPositions c = some ls →
      ∃ more, (runOps al t ops).index.getChannelDataPositions c = some (ls ++ more) := by
  induction ops with
  | nil => intro t; exact ⟨grows_refl t, fun c ls h => ⟨[], by rw [List.append_nil]; exact h⟩⟩
  | cons op ops ih =>
    intro t
    obtain ⟨h1, h2⟩ := ih (op.run al t).2
    refine ⟨(grows_write al t op).trans h1, ?_⟩
    intro c ls h
    obtain ⟨more, hm⟩ := locations_grow al t op h
    obtain ⟨more', hm'⟩ := h2 c _ hm
    exact ⟨more ++ more', by rw [← List.append_assoc]; exact hm'⟩

/-- **C52, full buffers.** What a read found when it filled its buffer, the same read finds after any
    further calls, successful or not. Every state, type, channel, start and buffer size. -/
theorem later_writes_keep_reads (al : Alloc) (ty : STy) {t : TdmsFile} {c : ChannelPath} {start n : Nat} (hn : 0 < n)
    {vals : List ty.Val} (h : Delivers (ty.storage al) t c start n vals) (hfull : vals.length = n) (ops : List Op) :
    Delivers (ty.storage al) (runOps al t ops) c start n vals := by
  obtain ⟨ls, vs, hc, hx⟩ := read_exec (by omega) (h.2 vals hfull)
  rw [hfull] at hx
  obtain rfl := delivers_unique h (exec_delivers hn hc hx)
  obtain ⟨hg, hl⟩ := later al ops t
  obtain ⟨more, hm⟩ := hl c ls hc
  exact exec_delivers hn hm (execOne_full (STy.mono al ty) hg ls more hn hx (by omega))

/-- **C52, any buffers.** What a read delivers after any further calls, into a buffer at least as long,
    begins with what it delivered before. -/
theorem later_writes_extend_reads (al : Alloc) (ty : STy) {t : TdmsFile} {c : ChannelPath} {start n m : Nat} (hle : n ≤ m)
    {vals vals' : List ty.Val} (h : Delivers (ty.storage al) t c start n vals) (ops : List Op)
    (h' : Delivers (ty.storage al) (runOps al t ops) c start m vals') : vals <+: vals' := by
  by_cases hn : 0 < n
  · obtain ⟨a, _, _⟩ := ty.two_values
    obtain ⟨ls, vs, hc, hx⟩ := read_exec (by simpa using hn) (h.2 (List.replicate n a) (by simp))
    obtain ⟨ls', vs', hc', hx'⟩ := read_exec (by simp; omega) (h'.2 (List.replicate m a) (by simp))
    obtain ⟨hg, hl⟩ := later al ops t
    obtain ⟨more, hm⟩ := hl c ls hc
    rw [hm] at hc'
    cases hc'
    rw [List.length_replicate] at hx hx'
    rw [delivers_unique h (exec_delivers hn hc hx), delivers_unique h' (exec_delivers (by omega) hm hx')]
    exact execOne_grows (STy.mono al ty) hg ls more hle hx hx'
  · have h1 := h.1
    obtain rfl : vals = [] := List.length_eq_zero_iff.mp (by omega)
    exact List.nil_prefix

/-- Both theorems at work: two samples before, more of them after further calls, one of which fails. -/
theorem later_writes_example :
    Delivers (STy.u16.storage anyAlloc) (session [writeU16 ["a", "b"] [1, 2, 3, 4]]) (chan "b") 0 2 (vals16 [3, 4]) ∧
    (∀ ops, Delivers (STy.u16.storage anyAlloc) (runOps anyAlloc (session [writeU16 ["a", "b"] [1, 2, 3, 4]]) ops)
      (chan "b") 0 2 (vals16 [3, 4])) ∧
    Delivers (STy.u16.storage anyAlloc) (runOps anyAlloc (session [writeU16 ["a", "b"] [1, 2, 3, 4]])
        [writeU16 [] [1], writeU16 ["b"] [5, 6, 7]]) (chan "b") 0 5 (vals16 [3, 4, 5, 6, 7]) := by
  have h : Delivers (STy.u16.storage anyAlloc) (session [writeU16 ["a", "b"] [1, 2, 3, 4]]) (chan "b") 0 2 (vals16 [3, 4]) :=
    delivers_of_two_reads (a := BitVec.ofNat 16 8) (b := BitVec.ofNat 16 9) (show BitVec.ofNat 16 8 ≠ BitVec.ofNat 16 9 by decide) (by decide) (by decide +kernel)
      (by decide +kernel)
  refine ⟨h, fun ops => later_writes_keep_reads anyAlloc .u16 (by decide) h (by decide) ops, ?_⟩
  exact delivers_of_two_reads (a := BitVec.ofNat 16 8) (b := BitVec.ofNat 16 9) (show BitVec.ofNat 16 8 ≠ BitVec.ofNat 16 9 by decide) (by decide) (by decide +kernel)
    (by decide +kernel)

end Tedium
