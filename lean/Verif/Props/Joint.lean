import Verif.Proofs.Relate
import Verif.Props.Buffers

/-! # Reads of several channels (C37, C57) -/

namespace Tedium
open SegSpec WriteSpec ReadSpec

/-! ## C57 -/

/-- the storage type that marks what it reads -/
def Storage.marked {α : Type} (S : Storage α) : Storage (Option α) where
  natural := S.natural
  supported := S.supported
  memSize := S.memSize
  read := fun e => do return some (← S.read e)
  write := fun _ _ => []
  size := fun _ => 0

theorem marked_rel {α : Type} (S : Storage α) : StorageRel (fun _ => False) (fun m v => m = some v) S.marked S where
  natural := rfl
  supported := rfl
  memSize := rfl
  read := by
    intro e f p
    show ResRel _ _ (Rd.bind (S.read e) (fun v => Rd.pure (some v)) f p) (S.read e f p)
    unfold Rd.bind
    cases S.read e f p with
    | error er => exact Or.inr rfl
    | ok u => exact ⟨rfl, rfl⟩

theorem cells_fill {α : Type} {o : List α} : ∀ {k : Nat} {ms : List (Option α)} {vs : List α},
    Cells (fun k m v => ∃ w, o[k]? = some w ∧ v = m.getD w) (fun n => o.length = n) k ms vs →
    vs = List.zipWith (fun m o => m.getD o) ms (o.drop k) ∧ o.length = k + ms.length
  | _, [], [], h => ⟨by simp, h⟩
  | k, m :: ms, v :: vs, h => by
    obtain ⟨⟨w, hw, hv⟩, h2⟩ := h
    obtain ⟨h3, h4⟩ := cells_fill h2
    have hk : k < o.length := (List.getElem?_eq_some_iff.mp hw).1
    have hd : o.drop k = w :: o.drop (k + 1) := by
      rw [List.drop_eq_getElem_cons hk, (List.getElem?_eq_some_iff.mp hw).2]
    refine ⟨?_, by rw [h4, List.length_cons]; omega⟩
    rw [hd, List.zipWith_cons_cons, ← hv, ← h3]

theorem bufRel_fill {α : Type} {outs : List (List α)} : ∀ {s : Nat} {ms : List (List (Option α))} {rs : List (List α)},
    BufRel (fun s k m v => ∃ w, (outs[s]?.getD [])[k]? = some w ∧ v = m.getD w) (fun s n => (outs[s]?.getD []).length = n) s ms rs →
    outs.length = s + ms.length →
    rs = fill ms (outs.drop s) ∧ ms.map List.length = (outs.drop s).map List.length
  | s, [], [], _, hl => by
    have hl' : outs.length = s := hl
    rw [List.drop_eq_nil_of_le (by omega)]
    exact ⟨rfl, rfl⟩
  | s, m :: ms, r :: rs, h, hl => by
    have hs : s < outs.length := by rw [hl, List.length_cons]; omega
    have hd : outs.drop s = outs[s] :: outs.drop (s + 1) := List.drop_eq_getElem_cons hs
    obtain ⟨h1, h2⟩ := cells_fill h.1
    obtain ⟨h3, h4⟩ := bufRel_fill h.2 (by rw [hl, List.length_cons]; omega)
    rw [List.getElem?_eq_getElem hs, Option.getD_some] at h1 h2
    rw [List.drop_zero] at h1
    rw [hd]
    unfold fill at h3 ⊢
    rw [List.zipWith_cons_cons, ← h1, ← h3, List.map_cons, List.map_cons, ← h4, h2, Nat.zero_add]
    exact ⟨rfl, rfl⟩

theorem cells_none {α : Type} {o : List α} : ∀ {k : Nat} {vs : List α}, vs = o.drop k → k ≤ o.length →
    Cells (fun k m v => ∃ w, o[k]? = some w ∧ v = m.getD w) (fun n => o.length = n) k (List.replicate vs.length none) vs
  | k, [], h, hk => by
    have := congrArg List.length h
    rw [List.length_nil, List.length_drop] at this
    show o.length = k
    omega
  | k, v :: vs, h, hk => by
    have hlt : k < o.length := by
      have := congrArg List.length h
      rw [List.length_cons, List.length_drop] at this
      omega
    rw [List.drop_eq_getElem_cons hlt] at h
    obtain ⟨h1, h2⟩ := List.cons.inj h
    refine ⟨⟨v, by rw [List.getElem?_eq_getElem hlt, h1], rfl⟩, cells_none h2 hlt⟩

theorem bufRel_none {α : Type} {outs : List (List α)} : ∀ {s : Nat} {vs : List (List α)}, vs = outs.drop s →
    BufRel (fun s k m v => ∃ w, (outs[s]?.getD [])[k]? = some w ∧ v = m.getD w) (fun s n => (outs[s]?.getD []).length = n) s
      (vs.map (fun o => List.replicate o.length none)) vs
  | _, [], _ => trivial
  | s, o :: vs, h => by
    have hs : s < outs.length := by
      have := congrArg List.length h
      rw [List.length_cons, List.length_drop] at this
      omega
    rw [List.drop_eq_getElem_cons hs] at h
    obtain ⟨h1, h2⟩ := List.cons.inj h
    refine ⟨?_, bufRel_none h2⟩
    dsimp only
    rw [List.getElem?_eq_getElem hs, Option.getD_some, ← h1]
    exact cells_none rfl (Nat.zero_le _)

theorem executePlan_length {α : Type} (S : Storage α) (t : TdmsFile) : ∀ (plan : List BlockRead) {ps qs : List (Progress α)},
    executePlan S t plan ps = .ok qs → qs.length = ps.length := by
  intro plan
  induction plan with
  | nil => intro ps qs h; cases h; rfl
  | cons loc locs ih =>
    intro ps qs h
    have hb : ∀ ps', executeBlock S t loc ps = .ok ps' → ps'.length = ps.length := by
      intro ps' hb
      unfold executeBlock at hb
      dsimp only at hb
      split at hb
      · cases hb
      · split at hb
        · cases hb
        · cases hb
          rw [length_addSamples, length_storeOutputs]
    unfold executePlan at h
    split at h
    · cases h
    · rename_i ps' hps
      split at h
      · cases h; exact hb _ hps
      · rw [ih h, hb _ hps]

theorem readChannelsFrom_length {α : Type} (S : Storage α) (t : TdmsFile) (cs : List ChannelPath) (start : Nat)
    {outs res : List (List α)} (h : t.readChannelsFrom S cs start outs = .ok res) : res.length = outs.length := by
  unfold TdmsFile.readChannelsFrom at h
  obtain ⟨pos, _, h⟩ := bind_ok_iff.mp h
  obtain ⟨plan, _, h⟩ := bind_ok_iff.mp h
  obtain ⟨ps, h3, h⟩ := bind_ok_iff.mp h
  cases h
  rw [List.length_map, executePlan_length S t plan h3, List.length_map]

/-- The two runs: on marks, and on buffers. -/
theorem marks_rel {α : Type} (S : Storage α) (t : TdmsFile) (cs : List ChannelPath) (start : Nat) (outs : List (List α)) :
    match t.readChannelsFrom S.marked cs start (outs.map (fun o => List.replicate o.length none)) with
    | .error e => t.readChannelsFrom S cs start outs = .error e
    | .ok ms => t.readChannelsFrom S cs start outs = .ok (fill ms outs) ∧ ms.map List.length = outs.map List.length := by
  have hrel := readChannelsFrom_rel (marked_rel S)
    (P := fun s k m v => ∃ w, (outs[s]?.getD [])[k]? = some w ∧ v = m.getD w)
    (E := fun s n => (outs[s]?.getD []).length = n) (by
      rintro s k a0 b0 a b ⟨w, hw, _⟩ rfl
      exact ⟨w, hw, rfl⟩) t cs start (bufRel_none (outs := outs) (s := 0) rfl)
  rw [List.drop_zero] at hrel
  have hlen := fun ms => readChannelsFrom_length S.marked t cs start (outs := outs.map (fun o => List.replicate o.length none)) (res := ms)
  revert hrel hlen
  cases t.readChannelsFrom S.marked cs start (outs.map (fun o => List.replicate o.length none)) with
  | error e =>
    intro hrel _
    rcases hrel with hrel | hrel
    · exact hrel.elim
    · exact hrel
  | ok ms =>
    intro hrel hlen
    have hl := hlen ms rfl
    rw [List.length_map] at hl
    dsimp only
    revert hrel
    cases t.readChannelsFrom S cs start outs with
    | error e => intro hrel; exact hrel.elim
    | ok rs =>
      intro hrel
      obtain ⟨h1, h2⟩ := bufRel_fill hrel (by rw [hl, Nat.zero_add])
      exact ⟨congrArg Except.ok h1, h2⟩

/-- **C57.** Reading several channels into buffers of given sizes, for every state of a file whatsoever: either the
    call fails with the same error whatever the buffers hold, or it stores values in some of the
    cells, the same values in the same cells whatever the buffers hold, and leaves the other cells untouched. -/
theorem joint_read_determined {α : Type} (S : Storage α) (t : TdmsFile) (cs : List ChannelPath) (start : Nat)
    (sizes : List Nat) :
    (∃ marks, marks.map List.length = sizes ∧ Stores S t cs start marks) ∨
    (∃ e, ∀ outs : List (List α), outs.map List.length = sizes → t.readChannelsFrom S cs start outs = .error e) := by
  have hsame : ∀ outs : List (List α), outs.map List.length = sizes →
      outs.map (fun o => List.replicate o.length none) = sizes.map (fun n => List.replicate n (none : Option α)) := by
    rintro outs rfl
    rw [List.map_map]
    rfl
  cases hm : t.readChannelsFrom S.marked cs start (sizes.map (fun n => List.replicate n none)) with
  | error e =>
    refine Or.inr ⟨e, fun outs ho => ?_⟩
    have := marks_rel S t cs start outs
    rw [hsame outs ho, hm] at this
    exact this
  | ok ms =>
    by_cases hne : ∃ outs : List (List α), outs.map List.length = sizes
    · obtain ⟨outs, ho⟩ := hne
      have hmarks := marks_rel S t cs start outs
      rw [hsame outs ho, hm] at hmarks
      refine Or.inl ⟨ms, hmarks.2.trans ho, fun outs' ho' => ?_⟩
      have ho'' : outs'.map List.length = sizes := ho'.trans (hmarks.2.trans ho)
      have := marks_rel S t cs start outs'
      rw [hsame outs' ho'', hm] at this
      exact this.1
    · exact Or.inr ⟨.hang, fun outs ho => (hne ⟨outs, ho⟩).elim⟩

/-- Reading marks into empty marks tells what is stored. -/
theorem stores_of_marked {α : Type} {S : Storage α} {t : TdmsFile} {cs : List ChannelPath} {start : Nat}
    {marks : List (List (Option α))}
    (h : t.readChannelsFrom S.marked cs start (marks.map (fun m => List.replicate m.length none)) = .ok marks) :
    Stores S t cs start marks := by
  intro outs ho
  have hm := marks_rel S t cs start outs
  have hs : outs.map (fun o => List.replicate o.length (none : Option α))
      = marks.map (fun m => List.replicate m.length none) := by
    have := congrArg (List.map (fun n => List.replicate n (none : Option α))) ho
    rw [List.map_map, List.map_map] at this
    exact this
  rw [hs, h] at hm
  exact hm.1

theorem zipWith_fill_inj {α : Type} {a b : α} (hab : a ≠ b) : ∀ {ms ns : List (Option α)}, ms.length = ns.length →
    List.zipWith (fun m o => m.getD o) ms (List.replicate ms.length a)
      = List.zipWith (fun m o => m.getD o) ns (List.replicate ms.length a) →
    List.zipWith (fun m o => m.getD o) ms (List.replicate ms.length b)
      = List.zipWith (fun m o => m.getD o) ns (List.replicate ms.length b) → ms = ns
  | [], [], _, _, _ => rfl
  | m :: ms, n :: ns, hl, h1, h2 => by
    rw [List.length_cons, List.replicate_succ, List.zipWith_cons_cons, List.zipWith_cons_cons] at h1 h2
    obtain ⟨h1a, h1b⟩ := List.cons.inj h1
    obtain ⟨h2a, h2b⟩ := List.cons.inj h2
    rw [zipWith_fill_inj hab (Nat.succ.inj hl) h1b h2b]
    cases m <;> cases n
    · rfl
    · exact absurd (h1a.trans h2a.symm) hab
    · exact absurd (h1a.symm.trans h2a) hab
    · exact congrArg (fun x => some x :: ns) h1a

theorem fill_inj {α : Type} {a b : α} (hab : a ≠ b) : ∀ {ms ns : List (List (Option α))}, ms.map List.length = ns.map List.length →
    fill ms (ms.map (fun m => List.replicate m.length a)) = fill ns (ms.map (fun m => List.replicate m.length a)) →
    fill ms (ms.map (fun m => List.replicate m.length b)) = fill ns (ms.map (fun m => List.replicate m.length b)) → ms = ns
  | [], [], _, _, _ => rfl
  | m :: ms, n :: ns, hl, h1, h2 => by
    unfold fill at h1 h2
    rw [List.map_cons, List.zipWith_cons_cons, List.zipWith_cons_cons] at h1 h2
    obtain ⟨h1a, h1b⟩ := List.cons.inj h1
    obtain ⟨h2a, h2b⟩ := List.cons.inj h2
    rw [List.map_cons, List.map_cons] at hl
    obtain ⟨hl1, hl2⟩ := List.cons.inj hl
    rw [zipWith_fill_inj hab hl1 h1a h2a, fill_inj hab hl2 h1b h2b]

/-- What is stored, and where, is determined by the read. -/
theorem stores_unique {ty : STy} {al : Alloc} {t : TdmsFile} {cs : List ChannelPath} {start : Nat}
    {ms ns : List (List (Option ty.Val))} (hl : ms.map List.length = ns.map List.length)
    (h1 : Stores (ty.storage al) t cs start ms) (h2 : Stores (ty.storage al) t cs start ns) : ms = ns := by
  obtain ⟨a, b, hab⟩ := ty.two_values
  have hlen : ∀ x : ty.Val, (ms.map (fun m => List.replicate m.length x)).map List.length = ms.map List.length := by
    intro x
    rw [List.map_map]
    exact List.map_congr_left (fun m _ => List.length_replicate)
  refine fill_inj hab hl ?_ ?_
  · exact Except.ok.inj ((h1 _ (hlen a)).symm.trans (h2 _ ((hlen a).trans hl)))
  · exact Except.ok.inj ((h1 _ (hlen b)).symm.trans (h2 _ ((hlen b).trans hl)))

/-- 16-bit marks -/
def marks16 (l : List (List (Option Nat))) : List (List (Option STy.u16.Val)) :=
  l.map (List.map (Option.map (fun n => BitVec.ofNat 16 n)))

/-- Two segments with two samples of each of two channels. -/
def twoFile : Bytes :=
  fileOf [dataSegment .little false [("a", .u16, 2), ("b", .u16, 2)] [1, 0, 2, 0, 10, 0, 11, 0],
    dataSegment .little false [("a", .u16, 2), ("b", .u16, 2)] [3, 0, 4, 0, 12, 0, 13, 0]]

/-- An example of each case: buffers of five cells and of one cell, and a channel
    that does not exist. (The second sample of `a` is overwritten
    by the third: defect 5.) -/
theorem joint_read_determined_example : ∃ t, TdmsFile.new anyAlloc twoFile = .ok t ∧
    Stores (STy.u16.storage anyAlloc) t [chan "a", chan "b"] 0
      (marks16 [[some 1, some 3, some 4, none, none], [some 10]]) ∧
    (∀ outs : List (List STy.u16.Val),
      t.readChannelsFrom (STy.u16.storage anyAlloc) [chan "a", chan "z"] 0 outs
        = R.err (.missingObject (chan "z").path)) := by
  obtain ⟨t, ht⟩ := exists_ok (x := TdmsFile.new anyAlloc twoFile) (by decide +kernel)
  have h1 : (do
      let t ← TdmsFile.new anyAlloc twoFile
      t.readChannelsFrom (STy.u16.storage anyAlloc).marked [chan "a", chan "b"] 0
        [[none, none, none, none, none], [none]])
      = .ok (marks16 [[some 1, some 3, some 4, none, none], [some 10]]) := by decide +kernel
  have h2 : (do
      let t ← TdmsFile.new anyAlloc twoFile
      t.lookupPositions [chan "a", chan "z"])
      = R.err (.missingObject (chan "z").path) := by decide +kernel
  rw [ht] at h1 h2
  refine ⟨t, ht, stores_of_marked h1, fun outs => ?_⟩
  have h2' : t.lookupPositions [chan "a", chan "z"] = R.err (.missingObject (chan "z").path) := h2
  unfold TdmsFile.readChannelsFrom
  rw [h2']
  rfl

/-! ## C37, one channel -/

/-- **C37, one channel.** In every state of a file, `read_channels_from` with one channel does what
    `read_channel_from` does. -/
theorem read_channels_single {α : Type} (S : Storage α) (t : TdmsFile) (c : ChannelPath) (start : Nat) (out : List α) :
    t.readChannelsFrom S [c] start [out] = (t.readChannelFrom S c start out).map (fun r => [r]) := by
  have hone : t.readChannelsFrom S [c] start [out] = (match t.index.getChannelDataPositions c with
      | none => R.err (.missingObject c.path)
      | some ls => do
        let plan ← readPlan [ls] start
        let ps ← executePlan S t plan [⟨out, 0⟩]
        return ps.map (·.output)) := by
    unfold TdmsFile.readChannelsFrom TdmsFile.lookupPositions
    cases t.index.getChannelDataPositions c <;> rfl
  rw [hone]
  unfold TdmsFile.readChannelFrom
  cases t.index.getChannelDataPositions c with
  | none => rfl
  | some ls =>
    dsimp only
    cases readPlan [ls] start with
    | error e => rfl
    | ok plan =>
      show (executePlan S t plan [⟨out, 0⟩] >>= _) = Except.map _ (executePlan S t plan [⟨out, 0⟩] >>= _)
      cases h : executePlan S t plan [⟨out, 0⟩] with
      | error e => rfl
      | ok ps =>
        have := executePlan_length S t plan h
        cases ps with
        | nil => cases this
        | cons p ps =>
          cases ps with
          | nil => rfl
          | cons q ps => cases this

/-! ## C58 -/

/-- **C58** (partial: only for further calls that add no samples to the channels, see `joint_read_changes_counterexample`).
    What a successful read of several channels returned, it returns after further calls, successful or not. -/
theorem later_writes_keep_joint_reads_partial (al : Alloc) (ty : STy) {t : TdmsFile} {cs : List ChannelPath} {start : Nat}
    {outs res : List (List ty.Val)} (h : t.readChannelsFrom (ty.storage al) cs start outs = .ok res) (ops : List Op)
    (hsame : ∀ c ∈ cs, (runOps al t ops).index.getChannelDataPositions c = t.index.getChannelDataPositions c) :
    (runOps al t ops).readChannelsFrom (ty.storage al) cs start outs = .ok res :=
  readChannelsFrom_mono (STy.mono al ty) (later al ops t).1 hsame h

/-- The hypotheses hold for a call that writes another channel. -/
theorem later_writes_keep_joint_reads_example :
    (session [writeU16 ["a", "b"] [1, 2, 3, 4]]).readChannelsFrom (STy.u16.storage anyAlloc) [chan "a", chan "b"] 0
      [vals16 [0, 0], vals16 [0, 0, 0]] = .ok [vals16 [1, 2], vals16 [3, 4, 0]] ∧
    ∀ c ∈ [chan "a", chan "b"],
      (runOps anyAlloc (session [writeU16 ["a", "b"] [1, 2, 3, 4]]) [writeU16 ["c"] [5]]).index.getChannelDataPositions c
        = (session [writeU16 ["a", "b"] [1, 2, 3, 4]]).index.getChannelDataPositions c := by
  constructor <;> decide +kernel

/-- C58 in full is false: all buffers were filled, and a further call changes what the read returns, because the number
    of samples stored for `b` counts as progress of `a` (defect 5). -/
theorem joint_read_changes_counterexample :
    (session [writeU16 ["a", "b"] [1, 2, 3, 4, 5, 6]]).readChannelsFrom (STy.u16.storage anyAlloc) [chan "a", chan "b"] 0
      [vals16 [0, 0, 0], vals16 [0]] = .ok [vals16 [1, 2, 3], vals16 [4]] ∧
    (runOps anyAlloc (session [writeU16 ["a", "b"] [1, 2, 3, 4, 5, 6]]) [writeU16 ["c", "a"] [9, 9, 7, 8]]).readChannelsFrom
      (STy.u16.storage anyAlloc) [chan "a", chan "b"] 0
      [vals16 [0, 0, 0], vals16 [0]] = .ok [vals16 [1, 7, 8], vals16 [4]] := by
  constructor <;> decide +kernel

end Tedium
