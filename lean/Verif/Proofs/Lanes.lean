import Verif.Spec.Jointly
import Verif.Proofs.Delivered

/-! # Reading one data block for buffers that are at different places -/

namespace Tedium

section
variable {α : Type}

/-! ## Lanes -/

/-- A channel of a block with, if it is read, the slot and iterator of its buffer, and its samples to skip. -/
structure Lane (α : Type) where
  length : Nat
  size : Nat
  out : Option (Nat × OutIter α)
  skip : Nat

/-- the plan entry of a lane, when `κ` of its skip remain -/
def Lane.entry (κ : Nat → Nat) (c : Lane α) : RecordEntry α where
  length := c.length
  plan := match c.out with
    | none => .skip c.size
    | some (slot, it) => .read slot it (κ c.skip)

/-- every lane that is read has the size of the storage type -/
def SizedL (S : Storage α) (cols : List (Lane α)) : Prop :=
  ∀ c ∈ cols, c.out.isSome = true → c.size = S.memSize

/-- feed the lanes: `ext` gives the distance to the next lane from the length and the size, `g` the values
    from the offset, the length and the skip -/
def feedL (ext : Nat → Nat → Nat) (g : Nat → Nat → Nat → List α) : Nat → List (Lane α) → List (Lane α)
  | _, [] => []
  | o, c :: cs =>
    { c with out := c.out.map (fun x => (x.1, x.2.feed (g o c.length c.skip))) } ::
      feedL ext g (o + ext c.length c.size) cs

theorem feedL_feedL (ext : Nat → Nat → Nat) (g g' : Nat → Nat → Nat → List α) (cols : List (Lane α)) (o : Nat) :
    feedL ext g' o (feedL ext g o cols) = feedL ext (fun o n k => g o n k ++ g' o n k) o cols := by
  induction cols generalizing o with
  | nil => rfl
  | cons c cs ih =>
    rw [feedL, feedL, feedL, List.cons.injEq]
    refine ⟨?_, ih _⟩
    cases c.out with
    | none => rfl
    | some x => simp only [Option.map_some, OutIter.feed_feed]

theorem feedL_nil (ext : Nat → Nat → Nat) (cols : List (Lane α)) (o : Nat) :
    feedL ext (fun _ _ _ => []) o cols = cols := by
  induction cols generalizing o with
  | nil => rfl
  | cons c cs ih =>
    unfold feedL
    rw [ih]
    congr 1
    cases c with
    | mk l s out k => cases out <;> simp

theorem feedL_map {β : Type} (ext : Nat → Nat → Nat) (g : Nat → Nat → Nat → List α) (w : Lane α → β)
    (hw : ∀ c d : Lane α, c.length = d.length → c.size = d.size → w c = w d) (cols : List (Lane α)) (o : Nat) :
    (feedL ext g o cols).map w = cols.map w := by
  induction cols generalizing o with
  | nil => rfl
  | cons c cs ih =>
    unfold feedL
    rw [List.map_cons, List.map_cons, ih]
    congr 1
    exact hw _ _ rfl rfl

theorem feedL_sized {S : Storage α} (ext : Nat → Nat → Nat) (g : Nat → Nat → Nat → List α) (cols : List (Lane α))
    (o : Nat) (h : SizedL S cols) : SizedL S (feedL ext g o cols) := by
  induction cols generalizing o with
  | nil => exact h
  | cons c cs ih =>
    intro d hd hs
    unfold feedL at hd
    rcases List.mem_cons.mp hd with hd | hd
    · subst hd
      exact h c (by simp) (by simpa using hs)
    · exact ih _ (fun c hc => h c (by simp [hc])) d hd hs

theorem feedL_getElem? (ext : Nat → Nat → Nat) (g : Nat → Nat → Nat → List α) (cols : List (Lane α)) (o i : Nat) :
    (feedL ext g o cols)[i]? = cols[i]?.map (fun c =>
      { c with out := c.out.map (fun x =>
          (x.1, x.2.feed (g (o + ((cols.take i).map (fun c => ext c.length c.size)).sum) c.length c.skip))) }) := by
  induction cols generalizing o i with
  | nil => simp [feedL]
  | cons c cs ih =>
    unfold feedL
    cases i with
    | zero => simp
    | succ i =>
      rw [List.getElem?_cons_succ, ih, List.getElem?_cons_succ, List.take_succ_cons, List.map_cons, List.sum_cons,
        Nat.add_assoc]

/-- the skips of the lanes that are read -/
def skipsOf (cols : List (Lane α)) : List Nat :=
  cols.filterMap (fun c => c.out.map (fun _ => c.skip))

theorem skipsOf_feedL (ext : Nat → Nat → Nat) (g : Nat → Nat → Nat → List α) (cols : List (Lane α)) (o : Nat) :
    skipsOf (feedL ext g o cols) = skipsOf cols := by
  induction cols generalizing o with
  | nil => rfl
  | cons c cs ih =>
    have := ih (o + ext c.length c.size)
    unfold skipsOf at this ⊢
    rw [feedL, List.filterMap_cons, List.filterMap_cons, this]
    cases c.out <;> rfl

theorem setSkips_lanes (κ κ' : Nat → Nat) (extra : List Nat) : ∀ (cols : List (Lane α)),
    setSkips ((skipsOf cols).map κ ++ extra) (cols.map (Lane.entry κ')) = cols.map (Lane.entry κ) := by
  intro cols
  induction cols with
  | nil => cases extra <;> rfl
  | cons c cs ih =>
    obtain ⟨l, s, out, k⟩ := c
    cases out with
    | none =>
      have h1 : skipsOf (⟨l, s, none, k⟩ :: cs : List (Lane α)) = skipsOf cs := rfl
      rw [h1, List.map_cons, List.map_cons]
      have he : ∀ κ : Nat → Nat, Lane.entry κ (⟨l, s, none, k⟩ : Lane α) = ⟨l, .skip s⟩ := fun _ => rfl
      rw [he, he]
      rw [← ih]
      cases hx : (skipsOf cs).map κ ++ extra with
      | nil => rw [setSkips_nil, setSkips_nil]
      | cons y ys => rfl
    | some x =>
      have h1 : skipsOf (⟨l, s, some x, k⟩ :: cs : List (Lane α)) = k :: skipsOf cs := rfl
      rw [h1, List.map_cons, List.map_cons, List.map_cons, List.cons_append]
      have he : ∀ κ : Nat → Nat, Lane.entry κ (⟨l, s, some x, k⟩ : Lane α) = ⟨l, .read x.1 x.2 (κ k)⟩ := fun _ => rfl
      rw [he, he]
      unfold setSkips
      dsimp only
      rw [ih]

theorem blockSkips_lanes (κ : Nat → Nat) (cols : List (Lane α)) :
    blockSkips (cols.map (Lane.entry κ)) = (skipsOf cols).map κ := by
  unfold blockSkips skipsOf
  rw [List.filterMap_map, List.map_filterMap]
  congr 1
  funext c
  obtain ⟨l, s, out, k⟩ := c
  cases out <;> rfl

theorem mapSkips_lanes (g κ : Nat → Nat) (cols : List (Lane α)) :
    mapSkips g (cols.map (Lane.entry κ)) = cols.map (Lane.entry (fun k => g (κ k))) := by
  unfold mapSkips
  rw [List.map_map]
  apply List.map_congr_left
  intro c _
  obtain ⟨l, s, out, k⟩ := c
  cases out <;> rfl

variable {S : Storage α} {dec : Endian → Bytes → α}

theorem sizeBytes_lanes (κ : Nat → Nat) {cols : List (Lane α)} (h : SizedL S cols) :
    ∀ c ∈ cols, (Lane.entry κ c).plan.sizeBytes S = c.size := by
  intro c hc
  have := h c hc
  obtain ⟨l, s, out, k⟩ := c
  cases out with
  | none => rfl
  | some x => exact (this rfl).symm

theorem rowSize_lanes (κ : Nat → Nat) {cols : List (Lane α)} (h : SizedL S cols) :
    rowSize S (cols.map (Lane.entry κ)) = (cols.map Lane.size).sum := by
  unfold rowSize
  rw [List.map_map]
  congr 1
  exact List.map_congr_left (sizeBytes_lanes κ h)

/-- bytes of a lane in a chunk -/
def Lane.bytes (c : Lane α) : Nat := c.length * c.size

theorem blockSize_lanes (κ : Nat → Nat) {cols : List (Lane α)} (h : SizedL S cols)
    (hlt : (cols.map Lane.bytes).sum < 2 ^ 64) :
    blockSize S (cols.map (Lane.entry κ)) = .ok (cols.map Lane.bytes).sum := by
  unfold blockSize
  have : ((cols.map (Lane.entry κ)).map (fun e => e.plan.sizeBytes S * e.length)) = cols.map Lane.bytes := by
    rw [List.map_map]
    apply List.map_congr_left
    intro c hc
    show (Lane.entry κ c).plan.sizeBytes S * c.length = c.length * c.size
    rw [sizeBytes_lanes κ h c hc, Nat.mul_comm]
  rw [this]
  exact if_pos hlt

/-! ## Counting -/

/-- how many values the last lane that is read has got -/
def lastDone : Nat → List (Lane α) → Nat
  | d, [] => d
  | d, c :: cs => match c.out with
    | none => lastDone d cs
    | some x => lastDone x.2.done.length cs

/-- how many values the last lane that is read gets from one chunk -/
def lastGot (κ : Nat → Nat) : Nat → List (Lane α) → Nat
  | l, [] => l
  | l, c :: cs => match c.out with
    | none => lastGot κ l cs
    | some x => lastGot κ (min (c.length - κ c.skip) x.2.rest.length) cs

theorem lastDone_feedL (κ : Nat → Nat) (ext : Nat → Nat → Nat) (g : Nat → Nat → Nat → List α)
    (hg : ∀ o n k, (g o n k).length = n - κ k) : ∀ (cols : List (Lane α)) (o d d' l : Nat), d' = d + l →
      lastDone d' (feedL ext g o cols) = lastDone d cols + lastGot κ l cols := by
  intro cols
  induction cols with
  | nil => intro o d d' l h; exact h
  | cons c cs ih =>
    intro o d d' l h
    obtain ⟨len, s, out, k⟩ := c
    cases out with
    | none => exact ih _ d d' l h
    | some x =>
      refine ih (o + ext len s) x.2.done.length (x.2.feed (g o len k)).done.length (min (len - κ k) x.2.rest.length) ?_
      unfold OutIter.feed
      rw [List.length_append, List.length_take, hg, Nat.min_comm]

/-! ## Contiguous data -/

theorem readSubBlock_lanes (hS : S.Reads dec) (e : Endian) (f : Bytes) (hf : f.length < 2 ^ 63) (κ : Nat → Nat)
    (base : Nat) :
    ∀ (cols : List (Lane α)) (l o : Nat), SizedL S cols → (∀ c ∈ cols, c.size < 2 ^ 63) →
      base + o + (cols.map Lane.bytes).sum ≤ f.length →
      readSubBlock S e l (cols.map (Lane.entry κ)) f (base + o) =
        .ok ((lastGot κ l cols,
          (feedL (· * ·) (fun o n k => (valsAt S dec e f (base + o) n).drop (κ k)) o cols).map
            (Lane.entry κ)), base + o + (cols.map Lane.bytes).sum) := by
  intro cols
  induction cols with
  | nil => intro l o _ _ _; simp [readSubBlock, lastGot, feedL]
  | cons c cs ih =>
    intro l o hsz hpos hlen
    have hih := fun l => ih l (o + c.bytes) (fun c hc => hsz c (by simp [hc]))
      (fun c hc => hpos c (by simp [hc]))
      (by simp only [List.map_cons, List.sum_cons] at hlen; omega)
    have hp := hpos c (by simp)
    simp only [List.map_cons, List.sum_cons] at hlen ⊢
    have hb : c.bytes = c.length * c.size := rfl
    unfold readSubBlock
    cases ho : c.out with
    | none =>
      have hplan : (Lane.entry κ c).plan = .skip c.size := by simp [Lane.entry, ho]
      rw [hplan]
      dsimp only
      have hmul : mulI64 (c.size : Int) (toI64 (Lane.entry κ c).length) = .ok ((c.size * c.length : Nat) : Int) := by
        rcases Nat.eq_zero_or_pos c.size with h0 | h0
        · rw [h0]
          simp [mulI64]
        · have hl1 : c.length ≤ c.length * c.size := Nat.le_mul_of_pos_right _ h0
          have := mulI64_small (a := c.size) (b := c.length)
            (by rw [Nat.mul_comm]; omega) hp (by omega)
          unfold toI64 at this
          rw [if_pos hp] at this
          exact this
      rw [lift_bind hmul, Rd.bind_ok (move_nat _ _ _ (by rw [Nat.mul_comm]; omega))]
      have hpos' : base + o + c.size * c.length = base + (o + c.bytes) := by
        rw [hb, Nat.mul_comm c.size]; omega
      rw [hpos', Rd.bind_ok (hih l)]
      simp only [Rd.pure_apply]
      congr 2
      · rw [lastGot, feedL]
        simp only [ho, Option.map_none, List.map_cons]
        have : c = ⟨c.length, c.size, none, c.skip⟩ := by rw [← ho]
        rw [← this]
        rfl
      · omega
    | some x =>
      obtain ⟨slot, it⟩ := x
      have hsize := hsz c (by simp) (by rw [ho]; rfl)
      have hplan : (Lane.entry κ c).plan = .read slot it (κ c.skip) := by simp [Lane.entry, ho]
      have hlength : (Lane.entry κ c).length = c.length := rfl
      rw [hplan, hlength]
      dsimp only
      have hread := readSequential_eq hS e f hf it (c.length - min (κ c.skip) c.length)
        (base + o + min (κ c.skip) c.length * S.memSize) (by
          rw [Nat.add_assoc, ← Nat.add_mul, ← hsize]
          rw [show min (κ c.skip) c.length + (c.length - min (κ c.skip) c.length) = c.length by omega]
          omega)
      have hend : base + o + min (κ c.skip) c.length * S.memSize + (c.length - min (κ c.skip) c.length) * S.memSize
          = base + (o + c.bytes) := by
        rw [Nat.add_assoc, ← Nat.add_mul, ← hsize,
          show min (κ c.skip) c.length + (c.length - min (κ c.skip) c.length) = c.length by omega, hb]
        omega
      have hsub : c.length - min (κ c.skip) c.length = c.length - κ c.skip := by omega
      have hmain : (do
            let __discr ← readSequential S e it (c.length - min (κ c.skip) c.length)
            let __discr_1 ← readSubBlock S e __discr.1 (cs.map (Lane.entry κ))
            (Pure.pure (__discr_1.1,
              { (Lane.entry κ c) with plan := .read slot __discr.2 (κ c.skip) } :: __discr_1.2)
              : Rd (Nat × List (RecordEntry α)))) f (base + o + min (κ c.skip) c.length * S.memSize)
          = .ok ((lastGot κ l (c :: cs),
          (feedL (· * ·) (fun o n k => (valsAt S dec e f (base + o) n).drop (κ k)) o (c :: cs)).map
            (Lane.entry κ)), base + o + (c.bytes + (cs.map Lane.bytes).sum)) := by
        rw [Rd.bind_ok hread, hend]
        dsimp only
        rw [Rd.bind_ok (hih _)]
        simp only [Rd.pure_apply]
        congr 2
        · rw [lastGot, feedL]
          simp only [ho, Option.map_some, List.map_cons]
          rw [valsAt_drop, hsub]
          rfl
        · omega
      by_cases hk : min (κ c.skip) c.length > 0
      · rw [if_pos hk]
        have h1 : min (κ c.skip) c.length * S.memSize ≤ c.length * c.size := by
          rw [hsize]; exact Nat.mul_le_mul_right _ (by omega)
        have hl1 : c.length ≤ c.length * c.size := Nat.le_mul_of_pos_right _ (by rw [hsize]; exact hS.pos)
        rw [hsize] at hp
        rw [lift_bind (mulI64_small (by omega) (by omega) hp), Rd.bind_ok (move_nat _ _ _ (by omega))]
        exact hmain
      · rw [if_neg hk]
        have : min (κ c.skip) c.length = 0 := by omega
        rw [this, Nat.zero_mul, Nat.add_zero] at hmain
        simp only [this, Nat.sub_zero] at hmain ⊢
        exact hmain

/-- the values that the chunks `idx, …, idx + r - 1` offer to a lane with `n` values per chunk at offset `o`, of which
    `k` samples are to be skipped, when `skips` are the samples that the buffers skip and the first channel has `sub`
    values per chunk -/
def laneVals (S : Storage α) (dec : Endian → Bytes → α) (e : Endian) (f : Bytes) (start bs sub : Nat)
    (skips : List Nat) (idx r : Nat) (o n k : Nat) : List α :=
  (List.range' idx r).flatMap fun c =>
    if skips.all (fun s => decide (s / sub ≤ c)) then
      (valsAt S dec e f (start + c * bs + o) n).drop (if c = k / sub then k % sub else 0)
    else []

theorem contigSkipLoop_lanes (hS : S.Reads dec) (e : Endian) (f : Bytes) (hf : f.length < 2 ^ 63)
    (start bs sub : Nat) (extra : List Nat) :
    ∀ (r idx : Nat) (cols : List (Lane α)) (len : Nat) (κ' : Nat → Nat), SizedL S cols →
      (∀ c ∈ cols, c.size < 2 ^ 63) → bs = (cols.map Lane.bytes).sum →
      start + (idx + r) * bs ≤ f.length →
      ∃ κ'' d, contigSkipLoop S e bs ((skipsOf cols ++ extra).map (· / sub)) ((skipsOf cols ++ extra).map (· % sub))
          r idx (cols.map (Lane.entry κ')) len f (start + idx * bs) =
        .ok ((len + d,
          (feedL (· * ·) (laneVals S dec e f start bs sub (skipsOf cols ++ extra) idx r) 0 cols).map (Lane.entry κ'')),
          start + (idx + r) * bs) ∧
        lastDone 0 (feedL (· * ·) (laneVals S dec e f start bs sub (skipsOf cols ++ extra) idx r) 0 cols) =
          lastDone 0 cols + d := by
  intro r
  induction r with
  | zero =>
    intro idx cols len κ' _ _ _ _
    refine ⟨κ', 0, ?_⟩
    have h1 : laneVals S dec e f start bs sub (skipsOf cols ++ extra) idx 0 = fun _ _ _ => [] := by
      funext o n k; simp [laneVals]
    rw [h1, feedL_nil]
    simp [contigSkipLoop]
  | succ r ih =>
    intro idx cols len κ' hsz hpos hbs hlen
    generalize hsk : skipsOf cols ++ extra = skips at *
    unfold contigSkipLoop
    have hadd : idx + (r + 1) = (idx + 1) + r := by omega
    have hmul : (idx + (r + 1)) * bs = idx * bs + bs + r * bs := by
      rw [hadd, Nat.add_mul, Nat.add_mul, Nat.one_mul]
    have hnext : start + idx * bs + bs = start + (idx + 1) * bs := by
      rw [Nat.add_mul, Nat.one_mul]; omega
    have hvals : ∀ o n k, laneVals S dec e f start bs sub skips idx (r + 1) o n k =
        (if skips.all (fun s => decide (s / sub ≤ idx)) then
          (valsAt S dec e f (start + idx * bs + o) n).drop (if idx = k / sub then k % sub else 0) else []) ++
          laneVals S dec e f start bs sub skips (idx + 1) r o n k := by
      intro o n k
      unfold laneVals
      rw [List.range'_succ, List.flatMap_cons]
    have hall : (skips.map (· / sub)).all (fun skip => decide (idx ≥ skip)) =
        skips.all (fun s => decide (s / sub ≤ idx)) := by
      rw [List.all_map]; rfl
    rw [hall]
    by_cases h1 : skips.all (fun s => decide (s / sub ≤ idx)) = true
    · rw [if_pos h1]
      simp only [if_pos h1] at hvals
      dsimp only
      have hzip : ((skips.map (· / sub)).zip (skips.map (· % sub))).map
          (fun (x : Nat × Nat) => calculateSkip idx x.1 x.2) =
          (skipsOf cols).map (fun k => if idx = k / sub then k % sub else 0) ++
            extra.map (fun k => if idx = k / sub then k % sub else 0) := by
        rw [← List.map_append, hsk, List.zip_map', List.map_map]
        rfl
      rw [hzip, setSkips_lanes]
      generalize hκ : (fun k => if idx = k / sub then k % sub else 0) = κ
      have hsub := readSubBlock_lanes hS e f hf κ (start + idx * bs) cols 0 0 hsz hpos (by rw [← hbs]; omega)
      rw [Nat.add_zero] at hsub
      rw [Rd.bind_ok hsub, ← hbs, hnext]
      dsimp only
      obtain ⟨κ'', d, hd, hd2⟩ := ih (idx + 1) (feedL (· * ·)
          (fun o n k => (valsAt S dec e f (start + idx * bs + o) n).drop (κ k)) 0 cols) (len + lastGot κ 0 cols) κ
        (feedL_sized _ _ cols 0 hsz)
        (by
          intro c hc
          have : c.size ∈ (feedL (· * ·)
              (fun o n k => (valsAt S dec e f (start + idx * bs + o) n).drop (κ k)) 0 cols).map Lane.size :=
            List.mem_map_of_mem hc
          rw [feedL_map _ _ _ (fun _ _ _ h => h)] at this
          obtain ⟨d, hd, hs⟩ := List.mem_map.mp this
          rw [← hs]; exact hpos d hd)
        (by rw [feedL_map _ _ Lane.bytes (fun c d h1 h2 => by unfold Lane.bytes; rw [h1, h2])]; exact hbs)
        (by rw [← hadd]; exact hlen)
      rw [skipsOf_feedL, hsk] at hd hd2
      have hfeed : feedL (· * ·) (laneVals S dec e f start bs sub skips (idx + 1) r) 0 (feedL (· * ·)
          (fun o n k => (valsAt S dec e f (start + idx * bs + o) n).drop (κ k)) 0 cols) =
          feedL (· * ·) (laneVals S dec e f start bs sub skips idx (r + 1)) 0 cols := by
        rw [feedL_feedL]
        congr 1
        funext o n k
        rw [hvals, ← hκ]
      rw [hfeed] at hd hd2
      refine ⟨κ'', lastGot κ 0 cols + d, ?_, ?_⟩
      · rw [hd, hadd, Nat.add_assoc]
      · rw [hd2, lastDone_feedL κ _ _ (fun o n k => by simp) cols 0 0 0 0 rfl, Nat.add_assoc]
    · rw [if_neg h1]
      simp only [if_neg h1, List.nil_append] at hvals
      have hmv : Rd.move (toI64 bs) f (start + idx * bs) = .ok ((), start + idx * bs + bs) := by
        unfold toI64
        rw [if_pos (by omega)]
        exact move_nat _ _ _ (by omega)
      rw [Rd.bind_ok hmv, hnext]
      obtain ⟨κ'', d, hd, hd2⟩ := ih (idx + 1) cols len κ' hsz hpos hbs (by rw [← hadd]; exact hlen)
      rw [hsk] at hd hd2
      have : laneVals S dec e f start bs sub skips idx (r + 1) = laneVals S dec e f start bs sub skips (idx + 1) r := by
        funext o n k
        rw [hvals]
      rw [this]
      exact ⟨κ'', d, by rw [hd, hadd], hd2⟩

theorem divAll_ok {sub : Nat} (h : 0 < sub) : ∀ l : List Nat, divAll sub l = .ok (l.map (· / sub)) := by
  intro l
  induction l with
  | nil => rfl
  | cons s ss ih =>
    unfold divAll
    rw [ih]
    unfold divR
    rw [if_neg (by omega)]
    rfl

theorem firstLength_lanes (κ : Nat → Nat) {cols : List (Lane α)} {sub : Nat}
    (h : ∃ c, cols.head? = some c ∧ c.length = sub) : firstLength (cols.map (Lane.entry κ)) = .ok sub := by
  obtain ⟨c, hc, rfl⟩ := h
  cases cols with
  | nil => cases hc
  | cons d ds => cases hc; rfl

/-- What the reader of contiguous data does. -/
theorem contigReadSkip_lanes (hS : S.Reads dec) (e : Endian) (f : Bytes) (hf : f.length < 2 ^ 63)
    (start size sub p : Nat) (extra : List Nat) (cols : List (Lane α)) (κ : Nat → Nat) (hsz : SizedL S cols)
    (hpos : ∀ c ∈ cols, c.size < 2 ^ 63)
    (hbs : 0 < (cols.map Lane.bytes).sum) (hbs' : (cols.map Lane.bytes).sum < 2 ^ 64)
    (hsub : 0 < sub) (hfirst : ∃ c, cols.head? = some c ∧ c.length = sub) (hlen : start + size ≤ f.length) :
    ∃ κ' d q, contigReadSkip S e start size (cols.map (Lane.entry κ)) (skipsOf cols ++ extra) f p =
      .ok ((d, (feedL (· * ·) (laneVals S dec e f start (cols.map Lane.bytes).sum sub (skipsOf cols ++ extra) 0
        (size / (cols.map Lane.bytes).sum)) 0 cols).map (Lane.entry κ')), q) ∧
      lastDone 0 (feedL (· * ·) (laneVals S dec e f start (cols.map Lane.bytes).sum sub (skipsOf cols ++ extra) 0
        (size / (cols.map Lane.bytes).sum)) 0 cols) = lastDone 0 cols + d := by
  generalize hB : (cols.map Lane.bytes).sum = bs at *
  have hle : size / bs * bs ≤ size := Nat.div_mul_le_self _ _
  have hsize : blockSize S (cols.map (Lane.entry κ)) = .ok bs := by
    rw [blockSize_lanes κ hsz (by rw [hB]; exact hbs'), hB]
  unfold contigReadSkip
  rw [Rd.bind_ok (show Rd.seek start f p = .ok ((), start) from rfl),
    lift_bind hsize,
    lift_bind (show divR size bs = .ok (size / bs) by unfold divR; rw [if_neg (by omega)]),
    lift_bind (firstLength_lanes κ hfirst), lift_bind (divAll_ok hsub _)]
  obtain ⟨κ', d, h1, h2⟩ := contigSkipLoop_lanes hS e f hf start bs sub extra (size / bs) 0 cols 0 κ hsz hpos hB.symm
    (by rw [Nat.zero_add]; omega)
  rw [Nat.zero_mul, Nat.add_zero, Nat.zero_add] at h1
  exact ⟨κ', d, _, h1, h2⟩

/-- Without skips the plain reader does the same. -/
theorem contigReadFrom_zero (e : Endian) (f : Bytes) (start size sub p : Nat) (plan : List (RecordEntry α))
    (hsub : 0 < sub) (hfirst : firstLength plan = .ok sub) :
    contigReadFrom S e start size plan 0 f p =
      contigReadSkip S e start size plan (List.replicate (blockSkips plan).length 0) f p := by
  unfold contigReadFrom contigReadSkip
  rw [Rd.bind_eq, Rd.bind_eq]
  cases Rd.seek start f p with
  | error er => rfl
  | ok x =>
    dsimp only
    rw [Rd.bind_eq, Rd.bind_eq]
    cases Rd.lift (blockSize S plan) f x.2 with
    | error er => rfl
    | ok y =>
      dsimp only
      rw [Rd.bind_eq, Rd.bind_eq]
      cases Rd.lift (divR size y.1) f y.2 with
      | error er => rfl
      | ok z =>
        dsimp only
        rw [lift_bind hfirst, lift_bind hfirst, lift_bind (divAll_ok hsub _),
          lift_bind (show divR 0 sub = .ok (0 / sub) by unfold divR; rw [if_neg (by omega)])]
        have h := contigSkipLoop_uniform (S := S) e f y.1 0 0 (blockSkips plan).length z.1 0 plan 0 z.2 rfl
        simp only [ite_self] at h
        rw [Nat.zero_div, Nat.zero_mod, ← h, List.map_replicate, List.map_replicate, Nat.zero_div, Nat.zero_mod]

/-! ## Interleaved data -/

/-- a lane stores a value of row number `row` -/
def storesRow (κ : Nat → Nat) (row : Nat) (cols : List (Lane α)) : Bool :=
  cols.any (fun c => match c.out with
    | none => false
    | some x => decide (κ c.skip ≤ row) && !x.2.rest.isEmpty)

theorem readRow_lanes (hS : S.Reads dec) (e : Endian) (f : Bytes) (hf : f.length < 2 ^ 63) (κ : Nat → Nat)
    (row base : Nat) :
    ∀ (cols : List (Lane α)) (o : Nat) (any : Bool), SizedL S cols →
      base + o + (cols.map Lane.size).sum ≤ f.length →
      readRow S e row any (cols.map (Lane.entry κ)) f (base + o) =
        .ok ((any || storesRow κ row cols,
          (feedL (fun _ s => s) (fun o _ k => if κ k ≤ row then [dec e ((f.drop (base + o)).take S.memSize)] else [])
            o cols).map (Lane.entry κ)), base + o + (cols.map Lane.size).sum) := by
  intro cols
  induction cols with
  | nil => intro o any _ _; simp [readRow, storesRow, feedL]
  | cons c cs ih =>
    intro o any hsz hlen
    simp only [List.map_cons, List.sum_cons] at hlen ⊢
    have hih := fun any => ih (o + c.size) any (fun c hc => hsz c (by simp [hc])) (by omega)
    unfold readRow
    cases ho : c.out with
    | none =>
      have hplan : (Lane.entry κ c).plan = .skip c.size := by simp [Lane.entry, ho]
      rw [hplan]
      dsimp only
      rw [Rd.bind_ok (move_nat _ _ _ (by omega)), Nat.add_assoc, Rd.bind_ok (hih any)]
      simp only [Rd.pure_apply]
      congr 2
      · rw [feedL]
        simp only [ho, Option.map_none, List.map_cons, storesRow, List.any_cons, Bool.false_or]
        have : c = ⟨c.length, c.size, none, c.skip⟩ := by rw [← ho]
        rw [← this]
      · omega
    | some x =>
      obtain ⟨slot, it⟩ := x
      have hsize := hsz c (by simp) (by rw [ho]; rfl)
      have hplan : (Lane.entry κ c).plan = .read slot it (κ c.skip) := by simp [Lane.entry, ho]
      rw [hplan]
      dsimp only
      rw [Rd.bind_ok (hS.reads e f (base + o) (by omega))]
      have hstep : ∀ it' any', it' = it.feed
            (if κ c.skip ≤ row then [dec e ((f.drop (base + o)).take S.memSize)] else []) →
          any' = (any || (decide (κ c.skip ≤ row) && !it.rest.isEmpty)) →
          (do
            let __x ← readRow S e row any' (cs.map (Lane.entry κ))
            (Pure.pure (__x.1, { (Lane.entry κ c) with plan := .read slot it' (κ c.skip) } :: __x.2)
              : Rd (Bool × List (RecordEntry α)))) f (base + o + S.memSize) =
          .ok ((any || storesRow κ row (c :: cs),
            (feedL (fun _ s => s) (fun o _ k => if κ k ≤ row then [dec e ((f.drop (base + o)).take S.memSize)] else [])
              o (c :: cs)).map (Lane.entry κ)), base + o + (c.size + (cs.map Lane.size).sum)) := by
        intro it' any' hit hany
        rw [← hsize, Nat.add_assoc, Rd.bind_ok (hih any')]
        simp only [Rd.pure_apply]
        congr 2
        · rw [feedL]
          simp only [ho, Option.map_some, List.map_cons, storesRow, List.any_cons]
          rw [hany, hit, hsize, Bool.or_assoc]
          rfl
        · omega
      by_cases hk : κ c.skip ≤ row
      · rw [if_pos (show row ≥ κ c.skip from hk)]
        cases hr : it.rest with
        | nil =>
          dsimp only
          exact hstep it any (by rw [if_pos hk, feed_single, hr]) (by rw [hr]; simp)
        | cons y ys =>
          dsimp only
          exact hstep _ true (by rw [if_pos hk, feed_single, hr]) (by rw [hr]; simp [hk])
      · rw [if_neg (show ¬ row ≥ κ c.skip from hk)]
        dsimp only
        exact hstep it any (by rw [if_neg hk, OutIter.feed_nil]) (by simp [hk])

/-- a row of which nothing is stored leaves everything as it is -/
theorem feedL_idle (κ : Nat → Nat) (row : Nat) (ext : Nat → Nat → Nat) (v : Nat → α) (cols : List (Lane α))
    (h : storesRow κ row cols = false) (o : Nat) :
    feedL ext (fun o _ k => if κ k ≤ row then [v o] else []) o cols = cols := by
  induction cols generalizing o with
  | nil => rfl
  | cons c cs ih =>
    unfold storesRow at h
    rw [List.any_cons, Bool.or_eq_false_iff] at h
    unfold feedL
    rw [ih (by unfold storesRow; exact h.2)]
    congr 1
    obtain ⟨l, s, out, k⟩ := c
    cases out with
    | none => rfl
    | some x =>
      have hx := h.1
      simp only [Bool.and_eq_false_iff, decide_eq_false_iff_not, Bool.not_eq_false'] at hx
      simp only [Option.map_some]
      congr 2
      by_cases hk : κ k ≤ row
      · rw [if_pos hk, feed_single]
        have := (hx.resolve_left (fun hn => hn hk))
        cases hr : x.2.rest with
        | nil => rfl
        | cons y ys => rw [hr] at this; cases this
      · rw [if_neg hk, OutIter.feed_nil]

/-- the values of the rows `row, …, row + r - 1` for a lane at offset `o` that skips `k` -/
def rowValsL (S : Storage α) (dec : Endian → Bytes → α) (e : Endian) (f : Bytes) (start rs : Nat) (κ : Nat → Nat)
    (row r : Nat) (o k : Nat) : List α :=
  (List.range' row r).flatMap fun q =>
    if κ k ≤ q then [dec e ((f.drop (start + q * rs + o)).take S.memSize)] else []

theorem interLoop_lanes (hS : S.Reads dec) (e : Endian) (f : Bytes) (hf : f.length < 2 ^ 63) (κ : Nat → Nat)
    (start rs : Nat) :
    ∀ (r row : Nat) (cols : List (Lane α)) (smp : Nat), SizedL S cols →
      rs = (cols.map Lane.size).sum → start + (row + r) * rs ≤ f.length →
      ∃ q T, T ≤ r ∧ interLoop S e r row (cols.map (Lane.entry κ)) smp f (start + row * rs) =
        .ok ((smp + T,
          (feedL (fun _ s => s) (fun o _ k => rowValsL S dec e f start rs κ row T o k) 0 cols).map (Lane.entry κ)), q) ∧
        (∀ j < T, storesRow κ (row + j)
          (feedL (fun _ s => s) (fun o _ k => rowValsL S dec e f start rs κ row j o k) 0 cols) = true) ∧
        (T < r → storesRow κ (row + T)
          (feedL (fun _ s => s) (fun o _ k => rowValsL S dec e f start rs κ row T o k) 0 cols) = false) := by
  intro r
  induction r with
  | zero =>
    intro row cols smp _ _ _
    refine ⟨start + row * rs, 0, Nat.le_refl _, ?_, (fun j hj => absurd hj (Nat.not_lt_zero _)),
      (fun h => absurd h (Nat.lt_irrefl _))⟩
    have : (fun o (_ : Nat) k => rowValsL S dec e f start rs κ row 0 o k) = fun _ _ _ => [] := by
      funext o n k; simp [rowValsL]
    rw [this, feedL_nil]
    simp [interLoop]
  | succ r ih =>
    intro row cols smp hsz hrs hlen
    have hmul : (row + (r + 1)) * rs = row * rs + rs + r * rs := by
      rw [show row + (r + 1) = (row + 1) + r by omega, Nat.add_mul, Nat.add_mul, Nat.one_mul]
    have hrow := readRow_lanes hS e f hf κ row (start + row * rs) cols 0 false hsz (by rw [← hrs]; omega)
    rw [Nat.add_zero] at hrow
    unfold interLoop
    rw [Rd.bind_ok hrow]
    dsimp only
    rw [Bool.false_or]
    have h0 : feedL (fun _ s => s) (fun o _ k => rowValsL S dec e f start rs κ row 0 o k) 0 cols = cols := by
      have : (fun o (_ : Nat) k => rowValsL S dec e f start rs κ row 0 o k) = fun _ _ _ => [] := by
        funext o n k; simp [rowValsL]
      rw [this, feedL_nil]
    cases hc : storesRow κ row cols with
    | true =>
      rw [if_pos rfl]
      generalize hcols' : feedL (fun _ s => s)
        (fun o (_ : Nat) k => if κ k ≤ row then [dec e ((f.drop (start + row * rs + o)).take S.memSize)] else [])
        0 cols = cols'
      have hfeed : ∀ T, feedL (fun _ s => s) (fun o _ k => rowValsL S dec e f start rs κ (row + 1) T o k) 0 cols' =
          feedL (fun _ s => s) (fun o _ k => rowValsL S dec e f start rs κ row (T + 1) o k) 0 cols := by
        intro T
        rw [← hcols', feedL_feedL]
        congr 1
      obtain ⟨q, T, hT, hq, hs1, hs2⟩ := ih (row + 1) cols' (smp + 1)
        (by rw [← hcols']; exact feedL_sized _ _ cols 0 hsz)
        (by rw [← hcols', feedL_map _ _ Lane.size (fun _ _ _ h => h)]; exact hrs)
        (by rw [show row + 1 + r = row + (r + 1) by omega]; exact hlen)
      have hnext : start + row * rs + (cols.map Lane.size).sum = start + (row + 1) * rs := by
        rw [← hrs, Nat.add_mul, Nat.one_mul]; omega
      refine ⟨q, T + 1, Nat.succ_le_succ hT, ?_, ?_, ?_⟩
      · rw [hnext, hq, hfeed, show smp + 1 + T = smp + (T + 1) by omega]
      · intro j hj
        cases j with
        | zero => rw [h0]; exact hc
        | succ j =>
          have := hs1 j (by omega)
          rw [hfeed, show row + 1 + j = row + (j + 1) by omega] at this
          exact this
      · intro hlt
        have := hs2 (by omega)
        rw [hfeed, show row + 1 + T = row + (T + 1) by omega] at this
        exact this
    | false =>
      rw [if_neg (by simp)]
      refine ⟨start + row * rs + (cols.map Lane.size).sum, 0, Nat.zero_le _, ?_,
        (fun j hj => absurd hj (Nat.not_lt_zero _)), ?_⟩
      · simp only [Rd.pure_apply]
        rw [feedL_idle κ row _ (fun o => dec e ((f.drop (start + row * rs + o)).take S.memSize)) cols hc, h0,
          Nat.add_zero]
      · intro _
        rw [h0]; exact hc

theorem minOrZero_min? (l : List Nat) : minOrZero l = l.min?.getD 0 := by
  induction l with
  | nil => rfl
  | cons x xs ih =>
    cases xs with
    | nil => rfl
    | cons y ys =>
      unfold minOrZero
      rw [ih]
      cases hm : ys.min? <;> simp [List.min?_cons, hm]

/-- What the reader of interleaved data does. -/
theorem interRead_lanes (hS : S.Reads dec) (e : Endian) (f : Bytes) (hf : f.length < 2 ^ 63)
    (start size p : Nat) (cols : List (Lane α)) (hsz : SizedL S cols)
    (hrow : 0 < (cols.map Lane.size).sum) (hlen : start + size ≤ f.length)
    (hmin : ((skipsOf cols).min?.getD 0) * (cols.map Lane.size).sum < 2 ^ 63) :
    ∃ κ q T, interRead S e start size (cols.map (Lane.entry id)) f p =
      .ok ((T, (feedL (fun _ s => s) (fun o _ k => rowValsL S dec e f start (cols.map Lane.size).sum id
        ((skipsOf cols).min?.getD 0) T o k) 0 cols).map (Lane.entry κ)), q) ∧
      T ≤ size / (cols.map Lane.size).sum - (skipsOf cols).min?.getD 0 ∧
      (∀ j < T, storesRow id ((skipsOf cols).min?.getD 0 + j)
        (feedL (fun _ s => s) (fun o _ k => rowValsL S dec e f start (cols.map Lane.size).sum id
          ((skipsOf cols).min?.getD 0) j o k) 0 cols) = true) ∧
      (T < size / (cols.map Lane.size).sum - (skipsOf cols).min?.getD 0 →
        storesRow id ((skipsOf cols).min?.getD 0 + T)
        (feedL (fun _ s => s) (fun o _ k => rowValsL S dec e f start (cols.map Lane.size).sum id
          ((skipsOf cols).min?.getD 0) T o k) 0 cols) = false) := by
  generalize hR : (cols.map Lane.size).sum = rs at *
  have hle : size / rs * rs ≤ size := Nat.div_mul_le_self _ _
  have hbs : blockSkips (cols.map (Lane.entry id)) = skipsOf cols := by
    rw [blockSkips_lanes, List.map_id]
  have hall : ∀ k ∈ skipsOf cols, (skipsOf cols).min?.getD 0 ≤ k := by
    intro k hk
    cases hm : (skipsOf cols).min? with
    | none => exact Nat.zero_le _
    | some m => exact (List.min?_eq_some_iff.mp hm).2 k hk
  unfold interRead
  rw [Rd.bind_ok (show Rd.seek start f p = .ok ((), start) from rfl), rowSize_lanes id hsz, hR,
    lift_bind (show divR size rs = .ok (size / rs) by unfold divR; rw [if_neg (by omega)])]
  simp only [hbs, minOrZero_min?]
  rw [mapSkips_lanes]
  generalize hm : (skipsOf cols).min?.getD 0 = m at *
  dsimp only [id]
  -- the rows, counted from the first that is read
  have hloop : ∃ q T, T ≤ size / rs - m ∧
      interLoop S e (size / rs - m) 0 (cols.map (Lane.entry (fun k => k - m))) 0 f (start + m * rs) =
        .ok ((T, (feedL (fun _ s => s) (fun o _ k => rowValsL S dec e (f) (start + m * rs) rs (fun k => k - m) 0 T o k) 0
          cols).map (Lane.entry (fun k => k - m))), q) ∧
      (∀ j < T, storesRow (fun k => k - m) j
        (feedL (fun _ s => s) (fun o _ k => rowValsL S dec e f (start + m * rs) rs (fun k => k - m) 0 j o k) 0 cols)
          = true) ∧
      (T < size / rs - m → storesRow (fun k => k - m) T
        (feedL (fun _ s => s) (fun o _ k => rowValsL S dec e f (start + m * rs) rs (fun k => k - m) 0 T o k) 0 cols)
          = false) := by
    by_cases hrows : m ≤ size / rs
    · have hml : m * rs + (size / rs - m) * rs = size / rs * rs := by
        rw [← Nat.add_mul]; congr 1; omega
      obtain ⟨q, T, h1, h2, h3, h4⟩ := interLoop_lanes hS e f hf (fun k => k - m) (start + m * rs) rs (size / rs - m) 0
        cols 0 hsz hR.symm (by rw [Nat.zero_add]; omega)
      rw [Nat.zero_mul, Nat.add_zero, Nat.zero_add] at h2
      simp only [Nat.zero_add] at h3 h4
      exact ⟨q, T, h1, h2, h3, h4⟩
    · have h0 : size / rs - m = 0 := by omega
      rw [h0]
      refine ⟨start + m * rs, 0, Nat.le_refl _, ?_, (fun j hj => absurd hj (Nat.not_lt_zero _)),
        (fun h => absurd h (Nat.lt_irrefl _))⟩
      have : (fun o (_ : Nat) k => rowValsL S dec e f (start + m * rs) rs (fun k => k - m) 0 0 o k) =
          fun _ _ _ => [] := by
        funext o n k; simp [rowValsL]
      rw [this, feedL_nil]
      rfl
  -- the same rows, counted from the first of the block
  have hshift : ∀ T, feedL (fun _ s => s)
      (fun o _ k => rowValsL S dec e f (start + m * rs) rs (fun k => k - m) 0 T o k) 0 cols =
      feedL (fun _ s => s) (fun o _ k => rowValsL S dec e f start rs id m T o k) 0 cols := by
    intro T
    suffices h : ∀ (o n k : Nat), m ≤ k →
        rowValsL S dec e f (start + m * rs) rs (fun k => k - m) 0 T o k = rowValsL S dec e f start rs id m T o k by
      have hgen : ∀ (cs : List (Lane α)) (o : Nat), (∀ k ∈ skipsOf cs, m ≤ k) →
          feedL (fun _ s => s)
            (fun o _ k => rowValsL S dec e f (start + m * rs) rs (fun k => k - m) 0 T o k) o cs =
          feedL (fun _ s => s) (fun o _ k => rowValsL S dec e f start rs id m T o k) o cs := by
        intro cs
        induction cs with
        | nil => intro o _; rfl
        | cons c cs ih =>
          intro o hcs
          obtain ⟨l, s, out, k⟩ := c
          unfold feedL
          cases out with
          | none =>
            rw [ih _ hcs]
            rfl
          | some x =>
            have hsk : skipsOf (⟨l, s, some x, k⟩ :: cs : List (Lane α)) = k :: skipsOf cs := rfl
            rw [hsk] at hcs
            rw [ih _ (fun k hk => hcs k (by simp [hk]))]
            simp only [Option.map_some]
            rw [h o l k (hcs k (by simp))]
      exact hgen cols 0 hall
    intro o n k hk
    unfold rowValsL
    rw [show List.range' m T = (List.range' 0 T).map (m + ·) by rw [List.map_add_range', Nat.add_zero],
      List.flatMap_map, List.flatMap_def, List.flatMap_def]
    congr 1
    apply List.map_congr_left
    intro q _
    have hpos : start + m * rs + q * rs + o = start + (m + q) * rs + o := by
      rw [Nat.add_mul m q]; omega
    rw [hpos]
    have hiff : (k - m ≤ q) ↔ id k ≤ m + q := by simp only [id]; omega
    simp only [hiff]
  have hstores : ∀ T, storesRow (fun k => k - m) T
        (feedL (fun _ s => s) (fun o _ k => rowValsL S dec e f start rs id m T o k) 0 cols) =
      storesRow id (m + T) (feedL (fun _ s => s) (fun o _ k => rowValsL S dec e f start rs id m T o k) 0 cols) := by
    intro T
    unfold storesRow
    have hall' := hall
    rw [← skipsOf_feedL (fun _ s => s) (fun o _ k => rowValsL S dec e f start rs id m T o k) cols 0] at hall'
    generalize feedL (fun _ s => s) (fun o _ k => rowValsL S dec e f start rs id m T o k) 0 cols = cs at *
    clear hloop hshift
    induction cs with
    | nil => rfl
    | cons c cs ih =>
      obtain ⟨l, s, out, k⟩ := c
      rw [List.any_cons, List.any_cons]
      cases out with
      | none => rw [ih hall']
      | some x =>
        have hsk : skipsOf (⟨l, s, some x, k⟩ :: cs : List (Lane α)) = k :: skipsOf cs := rfl
        rw [hsk] at hall'
        rw [ih (fun k hk => hall' k (by simp [hk]))]
        have hk := hall' k (by simp)
        have hiff : (k - m ≤ T) ↔ id k ≤ m + T := by simp only [id]; omega
        simp only [hiff]
  obtain ⟨q, T, h1, h2, h3, h4⟩ := hloop
  simp only [hshift] at h2 h3 h4
  simp only [hstores] at h3 h4
  refine ⟨fun k => k - m, q, T, ?_, h1, h3, h4⟩
  by_cases hk0 : m > 0
  · rw [if_pos hk0]
    have e1 : m ≤ m * rs := Nat.le_mul_of_pos_right _ hrow
    have e2 : rs ≤ m * rs := Nat.le_mul_of_pos_left _ hk0
    rw [lift_bind (mulI64_small (by omega) (by omega) (by omega)), Rd.bind_ok (move_nat _ _ _ (by omega))]
    exact h2
  · rw [if_neg hk0]
    have : m = 0 := by omega
    subst this
    rw [Nat.zero_mul, Nat.add_zero] at h2
    exact h2

end
end Tedium
