import Verif.Proofs.Memory

/-! # Streams that put into the buffer what they give -/

namespace Tedium

theorem SafeStream.Serves.honest {σ : Type} {M : SafeStream σ} {F : Source σ} (h : M.Serves F) : M.Honest := by
  intro s buf n puts s' hr i hi hb
  cases hf : (F.read s buf.length).1 with
  | error k =>
    have := h.failed s buf k hf
    rw [hr] at this; cases this
  | ok bs =>
    have hc := h.count s buf bs hf
    have hp := h.bytes s buf bs hf
    rw [hr] at hc hp
    cases hc
    dsimp only at hp
    rw [hp i (by omega) (by omega), List.getElem?_eq_getElem (by omega)]
    exact Option.some_ne_none _

theorem Source.serve_serves {σ : Type} (F : Source σ) : F.serve.Serves F := by
  refine ⟨rfl, rfl, ?_, ?_, ?_, ?_⟩
  · intro s buf
    show (match F.read s buf.length with
      | (.ok bs, s) => ((Except.ok (min bs.length buf.length), fun i => bs[i]?), s)
      | (.error kind, s) => (((Except.error kind : Except IoKind Nat), fun _ => none), s)).2 = _
    cases F.read s buf.length with
    | mk r s' => cases r <;> rfl
  · intro s buf k h
    show (match F.read s buf.length with
      | (.ok bs, s) => ((Except.ok (min bs.length buf.length), fun i => bs[i]?), s)
      | (.error kind, s) => (((Except.error kind : Except IoKind Nat), fun _ => none), s)).1.1 = _
    cases hr : F.read s buf.length with
    | mk r s' => rw [hr] at h; dsimp only at h; subst h; rfl
  · intro s buf bs h
    show (match F.read s buf.length with
      | (.ok bs, s) => ((Except.ok (min bs.length buf.length), fun i => bs[i]?), s)
      | (.error kind, s) => (((Except.error kind : Except IoKind Nat), fun _ => none), s)).1.1 = _
    cases hr : F.read s buf.length with
    | mk r s' => rw [hr] at h; dsimp only at h; subst h; rfl
  · intro s buf bs h i _ _
    show (match F.read s buf.length with
      | (.ok bs, s) => ((Except.ok (min bs.length buf.length), fun i => bs[i]?), s)
      | (.error kind, s) => (((Except.error kind : Except IoKind Nat), fun _ => none), s)).1.2 i = _
    cases hr : F.read s buf.length with
    | mk r s' => rw [hr] at h; dsimp only at h; subst h; rfl

namespace MemReader
variable {σ : Type} {M : SafeStream σ} {F : Source σ}

/-- The reader of `Model/Source.lean`. -/
def toAny (b : MemReader σ) : AnyReader σ := ⟨b.store.length, b.store.take b.filled, b.consumed, b.seen.str⟩

/-- The first bytes after a `read`. -/
theorem served (h : M.Serves F) {s : σ} {buf : List MemCell} {bs : Bytes} (hf : (F.read s buf.length).1 = .ok bs) :
    (putBytes (M.read s buf).1.2 buf).take (min bs.length buf.length) = (bs.take buf.length).map some := by
  apply List.ext_getElem?
  intro i
  rw [List.getElem?_take, List.getElem?_map, List.getElem?_take]
  by_cases hi : i < buf.length
  · rw [if_pos hi]
    by_cases hb : i < bs.length
    · rw [if_pos (by omega), putBytes_get, h.bytes s buf bs hf i hb hi, List.getElem?_eq_getElem hi, List.getElem?_eq_getElem hb]
      rfl
    · rw [if_neg (by omega), List.getElem?_eq_none (by omega)]; rfl
  · rw [if_neg (by omega), if_neg hi]; rfl

/-- One `read` with both readers. -/
theorem read_serves (h : M.Serves F) (b : MemReader σ) (hb : b.filled ≤ b.store.length) (buf : List MemCell) :
    (b.read M buf).2.2.filled ≤ (b.read M buf).2.2.store.length ∧
    (b.read M buf).2.2.toAny = (b.toAny.read F buf.length).2 ∧
    (∀ kind, (b.toAny.read F buf.length).1 = .error kind → (b.read M buf).1 = R.err (.ioError kind)) ∧
    ∀ bs, (b.toAny.read F buf.length).1 = .ok bs → (b.read M buf).1 = .ok bs.length ∧
      (b.read M buf).2.1.take bs.length = bs.map some := by
  have hcopy : ∀ bs : Bytes, (bs.map some ++ buf.drop bs.length).take bs.length = bs.map some := by
    intro bs
    rw [List.take_append_of_le_length (by rw [List.length_map]; exact Nat.le_refl _), List.take_of_length_le]
    rw [List.length_map]; exact Nat.le_refl _
  have hfl : (b.store.take b.filled).length = b.filled := by rw [List.length_take]; omega
  unfold MemReader.read AnyReader.read
  by_cases h1 : b.consumed = b.filled
  · rw [if_pos h1, if_pos (show b.toAny.consumed = b.toAny.filled.length from h1.trans hfl.symm)]
    by_cases h2 : buf.length ≥ b.store.length
    · rw [if_pos h2, if_pos (show buf.length ≥ b.toAny.capacity from h2)]
      unfold Seen.read
      rw [show b.toAny.str = b.seen.str from rfl]
      have hst := h.state b.seen.str buf
      have hfa := h.failed b.seen.str buf
      have hco := h.count b.seen.str buf
      have hby := @served σ M F h b.seen.str buf
      generalize M.read b.seen.str buf = y at hst hfa hco hby
      obtain ⟨⟨r, puts⟩, str⟩ := y
      generalize F.read b.seen.str buf.length = x at hst hfa hco hby
      obtain ⟨rf, strf⟩ := x
      dsimp only at hst hfa hco hby
      subst hst
      cases rf with
      | error k =>
        have := hfa k rfl; subst this
        exact ⟨Nat.zero_le _, rfl, fun kind hk => by cases hk; rfl, nofun⟩
      | ok bs =>
        have := hco bs rfl; subst this
        refine ⟨Nat.zero_le _, rfl, nofun, fun bs' hbs => ?_⟩
        cases hbs
        dsimp only
        rw [List.length_take, Nat.min_comm buf.length]
        exact ⟨rfl, hby rfl⟩
    · rw [if_neg h2, if_neg (show ¬ buf.length ≥ b.toAny.capacity from h2)]
      unfold Seen.read
      rw [show b.toAny.str = b.seen.str from rfl, show b.toAny.capacity = (b.store.map some).length from (List.length_map _).symm]
      have hst := h.state b.seen.str (b.store.map some)
      have hfa := h.failed b.seen.str (b.store.map some)
      have hco := h.count b.seen.str (b.store.map some)
      have hby := @served σ M F h b.seen.str (b.store.map some)
      generalize M.read b.seen.str (b.store.map some) = y at hst hfa hco hby
      obtain ⟨⟨r, puts⟩, str⟩ := y
      generalize F.read b.seen.str (b.store.map some).length = x at hst hfa hco hby
      obtain ⟨rf, strf⟩ := x
      dsimp only at hst hfa hco hby
      subst hst
      have hlen : ((putBytes puts (b.store.map some)).map (Option.getD · 0)).length = b.store.length := by
        rw [List.length_map, putBytes_length, List.length_map]
      cases rf with
      | error k =>
        have := hfa k rfl; subst this
        refine ⟨Nat.zero_le _, ?_, fun kind hk => by cases hk; rfl, nofun⟩
        unfold toAny
        dsimp only
        rw [hlen, List.length_map]; rfl
      | ok bs =>
        have := hco bs rfl; subst this
        have hby := hby rfl
        have htake : ((putBytes puts (b.store.map some)).map (Option.getD · 0)).take (min bs.length (b.store.map some).length)
            = bs.take (b.store.map some).length := by
          rw [← List.map_take, hby, List.map_map]
          exact List.map_id _
        dsimp only
        rw [if_pos (by rw [hlen, List.length_map]; omega), htake]
        refine ⟨by show min _ _ ≤ _; rw [hlen, List.length_map]; omega, ?_, nofun, fun bs' hbs => ?_⟩
        · unfold toAny
          dsimp only
          rw [hlen, htake, List.length_map]
        · cases hbs
          exact ⟨rfl, hcopy _⟩
  · rw [if_neg h1, if_neg (show ¬ b.toAny.consumed = b.toAny.filled.length from fun he => h1 (he.trans hfl))]
    refine ⟨hb, rfl, nofun, fun bs hbs => ?_⟩
    cases hbs
    exact ⟨rfl, hcopy _⟩

theorem readExactLoop_serves (h : M.Serves F) : ∀ (fuel : Nat) (acc : Bytes) (rest : List MemCell) (b : MemReader σ),
    b.filled ≤ b.store.length →
    (b.readExactLoop M fuel (acc.map some) rest).2.filled ≤ (b.readExactLoop M fuel (acc.map some) rest).2.store.length ∧
    (b.readExactLoop M fuel (acc.map some) rest).2.toAny = (b.toAny.readExactLoop F fuel rest.length acc).2 ∧
    (b.readExactLoop M fuel (acc.map some) rest).1 = (b.toAny.readExactLoop F fuel rest.length acc).1.map (List.map some) := by
  intro fuel
  induction fuel with
  | zero => intro acc rest b hb; exact ⟨hb, rfl, rfl⟩
  | succ fuel ih =>
    intro acc rest b hb
    unfold readExactLoop AnyReader.readExactLoop
    by_cases he : rest = []
    · subst he; rw [if_pos rfl, if_pos (List.length_nil)]; exact ⟨hb, rfl, rfl⟩
    · rw [if_neg he, if_neg (fun h => he (List.length_eq_zero_iff.mp h))]
      obtain ⟨h1, h2, h3, h4⟩ := read_serves h b hb rest
      have hs := read_step (M := M) b rest
      have hlen := AnyReader.read_length (F := F) b.toAny rest.length
      generalize b.toAny.read F rest.length = x at h2 h3 h4 hlen
      generalize b.read M rest = y at h1 h2 h3 h4 hs
      obtain ⟨r, buf', b'⟩ := y
      obtain ⟨rf, a'⟩ := x
      dsimp only at h1 h2 h3 h4 hs hlen ⊢
      subst h2
      cases rf with
      | error k =>
        have := h3 k rfl; subst this
        exact ⟨h1, rfl, rfl⟩
      | ok bs =>
        obtain ⟨h4, h5⟩ := h4 bs rfl
        subst h4
        have hle := hlen bs rfl
        dsimp only
        by_cases hn : bs = []
        · subst hn; rw [if_pos (List.length_nil), if_pos rfl]; exact ⟨h1, rfl, rfl⟩
        · rw [if_neg (fun h => hn (List.length_eq_zero_iff.mp h)), if_neg hn, if_pos (by rw [hs.length]; exact hle), h5, ← List.map_append]
          have := ih (acc ++ bs) (buf'.drop bs.length) b' h1
          rw [List.length_drop, hs.length] at this
          exact this

theorem readExact_serves (h : M.Serves F) (b : MemReader σ) (hb : b.filled ≤ b.store.length) (buf : List MemCell) :
    (b.readExact M buf).2.filled ≤ (b.readExact M buf).2.store.length ∧
    (b.readExact M buf).2.toAny = (b.toAny.readExact F buf.length).2 ∧
    (b.readExact M buf).1 = (b.toAny.readExact F buf.length).1 := by
  have hfl : b.toAny.filled.length = b.filled := by
    show (b.store.take b.filled).length = _
    rw [List.length_take]; omega
  unfold readExact AnyReader.readExact
  rw [hfl, show b.toAny.consumed = b.consumed from rfl]
  split
  · exact ⟨hb, rfl, rfl⟩
  · obtain ⟨h1, h2, h3⟩ := readExactLoop_serves h (buf.length + 1) [] buf b hb
    rw [List.map_nil] at h1 h2 h3
    generalize b.toAny.readExactLoop F (buf.length + 1) buf.length [] = x at h2 h3
    generalize b.readExactLoop M (buf.length + 1) [] buf = y at h1 h2 h3
    obtain ⟨r, b'⟩ := y
    obtain ⟨rf, a'⟩ := x
    dsimp only at h1 h2 h3
    subst h2 h3
    cases rf with
    | error e => exact ⟨h1, rfl, rfl⟩
    | ok bs =>
      dsimp only [Except.map]
      unfold Seen.use
      rw [if_pos (all_map_some bs)]
      refine ⟨h1, rfl, ?_⟩
      dsimp only
      rw [List.map_map]
      exact congrArg _ (List.map_id _)

theorem seekStart_serves (h : M.Serves F) (b : MemReader σ) (hb : b.filled ≤ b.store.length) (p : Nat) :
    (b.seekStart M p).2.filled ≤ (b.seekStart M p).2.store.length ∧
    (b.seekStart M p).2.toAny = (b.toAny.seekStart F p).2 ∧ (b.seekStart M p).1 = (b.toAny.seekStart F p).1 := by
  unfold seekStart AnyReader.seekStart
  rw [h.seekStart, show b.toAny.str = b.seen.str from rfl]
  cases F.seekStart b.seen.str p with
  | mk r str =>
  cases r with
  | some k => exact ⟨hb, rfl, rfl⟩
  | none => exact ⟨Nat.zero_le _, rfl, rfl⟩

theorem seekRelative_serves (h : M.Serves F) (b : MemReader σ) (hb : b.filled ≤ b.store.length) (o : Int) :
    (b.seekRelative M o).2.filled ≤ (b.seekRelative M o).2.store.length ∧
    (b.seekRelative M o).2.toAny = (b.toAny.seekRelative F o).2 ∧ (b.seekRelative M o).1 = (b.toAny.seekRelative F o).1 := by
  have hfl : b.toAny.filled.length = b.filled := by
    show (b.store.take b.filled).length = _
    rw [List.length_take]; omega
  unfold seekRelative AnyReader.seekRelative
  dsimp only
  rw [hfl, show b.toAny.consumed = b.consumed from rfl]
  split
  · exact ⟨hb, rfl, rfl⟩
  · unfold seekCurrent AnyReader.seekCurrent
    dsimp only
    rw [hfl, h.seekCurrent, show b.toAny.str = b.seen.str from rfl, show b.toAny.consumed = b.consumed from rfl]
    split
    · cases F.seekCurrent b.seen.str (o - ((b.filled : Int) - b.consumed)) with
      | mk r str =>
      cases r with
      | some k => exact ⟨hb, rfl, rfl⟩
      | none => exact ⟨Nat.zero_le _, rfl, rfl⟩
    · cases F.seekCurrent b.seen.str (-((b.filled : Int) - b.consumed)) with
      | mk r str =>
      cases r with
      | some k => exact ⟨hb, rfl, rfl⟩
      | none =>
        dsimp only
        cases F.seekCurrent str o with
        | mk r str => cases r <;> exact ⟨Nat.zero_le _, rfl, rfl⟩

theorem run_serves (h : M.Serves F) {α : Type} (x : Act α) : ∀ b : MemReader σ, b.filled ≤ b.store.length →
    (b.run M x).2.toAny = (b.toAny.run F x).2 ∧ (b.run M x).1 = (b.toAny.run F x).1 := by
  induction x with
  | ret a => intro b _; exact ⟨rfl, rfl⟩
  | stop e => intro b _; exact ⟨rfl, rfl⟩
  | exact n next ih =>
    intro b hb
    unfold run AnyReader.run
    obtain ⟨h1, h2, h3⟩ := readExact_serves h b hb (List.replicate n none)
    rw [List.length_replicate] at h2 h3
    generalize b.toAny.readExact F n = x at h2 h3
    generalize b.readExact M (List.replicate n none) = y at h1 h2 h3
    obtain ⟨r, b'⟩ := y
    obtain ⟨rf, a'⟩ := x
    dsimp only at h1 h2 h3
    subst h2 h3
    cases r with
    | error e => exact ⟨rfl, rfl⟩
    | ok bs => exact ih bs b' h1
  | move o next ih =>
    intro b hb
    unfold run AnyReader.run
    obtain ⟨h1, h2, h3⟩ := seekRelative_serves h b hb o
    generalize b.toAny.seekRelative F o = x at h2 h3
    generalize b.seekRelative M o = y at h1 h2 h3
    obtain ⟨r, b'⟩ := y
    obtain ⟨rf, a'⟩ := x
    dsimp only at h1 h2 h3
    subst h2 h3
    cases r with
    | some e => exact ⟨rfl, rfl⟩
    | none => exact ih b' h1

theorem runProg_serves (h : M.Serves F) {τ α : Type} (x : Prog τ α) : ∀ b : MemReader σ, b.filled ≤ b.store.length →
    (b.runProg M x).2.toAny = (b.toAny.runProg F x).2 ∧ (b.runProg M x).1 = (b.toAny.runProg F x).1 := by
  induction x with
  | ret a => intro b _; exact ⟨rfl, rfl⟩
  | stop e => intro b _; exact ⟨rfl, rfl⟩
  | exact n next ih =>
    intro b hb
    unfold runProg AnyReader.runProg
    obtain ⟨h1, h2, h3⟩ := readExact_serves h b hb (List.replicate n none)
    rw [List.length_replicate] at h2 h3
    generalize b.toAny.readExact F n = x at h2 h3
    generalize b.readExact M (List.replicate n none) = y at h1 h2 h3
    obtain ⟨r, b'⟩ := y
    obtain ⟨rf, a'⟩ := x
    dsimp only at h1 h2 h3
    subst h2 h3
    cases r with
    | error e => exact ⟨rfl, rfl⟩
    | ok bs => exact ih bs b' h1
  | move o next ih =>
    intro b hb
    unfold runProg AnyReader.runProg
    obtain ⟨h1, h2, h3⟩ := seekRelative_serves h b hb o
    generalize b.toAny.seekRelative F o = x at h2 h3
    generalize b.seekRelative M o = y at h1 h2 h3
    obtain ⟨r, b'⟩ := y
    obtain ⟨rf, a'⟩ := x
    dsimp only at h1 h2 h3
    subst h2 h3
    cases r with
    | some e => exact ⟨rfl, rfl⟩
    | none => exact ih b' h1
  | store s next ih =>
    intro b hb
    obtain ⟨h1, h2⟩ := ih b hb
    unfold runProg AnyReader.runProg
    generalize b.toAny.runProg F next = x at h1 h2
    generalize b.runProg M next = y at h1 h2
    obtain ⟨⟨r, ss⟩, b'⟩ := y
    obtain ⟨⟨r', ss'⟩, a'⟩ := x
    dsimp only at h1 h2
    subst h1
    cases h2
    exact ⟨rfl, rfl⟩

end MemReader

/-! ## Streams of streams -/

/-- The two ways of running programs differ only in what is recorded. -/
def Runner.Mirrors {δ δ' α : Type} (f : δ → δ') (rn : Runner δ α) (rn' : Runner δ' α) : Prop :=
  ∀ start a d, (rn start a d).1 = (rn' start a (f d)).1 ∧ f (rn start a d).2 = (rn' start a (f d)).2

section
variable {δ δ' : Type} {f : δ → δ'}

theorem executePlanInto_mirrors {α : Type} {S : Storage α} {rd : Endian → Act α} {rn : Runner δ α} {rn' : Runner δ' α}
    (h : rn.Mirrors f rn') (ix : Index) : ∀ (plan : List BlockRead) (ps : List (Progress α)) (d : δ),
    (executePlanInto S rd rn ix plan ps d).1 = (executePlanInto S rd rn' ix plan ps (f d)).1 ∧
    (executePlanInto S rd rn ix plan ps d).2.1 = (executePlanInto S rd rn' ix plan ps (f d)).2.1 ∧
    f (executePlanInto S rd rn ix plan ps d).2.2 = (executePlanInto S rd rn' ix plan ps (f d)).2.2 := by
  intro plan
  induction plan with
  | nil => intro ps d; exact ⟨rfl, rfl, rfl⟩
  | cons loc locs ih =>
    intro ps d
    have hb : (executeBlockInto S rd rn ix loc ps d).1 = (executeBlockInto S rd rn' ix loc ps (f d)).1 ∧
        (executeBlockInto S rd rn ix loc ps d).2.1 = (executeBlockInto S rd rn' ix loc ps (f d)).2.1 ∧
        f (executeBlockInto S rd rn ix loc ps d).2.2 = (executeBlockInto S rd rn' ix loc ps (f d)).2.2 := by
      unfold executeBlockInto
      dsimp only
      split
      · exact ⟨rfl, rfl, rfl⟩
      · split
        · exact ⟨rfl, rfl, rfl⟩
        · rename_i a ha
          obtain ⟨h1, h2⟩ := h (‹DataBlock›).start a d
          generalize rn _ a d = x at h1 h2
          generalize rn' _ a (f d) = y at h1 h2
          obtain ⟨⟨r, ss⟩, d'⟩ := x
          obtain ⟨⟨r', ss'⟩, d''⟩ := y
          dsimp only at h1 h2
          subst h2
          cases h1
          cases r <;> exact ⟨rfl, rfl, rfl⟩
    unfold executePlanInto
    obtain ⟨h1, h2, h3⟩ := hb
    generalize executeBlockInto S rd rn ix loc ps d = x at h1 h2 h3
    generalize executeBlockInto S rd rn' ix loc ps (f d) = y at h1 h2 h3
    obtain ⟨r, log, d'⟩ := x
    obtain ⟨r', log', d''⟩ := y
    dsimp only at h1 h2 h3
    subst h1 h2 h3
    cases r with
    | error e => exact ⟨rfl, rfl, rfl⟩
    | ok ps' =>
      dsimp only
      split
      · exact ⟨rfl, rfl, rfl⟩
      · obtain ⟨h1, h2, h3⟩ := ih ps' d'
        exact ⟨h1, congrArg (log ++ ·) h2, h3⟩

theorem readChannelsLog_mirrors {al : Alloc} {ty : STy} {rn : Runner δ ty.Val} {rn' : Runner δ' ty.Val}
    (h : rn.Mirrors f rn') (ix : Index) (cs : List ChannelPath) (start : Nat) (outs : List (List ty.Val)) (d : δ) :
    (readChannelsLog al ty rn ix cs start outs d).1 = (readChannelsLog al ty rn' ix cs start outs (f d)).1 ∧
    (readChannelsLog al ty rn ix cs start outs d).2.1 = (readChannelsLog al ty rn' ix cs start outs (f d)).2.1 ∧
    f (readChannelsLog al ty rn ix cs start outs d).2.2 = (readChannelsLog al ty rn' ix cs start outs (f d)).2.2 := by
  unfold readChannelsLog
  split
  · exact ⟨rfl, rfl, rfl⟩
  · split
    · exact ⟨rfl, rfl, rfl⟩
    · obtain ⟨h1, h2, h3⟩ := executePlanInto_mirrors (S := ty.storage al) (rd := Act.value al ty) h ix ‹List BlockRead›
        (outs.map (fun o => ⟨o, 0⟩)) d
      exact ⟨congrArg (Except.map (fun _ => ())) h1, h2, h3⟩

theorem readChannelLog_mirrors {al : Alloc} {ty : STy} {rn : Runner δ ty.Val} {rn' : Runner δ' ty.Val}
    (h : rn.Mirrors f rn') (ix : Index) (c : ChannelPath) (start : Nat) (out : List ty.Val) (d : δ) :
    (readChannelLog al ty rn ix c start out d).1 = (readChannelLog al ty rn' ix c start out (f d)).1 ∧
    (readChannelLog al ty rn ix c start out d).2.1 = (readChannelLog al ty rn' ix c start out (f d)).2.1 ∧
    f (readChannelLog al ty rn ix c start out d).2.2 = (readChannelLog al ty rn' ix c start out (f d)).2.2 := by
  unfold readChannelLog
  split
  · exact ⟨rfl, rfl, rfl⟩
  · split
    · exact ⟨rfl, rfl, rfl⟩
    · obtain ⟨h1, h2, h3⟩ := executePlanInto_mirrors (S := ty.storage al) (rd := Act.value al ty) h ix ‹List BlockRead› [⟨out, 0⟩] d
      exact ⟨congrArg (Except.map (fun _ => ())) h1, h2, h3⟩

end

namespace SafeStream
variable {σ : Type} {M : SafeStream σ} {F : Source σ}

theorem toAny_new (capacity : Nat) (s : Seen σ) : (MemReader.new capacity s).toAny = AnyReader.new capacity s.str := by
  unfold MemReader.new MemReader.toAny AnyReader.new
  dsimp only
  rw [List.length_replicate]
  rfl

theorem runner_serves (h : M.Serves F) {α : Type} (capacity : Nat) :
    Runner.Mirrors Seen.str (M.runner capacity : Runner (Seen σ) α) (F.runner capacity) := by
  intro start a s
  unfold SafeStream.runner Source.runner
  obtain ⟨h1, h2, h3⟩ := MemReader.seekStart_serves h (MemReader.new capacity s) (Nat.zero_le _) start
  rw [toAny_new] at h2 h3
  generalize (AnyReader.new capacity s.str).seekStart F start = x at h2 h3
  generalize (MemReader.new capacity s).seekStart M start = y at h1 h2 h3
  obtain ⟨r, b'⟩ := y
  obtain ⟨rf, a'⟩ := x
  dsimp only at h1 h2 h3
  subst h2 h3
  cases r with
  | some k => exact ⟨rfl, rfl⟩
  | none =>
    dsimp only
    obtain ⟨h4, h5⟩ := MemReader.runProg_serves h a b' h1
    exact ⟨h5, congrArg AnyReader.str h4⟩

theorem readSegment_serves (h : M.Serves F) (al : Alloc) (capacity : Nat) (s : Seen σ) :
    (M.readSegment al capacity s).1 = (F.readSegment al capacity s.str).1 ∧
    (M.readSegment al capacity s).2.str = (F.readSegment al capacity s.str).2 := by
  unfold SafeStream.readSegment Source.readSegment
  obtain ⟨h1, h2, h3⟩ := MemReader.readExact_serves h (MemReader.new 0 s) (Nat.zero_le _) (List.replicate 4 (some 0))
  rw [toAny_new, List.length_replicate] at h2 h3
  generalize (AnyReader.new 0 s.str).readExact F 4 = x at h2 h3
  generalize (MemReader.new 0 s).readExact M (List.replicate 4 (some 0)) = y at h1 h2 h3
  obtain ⟨r, b⟩ := y
  obtain ⟨rf, a'⟩ := x
  dsimp only at h1 h2 h3
  subst h2 h3
  cases r with
  | error e =>
    cases e with
    | err x =>
      cases x with
      | ioError k => cases k <;> exact ⟨rfl, rfl⟩
      | _ => exact ⟨rfl, rfl⟩
    | _ => exact ⟨rfl, rfl⟩
  | ok tag =>
    dsimp only
    split
    · exact ⟨rfl, rfl⟩
    · obtain ⟨h4, h5, h6⟩ := MemReader.readExact_serves h b h1 (List.replicate 4 (some 0))
      rw [List.length_replicate] at h5 h6
      generalize b.toAny.readExact F 4 = x at h5 h6
      generalize b.readExact M (List.replicate 4 (some 0)) = y at h4 h5 h6
      obtain ⟨r, b2⟩ := y
      obtain ⟨rf, a'⟩ := x
      dsimp only at h4 h5 h6
      subst h5 h6
      cases r with
      | error e => exact ⟨rfl, rfl⟩
      | ok buf =>
        dsimp only
        obtain ⟨h7, h8⟩ := MemReader.run_serves h (Act.segment al (if (ToC.fromU32 (decNat .little buf)).bigEndian then .big else .little)
          (ToC.fromU32 (decNat .little buf))) (MemReader.new capacity b2.seen) (Nat.zero_le _)
        rw [toAny_new] at h7 h8
        exact ⟨h8, congrArg AnyReader.str h7⟩

theorem openLoop_serves (h : M.Serves F) (al : Alloc) (capacity : Nat) : ∀ (fuel : Nat) (ix : Index) (s : Seen σ),
    (M.openLoop al capacity fuel ix s).1 = (F.openLoop al capacity fuel ix s.str).1 ∧
    (M.openLoop al capacity fuel ix s).2.str = (F.openLoop al capacity fuel ix s.str).2 := by
  intro fuel
  induction fuel with
  | zero => intro ix s; exact ⟨rfl, rfl⟩
  | succ fuel ih =>
    intro ix s
    unfold SafeStream.openLoop Source.openLoop
    obtain ⟨h1, h2⟩ := readSegment_serves h al capacity s
    generalize F.readSegment al capacity s.str = x at h1 h2
    generalize M.readSegment al capacity s = y at h1 h2
    obtain ⟨r, s'⟩ := y
    obtain ⟨rf, t⟩ := x
    dsimp only at h1 h2
    subst h1 h2
    cases r with
    | error e =>
      cases e with
      | err x => cases x <;> exact ⟨rfl, rfl⟩
      | _ => exact ⟨rfl, rfl⟩
    | ok seg =>
      dsimp only
      cases ix.addSegment seg with
      | mk r ix' =>
      cases r with
      | error e => exact ⟨rfl, rfl⟩
      | ok next =>
        dsimp only
        rw [h.seekStart]
        cases F.seekStart s'.str next with
        | mk r str =>
        cases r with
        | some k => exact ⟨rfl, rfl⟩
        | none => exact ih ix' _

end SafeStream
end Tedium
