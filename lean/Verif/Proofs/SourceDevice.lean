import Verif.Proofs.Source

/-! # The streams of `Model/Device.lean` among all streams -/

namespace Tedium

/-- `read` of a stream with that script, repeated as long as it is interrupted. -/
def readThrough (bytes : Bytes) (pos n : Nat) : List ReadOutcome → Except IoKind Bytes × Device
  | .interrupted :: script => readThrough bytes pos n script
  | script =>
    match Device.read ⟨bytes, pos, script⟩ n with
    | (.got bs, d) => (.ok bs, d)
    | (.interrupted, d) => (.ok [], d)
    | (.failed code, d) => (.error (.other code), d)

/-- The streams of `Model/Device.lean`. -/
def Source.device : Source Device where
  read d n := readThrough d.bytes d.pos n d.script
  seekStart := Device.seekStart
  seekCurrent := Device.seekCurrent

namespace AnyReader

/-- The `BufReader` of `Model/Device.lean`. -/
def toBuf (b : AnyReader Device) : BufReader := ⟨b.capacity, b.filled, b.consumed, b.str⟩

/-- What one `read` of the stream does. -/
theorem read_cases (d : Device) (n : Nat) :
    (∃ bs d', bs.length ≤ n ∧ d.read n = (.got bs, d') ∧ Source.device.read d n = (.ok bs, d') ∧
      d'.script.length ≤ d.script.length) ∨
    (∃ c d', d.read n = (.failed c, d') ∧ Source.device.read d n = (.error (.other c), d')) ∨
    ∃ d', d.read n = (.interrupted, d') ∧ (∀ m, Source.device.read d m = Source.device.read d' m) ∧
      d'.script.length + 1 = d.script.length := by
  obtain ⟨bytes, pos, script⟩ := d
  cases script with
  | nil => exact Or.inl ⟨_, _, List.length_take_le _ _, rfl, rfl, Nat.le_refl _⟩
  | cons o script =>
    cases o with
    | short k =>
      refine Or.inl ⟨_, _, ?_, rfl, rfl, Nat.le_succ _⟩
      exact Nat.le_trans (List.length_take_le' _ _) (List.length_take_le _ _)
    | interrupted => exact Or.inr (Or.inr ⟨_, rfl, fun _ => rfl, rfl⟩)
    | fail c => exact Or.inr (Or.inl ⟨_, _, rfl, rfl⟩)
    | ended => exact Or.inl ⟨_, _, Nat.zero_le _, rfl, rfl, Nat.le_succ _⟩

theorem readExactLoop_device : ∀ (fuel fuel' n : Nat) (acc : Bytes) (b : AnyReader Device), n < fuel' →
    n + b.str.script.length < fuel →
    BufReader.readExactLoop fuel n acc b.toBuf
      = ((b.readExactLoop Source.device fuel' n acc).1, (b.readExactLoop Source.device fuel' n acc).2.toBuf) := by
  intro fuel
  induction fuel with
  | zero => intro fuel' n acc b _ h; omega
  | succ fuel ih =>
    intro fuel' n acc b h' h
    cases fuel' with
    | zero => omega
    | succ fuel' =>
    unfold BufReader.readExactLoop
    by_cases hn : n = 0
    · rw [if_pos hn]; unfold AnyReader.readExactLoop; rw [if_pos hn]
    · rw [if_neg hn]
      by_cases he : b.consumed = b.filled.length
      · by_cases hc : n ≥ b.capacity
        · have hbuf : b.toBuf.read n = ((b.str.read n).1, { b.toBuf with filled := [], consumed := 0, dev := (b.str.read n).2 }) := by
            unfold BufReader.read
            rw [if_pos (show b.toBuf.consumed = b.toBuf.filled.length from he), if_pos (show n ≥ b.toBuf.capacity from hc)]
            rfl
          rcases read_cases b.str n with ⟨bs, d', hl, h1, h2, h3⟩ | ⟨c, d', h1, h2⟩ | ⟨d', h1, h2, h3⟩
          · rw [hbuf, h1]
            dsimp only
            have hany : b.read Source.device n = (.ok bs, { b with filled := [], consumed := 0, str := d' }) := by
              unfold AnyReader.read
              rw [if_pos he, if_pos hc, h2]
              dsimp only
              rw [List.take_of_length_le hl]
            unfold AnyReader.readExactLoop
            rw [if_neg hn, hany]
            dsimp only
            by_cases hb : bs = []
            · rw [if_pos hb, if_pos hb]; rfl
            · rw [if_neg hb, if_neg hb]
              have := List.length_pos_iff.mpr hb
              exact ih fuel' _ _ { b with filled := [], consumed := 0, str := d' } (by omega) (by
                show n - bs.length + d'.script.length < fuel
                omega)
          · rw [hbuf, h1]
            unfold AnyReader.readExactLoop
            rw [if_neg hn]
            have hany : b.read Source.device n = (.error (.other c), { b with filled := [], consumed := 0, str := d' }) := by
              unfold AnyReader.read
              rw [if_pos he, if_pos hc, h2]
            rw [hany]
            rfl
          · rw [hbuf, h1]
            dsimp only
            have hsame : b.readExactLoop Source.device (fuel' + 1) n acc =
                ({ b with filled := [], consumed := 0, str := d' } : AnyReader Device).readExactLoop Source.device (fuel' + 1) n acc := by
              have hread : b.read Source.device n = ({ b with filled := [], consumed := 0, str := d' } : AnyReader Device).read Source.device n := by
                unfold AnyReader.read
                rw [if_pos he, if_pos hc, h2 n]
                dsimp only [List.length_nil]
                rw [if_pos rfl, if_pos hc]
              conv => lhs; unfold AnyReader.readExactLoop
              conv => rhs; unfold AnyReader.readExactLoop
              rw [if_neg hn, if_neg hn, hread]
            rw [hsame]
            exact ih (fuel' + 1) n acc { b with filled := [], consumed := 0, str := d' } h' (by
              show n + d'.script.length < fuel
              omega)
        · have hbuf : b.toBuf.read n = (match b.str.read b.capacity with
              | (.got bs, dev) => (.got (bs.take n), { b.toBuf with filled := bs, consumed := (bs.take n).length, dev })
              | (r, dev) => (r, { b.toBuf with filled := [], consumed := 0, dev })) := by
            unfold BufReader.read
            rw [if_pos (show b.toBuf.consumed = b.toBuf.filled.length from he), if_neg (show ¬ n ≥ b.toBuf.capacity from hc)]
            rfl
          rcases read_cases b.str b.capacity with ⟨bs, d', hl, h1, h2, h3⟩ | ⟨c, d', h1, h2⟩ | ⟨d', h1, h2, h3⟩
          · rw [hbuf, h1]
            dsimp only
            have hany : b.read Source.device n = (.ok (bs.take n), { b with filled := bs, consumed := (bs.take n).length, str := d' }) := by
              unfold AnyReader.read
              rw [if_pos he, if_neg hc, h2]
              dsimp only
              rw [List.take_of_length_le hl]
            unfold AnyReader.readExactLoop
            rw [if_neg hn, hany]
            dsimp only
            by_cases hb : bs.take n = []
            · rw [if_pos hb, if_pos hb]; rfl
            · rw [if_neg hb, if_neg hb]
              have := List.length_pos_iff.mpr hb
              exact ih fuel' _ _ { b with filled := bs, consumed := (bs.take n).length, str := d' } (by omega) (by
                show n - (bs.take n).length + d'.script.length < fuel
                omega)
          · rw [hbuf, h1]
            unfold AnyReader.readExactLoop
            rw [if_neg hn]
            have hany : b.read Source.device n = (.error (.other c), { b with filled := [], consumed := 0, str := d' }) := by
              unfold AnyReader.read
              rw [if_pos he, if_neg hc, h2]
            rw [hany]
            rfl
          · rw [hbuf, h1]
            dsimp only
            have hsame : b.readExactLoop Source.device (fuel' + 1) n acc =
                ({ b with filled := [], consumed := 0, str := d' } : AnyReader Device).readExactLoop Source.device (fuel' + 1) n acc := by
              have hread : b.read Source.device n = ({ b with filled := [], consumed := 0, str := d' } : AnyReader Device).read Source.device n := by
                unfold AnyReader.read
                rw [if_pos he, if_neg hc, h2 b.capacity]
                dsimp only [List.length_nil]
                rw [if_pos rfl, if_neg hc]
              conv => lhs; unfold AnyReader.readExactLoop
              conv => rhs; unfold AnyReader.readExactLoop
              rw [if_neg hn, if_neg hn, hread]
            rw [hsame]
            exact ih (fuel' + 1) n acc { b with filled := [], consumed := 0, str := d' } h' (by
              show n + d'.script.length < fuel
              omega)
      · have hbuf : b.toBuf.read n = (.got ((b.filled.drop b.consumed).take n),
            { b.toBuf with consumed := b.consumed + ((b.filled.drop b.consumed).take n).length }) := by
          unfold BufReader.read
          rw [if_neg (show ¬ b.toBuf.consumed = b.toBuf.filled.length from he)]
          rfl
        have hany : b.read Source.device n = (.ok ((b.filled.drop b.consumed).take n),
            { b with consumed := b.consumed + ((b.filled.drop b.consumed).take n).length }) := by
          unfold AnyReader.read
          rw [if_neg he]
        rw [hbuf]
        unfold AnyReader.readExactLoop
        rw [if_neg hn, hany]
        dsimp only
        by_cases hb : (b.filled.drop b.consumed).take n = []
        · rw [if_pos hb, if_pos hb]; rfl
        · rw [if_neg hb, if_neg hb]
          have := List.length_pos_iff.mpr hb
          exact ih fuel' _ _ { b with consumed := b.consumed + ((b.filled.drop b.consumed).take n).length } (by omega) (by
            show n - ((b.filled.drop b.consumed).take n).length + b.str.script.length < fuel
            omega)

theorem readExact_device (b : AnyReader Device) (n : Nat) :
    b.toBuf.readExact n = ((b.readExact Source.device n).1, (b.readExact Source.device n).2.toBuf) := by
  unfold BufReader.readExact AnyReader.readExact
  by_cases h : n ≤ b.filled.length - b.consumed
  · rw [if_pos h, if_pos (show n ≤ b.toBuf.filled.length - b.toBuf.consumed from h)]
    rfl
  · rw [if_neg h, if_neg (show ¬ n ≤ b.toBuf.filled.length - b.toBuf.consumed from h)]
    exact readExactLoop_device _ _ _ _ b (Nat.lt_succ_self _) (Nat.lt_succ_self _)

theorem seekStart_device (b : AnyReader Device) (p : Nat) :
    b.toBuf.seekStart p = ((b.seekStart Source.device p).1, (b.seekStart Source.device p).2.toBuf) := by
  unfold BufReader.seekStart AnyReader.seekStart
  show (match b.str.seekStart p with | (some kind, dev) => _ | (none, dev) => _) = _
  cases h : b.str.seekStart p with
  | mk r d =>
  rw [show Source.device.seekStart b.str p = _ from h]
  cases r <;> rfl

theorem seekCurrent_device (b : AnyReader Device) (o : Int) :
    b.toBuf.seekCurrent o = ((b.seekCurrent Source.device o).1, (b.seekCurrent Source.device o).2.toBuf) := by
  unfold BufReader.seekCurrent AnyReader.seekCurrent
  dsimp only
  by_cases hc : -(2 ^ 63) ≤ o - ((b.filled.length : Int) - b.consumed)
  · rw [if_pos hc, if_pos (show -(2 ^ 63) ≤ o - ((b.toBuf.filled.length : Int) - b.toBuf.consumed) from hc)]
    show (match b.str.seekCurrent (o - ((b.filled.length : Int) - b.consumed)) with | (some kind, dev) => _ | (none, dev) => _) = _
    cases h : b.str.seekCurrent (o - ((b.filled.length : Int) - b.consumed)) with
    | mk r d =>
    rw [show Source.device.seekCurrent b.str _ = _ from h]
    cases r <;> rfl
  · rw [if_neg hc, if_neg (show ¬ -(2 ^ 63) ≤ o - ((b.toBuf.filled.length : Int) - b.toBuf.consumed) from hc)]
    show (match b.str.seekCurrent (-((b.filled.length : Int) - b.consumed)) with | (some kind, dev) => _ | (none, dev) => _) = _
    cases h : b.str.seekCurrent (-((b.filled.length : Int) - b.consumed)) with
    | mk r d =>
    rw [show Source.device.seekCurrent b.str _ = _ from h]
    cases r with
    | some k => rfl
    | none =>
      dsimp only
      cases h2 : d.seekCurrent o with
      | mk r d =>
      rw [show Source.device.seekCurrent _ o = _ from h2]
      cases r <;> rfl

theorem seekRelative_device (b : AnyReader Device) (o : Int) :
    b.toBuf.seekRelative o = ((b.seekRelative Source.device o).1, (b.seekRelative Source.device o).2.toBuf) := by
  unfold BufReader.seekRelative AnyReader.seekRelative
  dsimp only
  by_cases hc : 0 ≤ (b.consumed : Int) + o ∧ (b.consumed : Int) + o ≤ b.filled.length
  · rw [if_pos hc, if_pos (show 0 ≤ (b.toBuf.consumed : Int) + o ∧ (b.toBuf.consumed : Int) + o ≤ b.toBuf.filled.length from hc)]
    rfl
  · rw [if_neg hc, if_neg (show ¬ (0 ≤ (b.toBuf.consumed : Int) + o ∧ (b.toBuf.consumed : Int) + o ≤ b.toBuf.filled.length) from hc)]
    exact seekCurrent_device b o

theorem run_device {α : Type} (x : Act α) : ∀ b : AnyReader Device,
    b.toBuf.run x = ((b.run Source.device x).1, (b.run Source.device x).2.toBuf) := by
  induction x with
  | ret a => intro b; rfl
  | stop e => intro b; rfl
  | exact n next ih =>
    intro b
    unfold BufReader.run AnyReader.run
    rw [readExact_device]
    cases b.readExact Source.device n with
    | mk r b' => cases r with
      | error e => rfl
      | ok bs => exact ih bs b'
  | move o next ih =>
    intro b
    unfold BufReader.run AnyReader.run
    rw [seekRelative_device]
    cases b.seekRelative Source.device o with
    | mk r b' => cases r with
      | some k => rfl
      | none => exact ih b'

theorem runProg_device {τ α : Type} (x : Prog τ α) : ∀ b : AnyReader Device,
    x.runBuf b.toBuf = ((b.runProg Source.device x).1, (b.runProg Source.device x).2.toBuf) := by
  induction x with
  | ret a => intro b; rfl
  | stop e => intro b; rfl
  | exact n next ih =>
    intro b
    unfold Prog.runBuf AnyReader.runProg
    rw [readExact_device]
    cases b.readExact Source.device n with
    | mk r b' => cases r with
      | error e => rfl
      | ok bs => exact ih bs b'
  | move o next ih =>
    intro b
    unfold Prog.runBuf AnyReader.runProg
    rw [seekRelative_device]
    cases b.seekRelative Source.device o with
    | mk r b' => cases r with
      | some k => rfl
      | none => exact ih b'
  | store s next ih =>
    intro b
    unfold Prog.runBuf AnyReader.runProg
    rw [ih b]

end AnyReader

namespace Source

theorem readSegment_device (al : Alloc) (capacity : Nat) (d : Device) :
    Source.device.readSegment al capacity d = d.readSegment al capacity := by
  unfold Source.readSegment Device.readSegment
  rw [show BufReader.new 0 d = (AnyReader.new 0 d).toBuf from rfl, AnyReader.readExact_device]
  cases (AnyReader.new 0 d).readExact Source.device 4 with
  | mk r b =>
  cases r with
  | error e =>
    cases e with
    | panic k => rfl
    | hang => rfl
    | err x =>
      cases x with
      | ioError kind => cases kind <;> rfl
      | _ => rfl
  | ok tag =>
    dsimp only
    by_cases ht : tag ≠ tdsmTag
    · rw [if_pos ht, if_pos ht]; rfl
    · rw [if_neg ht, if_neg ht, AnyReader.readExact_device]
      cases b.readExact Source.device 4 with
      | mk r b =>
      cases r with
      | error e => rfl
      | ok buf =>
        dsimp only
        rw [show BufReader.new capacity b.toBuf.dev = (AnyReader.new capacity b.str).toBuf from rfl, AnyReader.run_device]
        rfl

theorem openLoop_device (al : Alloc) (capacity : Nat) : ∀ (fuel : Nat) (ix : Index) (d : Device),
    Source.device.openLoop al capacity fuel ix d = d.openLoop al capacity fuel ix := by
  intro fuel
  induction fuel with
  | zero => intro ix d; rfl
  | succ fuel ih =>
    intro ix d
    unfold Source.openLoop Device.openLoop
    rw [readSegment_device]
    cases d.readSegment al capacity with
    | mk r d =>
    cases r with
    | error e =>
      cases e with
      | panic k => rfl
      | hang => rfl
      | err x => cases x <;> rfl
    | ok segment =>
      dsimp only
      cases ix.addSegment segment with
      | mk r ix =>
      cases r with
      | error e => rfl
      | ok next =>
        dsimp only
        rw [show Source.device.seekStart d next = d.seekStart next from rfl]
        cases d.seekStart next with
        | mk r d =>
        cases r with
        | some k => rfl
        | none => exact ih ix d

/-- More rounds make no difference to a loop that ends. -/
theorem openLoop_fuel {σ : Type} (F : Source σ) (al : Alloc) (capacity : Nat) : ∀ (fuel more : Nat) (ix : Index) (s : σ),
    (F.openLoop al capacity fuel ix s).1 ≠ .error .hang →
    F.openLoop al capacity (fuel + more) ix s = F.openLoop al capacity fuel ix s := by
  intro fuel
  induction fuel with
  | zero => intro more ix s h; exact absurd rfl h
  | succ fuel ih =>
    intro more ix s h
    rw [show fuel + 1 + more = fuel + more + 1 by omega]
    unfold Source.openLoop at h ⊢
    revert h
    cases F.readSegment al capacity s with
    | mk r s =>
    cases r with
    | error e =>
      intro _
      cases e with
      | panic k => rfl
      | hang => rfl
      | err x => cases x <;> rfl
    | ok segment =>
      dsimp only
      cases ix.addSegment segment with
      | mk r ix =>
      cases r with
      | error e => intro _; rfl
      | ok next =>
        dsimp only
        cases F.seekStart s next with
        | mk r s =>
        cases r with
        | some k => intro _; rfl
        | none => exact ih more ix s

theorem runner_device {α : Type} (capacity : Nat) : (Source.device.runner capacity : Runner Device α) = Runner.stream capacity := by
  funext start a d
  unfold Source.runner Runner.stream
  rw [show BufReader.new capacity d = (AnyReader.new capacity d).toBuf from rfl, AnyReader.seekStart_device]
  cases (AnyReader.new capacity d).seekStart Source.device start with
  | mk r b =>
  cases r with
  | some k => rfl
  | none =>
    dsimp only
    rw [AnyReader.runProg_device]
    rfl

end Source
end Tedium
