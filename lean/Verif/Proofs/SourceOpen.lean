import Verif.Proofs.SourceDevice
import Verif.Props.Verdict

/-! # Opening a stream of which nothing is known -/

namespace Tedium
open SegSpec

theorem readSegment_sat {σ : Type} (F : Source σ) (al : Alloc) (capacity : Nat) (s : σ) :
    R.Sat (F.readSegment al capacity s).1 PlainSegment := by
  unfold Source.readSegment
  have h1 := AnyReader.readExact_sat (F := F) (AnyReader.new 0 s) 4
  cases hr : (AnyReader.new 0 s).readExact F 4 with
  | mk r b =>
  rw [hr] at h1
  rcases h1 with ⟨tag, ht, _⟩ | ⟨e, he⟩
  · dsimp only at ht; subst ht
    dsimp only
    split
    · exact Or.inr ⟨_, rfl⟩
    · have h2 := AnyReader.readExact_sat (F := F) b 4
      cases hr2 : b.readExact F 4 with
      | mk r b =>
      rw [hr2] at h2
      rcases h2 with ⟨buf, hb, _⟩ | ⟨e, he⟩
      · dsimp only at hb; subst hb
        dsimp only
        have h3 := AnyReader.run_sat (F := F) (E := fun e => ∃ x, e = .err x) (fun e => ⟨e, rfl⟩)
          (Act.Sat.segment (fun e => ⟨e, rfl⟩) al (if (ToC.fromU32 (decNat .little buf)).bigEndian then .big else .little)
            (ToC.fromU32 (decNat .little buf))) (AnyReader.new capacity b.str)
        rcases h3 with ⟨a, ha, hp⟩ | ⟨e, he, x, rfl⟩
        · exact Or.inl ⟨a, ha, hp⟩
        · exact Or.inr ⟨x, he⟩
      · dsimp only at he; subst he; exact Or.inr ⟨e, rfl⟩
  · dsimp only at he; subst he
    cases e with
    | ioError kind => cases kind <;> exact Or.inr ⟨_, rfl⟩
    | _ => exact Or.inr ⟨_, rfl⟩

/-- An accepted segment ends below address `2 ^ 64`. -/
theorem verdict_below {segs : List Segment} {s : Segment} {n : Nat} (h : verdict segs s = .ok n) : n < u64Lim := by
  have hlim : u64Lim = 2 ^ 64 := rfl
  unfold verdict at h
  dsimp only at h
  repeat (split at h; · cases h)
  cases h
  omega

/-- The loop: the segments that were read, and what ended it. -/
theorem openLoop_any {σ : Type} (F : Source σ) (al : Alloc) (capacity : Nat) : ∀ (fuel : Nat) (done : List Segment) (ix : Index) (s : σ),
    replay Index.new done = .ok ix → ix.nextSegmentStart < u64Lim → u64Lim < ix.nextSegmentStart + leadInBytes * fuel →
    ∃ segs e, (∀ s ∈ segs, PlainSegment s) ∧ (F.openLoop al capacity fuel ix s).1 = openResult Index.new (done ++ segs) (.err e) := by
  intro fuel
  induction fuel with
  | zero => intro done ix s _ h1 h2; omega
  | succ fuel ih =>
    intro done ix s hdone hlt hfuel
    have hstop : ∀ e : TdmsError, ∃ segs x, (∀ s ∈ segs, PlainSegment s) ∧ (if (Fail.err e) = .err .endOfFile then (.ok ix : R Index) else .error (.err e))
        = openResult Index.new (done ++ segs) (.err x) := by
      intro e
      refine ⟨[], e, nofun, ?_⟩
      unfold openResult
      rw [List.append_nil, hdone]
    unfold Source.openLoop
    have hseg := readSegment_sat F al capacity s
    cases hr : F.readSegment al capacity s with
    | mk r s' =>
    rw [hr] at hseg
    rcases hseg with ⟨seg, hs, hpl⟩ | ⟨e, he⟩
    case inr =>
      dsimp only at he; subst he
      obtain ⟨segs, x, hpl, hx⟩ := hstop e
      refine ⟨segs, x, hpl, ?_⟩
      rw [← hx]
      by_cases hee : e = .endOfFile
      · subst hee; rfl
      · rw [if_neg (by intro h; cases h; exact hee rfl)]
        cases e <;> first | rfl | exact absurd rfl hee
    dsimp only at hs; subst hs
    dsimp only
    have hv := segment_verdict hdone seg
    have hinv := (replay_refines hdone).inv.addSegment seg
    cases hadd : ix.addSegment seg with
    | mk r ix' =>
    rw [hadd] at hv hinv
    cases r with
    | error e =>
      refine ⟨[seg], .endOfFile, fun x hx => by rw [List.mem_singleton.mp hx]; exact hpl, ?_⟩
      unfold openResult
      rw [replay_append, hdone]
      have : replay ix [seg] = .error e := by unfold replay; rw [hadd]
      show _ = match (replay ix [seg] : R Index) with
        | .error e => (.error e : R Index)
        | .ok ix => if _ then .ok ix else .error _
      rw [this]
    | ok next =>
      have hnext : replay Index.new (done ++ [seg]) = .ok ix' := by
        rw [replay_append, hdone]
        show (match ix.addSegment seg with | (.error e, _) => Except.error e | (.ok _, ix) => Except.ok ix) = _
        rw [hadd]
      dsimp only at hv hinv ⊢
      have hbelow := verdict_below hv.symm
      have hstart : ix'.nextSegmentStart = next ∧ next = ix.nextSegmentStart + (seg.nextSegmentOffset + leadInBytes) := by
        rcases hinv.2 with ⟨n, h1, h2, h3⟩ | ⟨e, h1, _⟩
        · cases h1; exact ⟨h3, h2⟩
        · cases h1
      cases F.seekStart s' next with
      | mk r s'' =>
      cases r with
      | some k =>
        refine ⟨[seg], .endOfFile, fun x hx => by rw [List.mem_singleton.mp hx]; exact hpl, ?_⟩
        unfold openResult
        rw [hnext]
        exact (if_pos rfl).symm
      | none =>
        obtain ⟨segs, e, hps, h⟩ := ih (done ++ [seg]) ix' s'' hnext (by omega) (by
          have : leadInBytes * (fuel + 1) = leadInBytes * fuel + leadInBytes := Nat.mul_succ _ _
          omega)
        refine ⟨seg :: segs, e, fun x hx => ?_, by rw [h, List.append_assoc]; rfl⟩
        rcases List.mem_cons.mp hx with rfl | hx
        · exact hpl
        · exact hps x hx

theorem buildIndex_any {σ : Type} (F : Source σ) (al : Alloc) (capacity : Nat) (s : σ) :
    ∃ segs e, (∀ s ∈ segs, PlainSegment s) ∧ (F.buildIndex al capacity s).1 = openResult Index.new segs (.err e) := by
  unfold Source.buildIndex
  cases F.seekStart s 0 with
  | mk r s =>
  cases r with
  | some k =>
    refine ⟨[], .ioError k, nofun, ?_⟩
    unfold openResult
    show _ = if _ then _ else _
    rw [if_neg (by intro h; cases h)]
  | none => exact openLoop_any F al capacity _ [] Index.new s rfl (by decide) (by decide)

/-- What is known of an index that was made from any stream. -/
theorem buildIndex_any_ok {σ : Type} {F : Source σ} {al : Alloc} {capacity : Nat} {s : σ} {ix : Index}
    (h : (F.buildIndex al capacity s).1 = .ok ix) :
    ∃ segs, (∀ s ∈ segs, PlainSegment s) ∧ replay Index.new segs = .ok ix := by
  obtain ⟨segs, e, hp, h1⟩ := buildIndex_any F al capacity s
  rw [h] at h1
  unfold openResult at h1
  cases hr : replay Index.new segs with
  | error e => rw [hr] at h1; cases h1
  | ok ix' =>
    rw [hr] at h1
    dsimp only at h1
    split at h1
    · cases h1; exact ⟨segs, hp, hr⟩
    · cases h1

theorem sized_any {σ : Type} {F : Source σ} {al : Alloc} {capacity : Nat} {s : σ} {ix : Index}
    (h : (F.buildIndex al capacity s).1 = .ok ix) {c : ChannelPath} {ls : List DataLocation}
    (hls : ix.getChannelDataPositions c = some ls) : SizedAt ⟨ix, []⟩ ls := by
  obtain ⟨segs, hp, hr⟩ := buildIndex_any_ok h
  exact sized_of_plain (t := ⟨ix, []⟩) (Plain.new.replay hp hr) (replay_refines hr).inv hls

end Tedium
