import Verif.Spec.Changing
import Verif.Proofs.Ones
import Verif.Props.ReadBack
import Verif.Props.Reopen

/-! # Properties: exactly which histories can be reopened (C32) -/

namespace Tedium
open SegSpec WriteSpec

theorem changing_described (al : Alloc) : ∀ (ops : List Op) (last : Last), Changing last ops → Described al last ops
  | [], _, _ => trivial
  | .props .. :: ops, last, h => changing_described al ops last h
  | .write .. :: ops, _, h => ⟨Or.inl h.1, changing_described al ops _ h.2⟩

theorem changing_shape {ops ops' : List Op} (h : SameShape ops ops') : ∀ last, Changing last ops → Changing last ops' := by
  induction h with
  | nil => exact fun _ h => h
  | props _ ih => exact fun last hc => ih _ hc
  | @write e ty channels vals vals' layout ops ops' hv _ ih =>
    rintro last ⟨hd, hc⟩
    refine ⟨hd, ?_⟩
    have : last.after (.write e ty channels vals' layout) = last.after (.write e ty channels vals layout) := by
      unfold Last.after
      dsimp only
      rw [hv]
    rw [this]
    exact ih _ hc

theorem changing_take : ∀ (ops : List Op) (last : Last) (n : Nat), Changing last ops → Changing last (ops.take n)
  | [], _, n, _ => by rw [List.take_nil]; trivial
  | .props .. :: _, _, 0, _ => trivial
  | .write .. :: _, _, 0, _ => trivial
  | .props .. :: ops, _, n + 1, h => changing_take ops _ n h
  | .write .. :: ops, _, n + 1, h => ⟨h.1, changing_take ops _ n h.2⟩

/-- The first data write that does not change the list. -/
theorem first_repeat : ∀ (ops : List Op) (last : Last), ¬ Changing last ops →
    ∃ pre e ty channels vals layout post, ops = pre ++ Op.write e ty channels vals layout :: post ∧
      Changing last pre ∧ ¬ Diverges (pre.foldl Last.after last).channels (channels.map ChannelPath.path)
  | [], _, h => absurd trivial h
  | .props e path ps :: ops, last, h => by
    obtain ⟨pre, e', ty, chs, vals, layout, post, h1, h2, h3⟩ := first_repeat ops last h
    exact ⟨.props e path ps :: pre, e', ty, chs, vals, layout, post, by rw [h1]; rfl, h2, h3⟩
  | .write e ty chs vals layout :: ops, last, h => by
    by_cases hd : Diverges last.channels (chs.map ChannelPath.path)
    · obtain ⟨pre, e', ty', chs', vals', layout', post, h1, h2, h3⟩ :=
        first_repeat ops (last.after (.write e ty chs vals layout)) (fun hc => h ⟨hd, hc⟩)
      exact ⟨.write e ty chs vals layout :: pre, e', ty', chs', vals', layout', post, by rw [h1]; rfl, ⟨hd, h2⟩, h3⟩
    · exact ⟨[], e, ty, chs, vals, layout, ops, rfl, trivial, hd⟩

theorem opfits_sized {ops : List Op} (hfit : ∀ op ∈ ops, OpFits op) :
    ∀ e ty channels vals layout, Op.write e ty channels vals layout ∈ ops → SizedTy ty :=
  fun e ty channels vals layout hm => (hfit (.write e ty channels vals layout) hm).1

/-- Whether the calls succeed is a matter of the shape. -/
theorem allSucceed_shape (al : Alloc) {ops ops' : List Op} (h : SameShape ops ops')
    (hs : ∀ e ty channels vals layout, Op.write e ty channels vals layout ∈ ops → SizedTy ty) :
    ∀ t t' : TdmsFile, t'.index = t.index → t'.bytes.length = t.bytes.length →
      AllSucceed al t ops → AllSucceed al t' ops' := by
  induction h with
  | nil => intro t t' _ _ _ pre op post h; cases pre <;> cases h
  | @props e path properties ops ops' _ ih =>
    intro t t' hi hb hall
    rw [allSucceed_cons] at hall ⊢
    have h1 : (t'.writeProperties e path properties).1 = (t.writeProperties e path properties).1 := by
      unfold TdmsFile.writeProperties
      dsimp only
      rw [hi]
    refine ⟨h1.trans hall.1,
      ih (fun e ty channels vals layout h => hs _ _ _ _ _ (List.mem_cons_of_mem _ h)) _ _ ?_ ?_ hall.2⟩
    · show ((t'.writeProperties e path properties).2).index = ((t.writeProperties e path properties).2).index
      unfold TdmsFile.writeProperties
      dsimp only
      rw [hi]
    · show ((t'.writeProperties e path properties).2).bytes.length = ((t.writeProperties e path properties).2).bytes.length
      unfold TdmsFile.writeProperties
      dsimp only
      rw [List.length_append, List.length_append, hb]
  | @write e ty channels vals vals' layout ops ops' hv _ ih =>
    intro t t' hi hb hall
    rw [allSucceed_cons] at hall ⊢
    obtain ⟨h0, h1, h2⟩ := writeChannels_shape al ty (hs _ _ _ _ _ List.mem_cons_self) e hi hb channels hv layout
    exact ⟨h0.trans hall.1,
      ih (fun e ty channels vals layout h => hs _ _ _ _ _ (List.mem_cons_of_mem _ h)) _ _ h1 h2 hall.2⟩

theorem opfits_shape {ops ops' : List Op} (h : SameShape ops ops') (hf : ∀ op ∈ ops, OpFits op) :
    ∀ op ∈ ops', OpFits op := by
  induction h with
  | nil => exact hf
  | props _ ih =>
    intro op hop
    rcases List.mem_cons.mp hop with rfl | hop
    · exact hf _ List.mem_cons_self
    · exact ih (fun o ho => hf o (List.mem_cons_of_mem _ ho)) op hop
  | @write e ty channels vals vals' layout ops ops' hv _ ih =>
    intro op hop
    rcases List.mem_cons.mp hop with rfl | hop
    · exact hf (.write e ty channels vals layout) List.mem_cons_self
    · exact ih (fun o ho => hf o (List.mem_cons_of_mem _ ho)) op hop

theorem distinct_shape {ops ops' : List Op} (h : SameShape ops ops') (hf : ∀ op ∈ ops, Distinct op) :
    ∀ op ∈ ops', Distinct op := by
  induction h with
  | nil => exact hf
  | props _ ih =>
    intro op hop
    rcases List.mem_cons.mp hop with rfl | hop
    · exact hf _ List.mem_cons_self
    · exact ih (fun o ho => hf o (List.mem_cons_of_mem _ ho)) op hop
  | @write e ty channels vals vals' layout ops ops' hv _ ih =>
    intro op hop
    rcases List.mem_cons.mp hop with rfl | hop
    · exact hf (.write e ty channels vals layout) List.mem_cons_self
    · exact ih (fun o ho => hf o (List.mem_cons_of_mem _ ho)) op hop

theorem allSucceed_append {al : Alloc} {t : TdmsFile} {a b : List Op} (h : AllSucceed al t (a ++ b)) :
    AllSucceed al t a ∧ AllSucceed al (runOps al t a) b := by
  constructor
  · intro pre op post hh
    exact h pre op (post ++ b) (by rw [hh]; simp)
  · intro pre op post hh
    have := h (a ++ pre) op post (by rw [hh]; simp)
    rw [runOps_append] at this
    exact this

/-- A data write that does not change the channel list, of values that are stored as ones, leaves a file that
    cannot be opened as it is. -/
theorem ones_not_reopened (al : Alloc) (hal : Generous al) {fs : List FileSegment} {t : TdmsFile} (h : Holds fs t)
    (e : Endian) (ty : STy) (chs : List ChannelPath) (vals : List ty.Val) (layout : DataLayout)
    (hones : ∀ v ∈ vals, ∀ x ∈ (ty.storage al).write e v, x = 1)
    (hd : ¬ Diverges (t.index.activeObjects.map (·.path)) (chs.map ChannelPath.path))
    (hok : (t.writeChannels (ty.storage al) e chs vals layout).1 = .ok ()) :
    TdmsFile.new al (t.writeChannels (ty.storage al) e chs vals layout).2.bytes
      ≠ .ok (t.writeChannels (ty.storage al) e chs vals layout).2 := by
  have hne : chs ≠ [] := by
    intro hh
    rw [(rejected_arguments _ e t chs vals layout).1 hh] at hok
    cases hok
  have hdiv : chs.length ∣ vals.length := by
    apply Decidable.byContradiction
    intro hh
    rw [(rejected_arguments _ e t chs vals layout).2 hne hh] at hok
    cases hok
  obtain ⟨s, bs, heq, _, _, _, _, hmd, _, _, hlen, toc, htoc⟩ :=
    writeChannels_segment (ty.storage al) e t chs vals layout hne hdiv
  have hm := hmd.mpr hd
  rw [hm] at htoc
  obtain ⟨hdr, hw, hhdr⟩ := writeSegment_header (e := e) toc none (some (TdmsFile.sliceData (ty.storage al) e vals))
  have hbs : bs = hdr ++ vals.flatMap ((ty.storage al).write e) := (congrArg Prod.snd htoc).trans hw
  rw [heq] at hok ⊢
  dsimp only at hok ⊢
  obtain ⟨n, hn⟩ := addSegment_map_ok hok
  have hnext := addSegment_next (Prod.ext hn rfl : t.index.addSegment s = (.ok n, (t.index.addSegment s).2))
  intro hopen
  have hdrop : Ones (t.bytes ++ bs) (t.bytes.length + 28) := by
    intro x hx
    rw [← List.drop_drop, List.drop_left, hbs, show (28 : Nat) = hdr.length from hhdr.symm, List.drop_left] at hx
    obtain ⟨v, hv, hxv⟩ := List.mem_flatMap.mp hx
    exact hones v hv x hxv
  obtain ⟨last, hlast⟩ := Ones.segment (al := al) hdrop
  rw [h.bytes] at hlast
  have hp := FileSegment.parses_done al hal fs h.fits bs hlast
  rw [← h.bytes] at hp
  obtain ⟨_, segs, hs1, hs2⟩ := (open_is_replay al _ _).mp hopen
  have hsegs := (hp.unique hs1).1
  rw [← hsegs, h.index] at hs2
  have := congrArg Index.nextSegmentStart (Except.ok.inj hs2)
  dsimp only at this
  rw [hnext.2.1, hnext.1] at this
  omega

/-- **C32, the guard is exact.** Take any calls on a new file that succeed. The file can be reopened after
    every one of them, whatever the values that are written, exactly if every data write changes the list of
    channels, i.e. differs from the list in force at a position that both lists have. (Not for extended
    floats and strings, which `OpFits` excludes.) -/
theorem reopens_iff (al : Alloc) (hal : Generous al) {t : TdmsFile} (hcreate : TdmsFile.create al = .ok t)
    (ops : List Op) (hall : AllSucceed al t ops) (hdist : ∀ op ∈ ops, Distinct op)
    (hfit : ∀ op ∈ ops, OpFits op) (hsz : (runOps al t ops).bytes.length < 2 ^ 64) :
    (∀ ops', SameShape ops ops' → ReopensThroughout al t ops') ↔ Changing Last.none ops := by
  have hsized := opfits_sized hfit
  constructor
  · intro hre
    apply Classical.byContradiction
    intro hc
    obtain ⟨pre, e, ty, chs, vals, layout, post, hops, hpre, hd⟩ := first_repeat ops Last.none hc
    have hty : SizedTy ty := hsized e ty chs vals layout (by rw [hops]; simp)
    obtain ⟨v, hv⟩ := STy.ones al (ty := ty) hty.2
    let vals' : List ty.Val := List.replicate vals.length v
    have hshape : SameShape ops (pre ++ Op.write e ty chs vals' layout :: post) := by
      rw [hops]
      exact sameShape_append (sameShape_refl pre) (.write List.length_replicate (sameShape_refl post))
    have hall' := allSucceed_shape al hshape hsized t t rfl rfl hall
    have hfit' := opfits_shape hshape hfit
    have hdist' := distinct_shape hshape hdist
    have hsz' : (runOps al t (pre ++ Op.write e ty chs vals' layout :: post)).bytes.length < 2 ^ 64 := by
      rw [(runOps_shape al hshape hsized t t rfl rfl).2]
      exact hsz
    have hpsz : (runOps al t pre).bytes.length < 2 ^ 64 := by
      rw [runOps_append] at hsz'
      exact Nat.lt_of_le_of_lt (runOps_bytes al _ _).length_le hsz'
    obtain ⟨hallp, hallw⟩ := allSucceed_append hall'
    rw [allSucceed_cons] at hallw
    have ht := created_eq hcreate
    have hses : Session al t := .created hcreate
    have hholds : Holds [] t := by
      rw [ht]
      exact ⟨fun _ h => (by cases h), rfl, rfl⟩
    have hdp : ∀ op ∈ pre, Distinct op := fun op ho => hdist' op (List.mem_append_left _ ho)
    have hact : Last.none.channels = t.index.activeObjects.map (·.path) := by rw [ht]; rfl
    obtain ⟨fs, hfs⟩ := reads_history al pre [] t Last.none hholds hses hact hallp hdp
      (fun op ho => hfit' op (List.mem_append_left _ ho)) (changing_described al pre _ hpre) hpsz
    have hforce := active_in_force al pre t Last.none hses hact hdp hallp
    have := hre _ hshape (pre.length + 1)
    rw [show (pre ++ Op.write e ty chs vals' layout :: post).take (pre.length + 1)
      = pre ++ [Op.write e ty chs vals' layout] by
        rw [List.take_append, List.take_of_length_le (Nat.le_succ _), Nat.add_sub_cancel_left]; rfl, runOps_append] at this
    refine ones_not_reopened al hal hfs e ty chs vals' layout ?_ ?_ hallw.1 this
    · intro w hw x hx
      rw [List.eq_of_mem_replicate hw] at hx
      exact hv e x hx
    · rw [← hforce]
      exact hd
  · intro hc ops' hshape n
    have hall' := allSucceed_shape al hshape hsized t t rfl rfl hall
    have hfit' := opfits_shape hshape hfit
    have hdist' := distinct_shape hshape hdist
    have hsz' : (runOps al t ops').bytes.length < 2 ^ 64 := by
      rw [(runOps_shape al hshape hsized t t rfl rfl).2]
      exact hsz
    refine reopen_partial al hal hcreate (ops'.take n) ?_ (fun op ho => hdist' op (List.mem_of_mem_take ho))
      (fun op ho => hfit' op (List.mem_of_mem_take ho))
      (changing_described al _ _ (changing_take _ _ n (changing_shape hshape _ hc)))
      (Nat.lt_of_le_of_lt (runOps_take_bytes al t ops' n) hsz')
    rw [← List.take_append_drop n ops'] at hall'
    exact (allSucceed_append hall').1

theorem allSucceed_of_allOk {ops : List Op} (h : allOk ops = true) : AllSucceed anyAlloc ⟨Index.new, []⟩ ops := by
  intro pre op post hops
  have h1 := List.all_eq_true.mp h pre.length (List.mem_range.mpr (by rw [hops]; simp))
  have h2 : ops[pre.length]? = some op := by rw [hops]; simp
  have h3 : ops.take pre.length = pre := by rw [hops]; simp
  rw [h2, h3] at h1
  exact of_decide_eq_true h1

/-- A history whose data writes all change the list: two channels, a property, another channel, the two again. -/
def changingOps : List Op :=
  [writeU16 ["a", "b"] [1, 2, 3, 4],
   .props .big (.group "g".toList) [("n".toList, .i32 5)],
   writeU16 ["c"] [5, 6, 7],
   writeU16 ["a", "b"] [8, 9]]

/-- The hypotheses of `reopens_iff` hold for it, and so do both sides. -/
theorem reopens_iff_example :
    AllSucceed anyAlloc ⟨Index.new, []⟩ changingOps ∧ (∀ op ∈ changingOps, Distinct op) ∧
    (∀ op ∈ changingOps, OpFits op) ∧ (session changingOps).bytes.length < 2 ^ 64 ∧
    Changing Last.none changingOps := by
  refine ⟨allSucceed_of_allOk (by decide +kernel), ?_, ?_, by decide +kernel, ?_⟩
  · intro op hop
    simp only [changingOps, List.mem_cons, List.not_mem_nil, or_false] at hop
    rcases hop with rfl | rfl | rfl | rfl
    rotate_left
    · exact True.intro
    all_goals
      show List.Nodup _
      decide +kernel
  · intro op hop
    simp only [changingOps, List.mem_cons, List.not_mem_nil, or_false] at hop
    rcases hop with rfl | rfl | rfl | rfl
    rotate_left
    · refine ⟨(show (utf8Enc _).length < 2 ^ 32 by decide +kernel), by decide, ?_⟩
      intro p hp
      rw [List.mem_singleton.mp hp]
      exact ⟨(show (utf8Enc _).length < 2 ^ 32 by decide +kernel), trivial⟩
    all_goals
      refine ⟨⟨by decide, by decide⟩, by decide, ?_⟩
      unfold Text.Fits
      decide +kernel
  · exact ⟨by decide +kernel, by decide +kernel, by decide +kernel, trivial⟩

/-- ... and for one of which the second data write repeats the list (`reopen_repeated_counterexample` shows
    values for which the file cannot be opened). -/
theorem reopens_iff_repeat :
    let ops := [writeU16 ["a"] [1, 2], writeU16 ["a"] [3, 4]]
    AllSucceed anyAlloc ⟨Index.new, []⟩ ops ∧ (∀ op ∈ ops, Distinct op) ∧
    (∀ op ∈ ops, OpFits op) ∧ (session ops).bytes.length < 2 ^ 64 ∧ ¬ Changing Last.none ops := by
  refine ⟨allSucceed_of_allOk (by decide +kernel), ?_, ?_, by decide +kernel, ?_⟩
  · intro op hop
    simp only [List.mem_cons, List.not_mem_nil, or_false] at hop
    rcases hop with rfl | rfl <;> (show List.Nodup _; decide +kernel)
  · intro op hop
    simp only [List.mem_cons, List.not_mem_nil, or_false] at hop
    rcases hop with rfl | rfl <;> exact ⟨⟨by decide, by decide⟩, by decide, by unfold Text.Fits; decide +kernel⟩
  · rintro ⟨_, h, _⟩
    revert h
    decide +kernel

end Tedium
