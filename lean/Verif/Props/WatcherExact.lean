import Verif.Props.LibraryExact
import Verif.Props.Watcher

/-! # C92: which histories can be watched, exactly -/

namespace Tedium
open SegSpec WriteSpec Library

namespace Library

/-- Tables that all change the list of channels follow one another as in C31. -/
theorem changing_compatible : ∀ (ops : List Op) (last : Last),
    (∀ e ty channels vals layout, Op.write e ty channels vals layout ∈ ops → Table ty channels vals) → Changing last ops →
    Compatible last ops
  | [], _, _, _ => trivial
  | .props .. :: ops, last, ht, h =>
    ⟨trivial, changing_compatible ops last (fun e ty chs vals layout hm => ht e ty chs vals layout (List.mem_cons_of_mem _ hm)) h⟩
  | .write .. :: ops, _, ht, h =>
    ⟨⟨ht _ _ _ _ _ List.mem_cons_self, Or.inl h.1⟩,
      changing_compatible ops _ (fun e ty chs vals layout hm => ht e ty chs vals layout (List.mem_cons_of_mem _ hm)) h.2⟩

/-- The whole file, and nothing more to come. -/
def whole (bytes : Bytes) : Growing := ⟨⟨bytes, 0, []⟩, []⟩

theorem whole_later {bytes : Bytes} {g : Growing} (h : (whole bytes).Later g) : g.contents = bytes ∧ g.growth = [] := by
  obtain ⟨now, h1, h2⟩ := h
  obtain ⟨rfl, h3⟩ := List.append_eq_nil_iff.mp h1.symm
  exact ⟨h2.trans (List.append_nil _), h3⟩

/-- A program that opens the complete file and asks: what `Views` says of it. -/
theorem watched_whole (al : Alloc) {ops : List Op} (hsz : (runOps al ⟨Index.new, []⟩ ops).bytes.length < 2 ^ 64)
    (q : Query)
    (h : Views al ops 0 (glimpses al 0 Index.new (whole (runOps al ⟨Index.new, []⟩ ops).bytes) [.reopen, .ask q])) :
    ∃ t, TdmsFile.new al (runOps al ⟨Index.new, []⟩ ops).bytes = .ok t ∧ (storeOf ops).Answers al q (q.run al t) := by
  obtain ⟨bytes, hbytes⟩ : ∃ bytes, bytes = (runOps al ⟨Index.new, []⟩ ops).bytes := ⟨_, rfl⟩
  rw [← hbytes] at h hsz ⊢
  have hb : bytesAfter al ops ops.length = bytes.length := by
    unfold bytesAfter
    rw [List.take_length, hbytes]
  have htotal : (whole bytes).total = bytes.length := rfl
  obtain ⟨r, g', h1, h2, h3, h4⟩ := open_while_growing al 0 (whole bytes) (by rw [htotal]; exact hsz) nofun
  obtain ⟨hc, hg⟩ := whole_later h2
  rw [hc] at h4
  unfold glimpses Glance.run at h
  dsimp only at h
  rw [h1] at h
  have hfin : ∀ k, k ≤ ops.length → (∀ j, j ≤ ops.length → (bytesAfter al ops j ≤ g'.contents.length ↔ j ≤ k)) →
      found al ops g'.contents.length k = some ops.length := by
    intro k hk hiff
    have : k = ops.length := Nat.le_antisymm hk ((hiff _ (Nat.le_refl _)).mp (by rw [hb, hc]; exact Nat.le_refl _))
    subst this
    unfold found
    rw [List.getElem?_eq_none (Nat.le_refl _)]
  cases r with
  | error e =>
    obtain ⟨k, hk, hiff, h⟩ := h
    dsimp only at hiff h
    rw [hfin k hk hiff] at h
    cases h.1
  | ok ix =>
    obtain ⟨k, hk, hiff, h⟩ := h
    dsimp only at hiff h
    rw [hfin k hk hiff] at h
    have hobt : Obtained al ix := Or.inl ⟨0, whole bytes, by rw [h1]⟩
    have htot' : g'.total = bytes.length := by
      unfold Growing.total
      rw [hg]
      show g'.contents.length + 0 = _
      rw [hc, Nat.add_zero]
    obtain ⟨g'', e1, e2, _⟩ := Query.runGrowing_eq 0 hobt (g := g') (by rw [htot']; exact hsz) h3 q
    have hc' : g''.contents = bytes := by
      obtain ⟨now, d1, d2⟩ := e2
      rw [hg] at d1
      obtain ⟨rfl, _⟩ := List.append_eq_nil_iff.mp d1.symm
      rw [d2, hc]
      exact List.append_nil _
    have hv := h.2.2
    unfold glimpses Glance.run at hv
    dsimp only at hv
    rw [e1] at hv
    have hv := hv.1
    rw [List.take_length, hc'] at hv
    refine ⟨⟨ix, bytes⟩, ?_, ?_⟩
    · unfold TdmsFile.new
      rw [← h4]
      rfl
    · rcases hv with hv | ⟨_, hlt, _⟩
      · exact hv
      · exact absurd hlt (by rw [hb]; exact Nat.lt_irrefl _)

/-- A history of tables whose file can be opened and has as many samples as were written, at every point and for all values. -/
theorem changing_of_lengths (al : Alloc) (hal : Generous al) (ops : List Op) (htabs : Tables ops) (hfit : ∀ op ∈ ops, OpFits op)
    (hsz : (runOps al ⟨Index.new, []⟩ ops).bytes.length < 2 ^ 63)
    (h : ∀ ops' n, SameShape ops ops' → ∀ c, ∃ t, TdmsFile.new al (runOps al ⟨Index.new, []⟩ (ops'.take n)).bytes = .ok t ∧
      (storeOf (ops'.take n)).Answers al (.length c) ((Query.length c).run al t)) : Changing Last.none ops := by
  have hsized := opfits_sized hfit
  refine Classical.byContradiction fun hc => ?_
  obtain ⟨pre, e, ty, chs, vals, layout, post, hops, hpre, hd⟩ := first_repeat ops Last.none hc
  have hmemw : Op.write e ty chs vals layout ∈ ops := by rw [hops]; simp
  have hty : SizedTy ty := hsized e ty chs vals layout hmemw
  obtain ⟨v, hv⟩ := STy.ones al (ty := ty) hty.2
  obtain ⟨vals', hvals'⟩ : ∃ vals' : List ty.Val, vals' = List.replicate vals.length v := ⟨_, rfl⟩
  have hshape : SameShape ops (pre ++ Op.write e ty chs vals' layout :: post) := by
    rw [hops]
    exact sameShape_append (sameShape_refl pre) (.write (by rw [hvals', List.length_replicate]) (sameShape_refl post))
  have htake : (pre ++ Op.write e ty chs vals' layout :: post).take (pre.length + 1)
      = pre ++ [Op.write e ty chs vals' layout] := by
    rw [List.take_append, List.take_of_length_le (Nat.le_succ _), Nat.add_sub_cancel_left]; rfl
  have htab' := tables_shape hshape htabs.tables
  have hsub : ∀ o ∈ pre ++ [Op.write e ty chs vals' layout], o ∈ pre ++ Op.write e ty chs vals' layout :: post := by
    rw [← htake]
    exact fun o => List.mem_of_mem_take
  have htabw : Table ty chs vals' := htab' e ty chs vals' layout (hsub _ (List.mem_append_right _ (List.mem_singleton.mpr rfl)))
  obtain ⟨c, hc0⟩ := List.exists_mem_of_ne_nil _ htabw.some_channel
  have hcount := count_grows (e := e) (layout := layout) (pre := pre) htabw
    (fun a ha b hb => shape_types hshape htabs.types a (hsub a ha) b (hsub b hb)) hc0
  have hpsz : (runOps al ⟨Index.new, []⟩ pre).bytes.length < 2 ^ 63 := by
    have h1 : (runOps al ⟨Index.new, []⟩ pre).bytes.length ≤ (runOps al ⟨Index.new, []⟩ ops).bytes.length := by
      rw [hops, runOps_append]
      exact (runOps_bytes al _ _).length_le
    omega
  have hcompp : Compatible Last.none pre := changing_compatible pre _
    (fun e ty chs vals layout hm => htab' e ty chs vals layout (List.mem_append_left _ hm)) hpre
  have hallp := (holds_history al pre hcompp hpsz).1
  have hfit' := opfits_shape hshape hfit
  have hdist' : ∀ op ∈ pre, Distinct op := by
    intro op ho
    cases op with
    | props => trivial
    | write e ty chs vals layout => exact (htab' _ _ _ _ _ (List.mem_append_left _ ho)).distinct
  have hses : Session al ⟨Index.new, []⟩ := .created rfl
  obtain ⟨fs, hfs⟩ := reads_history al pre [] ⟨Index.new, []⟩ Last.none ⟨fun _ h => (by cases h), rfl, rfl⟩ hses rfl hallp hdist'
    (fun op ho => hfit' op (List.mem_append_left _ ho)) (changing_described al pre _ hpre) (by omega)
  have hforce := active_in_force al pre ⟨Index.new, []⟩ Last.none hses rfl hdist' hallp
  obtain ⟨t1, ho1, ha1⟩ := h ops pre.length (sameShape_refl ops) c
  rw [hops, List.take_left' rfl] at ho1 ha1
  rw [hfs.new al hal] at ho1
  obtain rfl : runOps al ⟨Index.new, []⟩ pre = t1 := Except.ok.inj ho1
  obtain ⟨t2, ho2, ha2⟩ := h _ (pre.length + 1) hshape c
  rw [htake] at ho2 ha2
  rw [runOps_append] at ho2
  have hidx := ones_forgotten al hal hfs e ty chs vals' layout (by
    intro w hw x hx
    rw [hvals'] at hw
    rw [List.eq_of_mem_replicate hw] at hx
    exact hv e x hx) (by rw [← hforce]; exact hd) htabw.some_channel htabw.whole ho2
  have hobj : (storeOf (pre ++ [Op.write e ty chs vals' layout])).objects c.path := by
    rw [store_objects]
    exact ⟨_, List.mem_append_right _ (List.mem_singleton.mpr rfl), List.mem_map_of_mem hc0⟩
  have hlen2 : (t2.channelLength c).map Reply.length
      = .ok (.length (some ((storeOf (pre ++ [Op.write e ty chs vals' layout])).count c.path))) := ha2.1 hobj
  have hsame : t2.channelLength c = (runOps al ⟨Index.new, []⟩ pre).channelLength c := by
    unfold TdmsFile.channelLength
    rw [hidx]
  rw [hsame] at hlen2
  have hans : ((storeOf pre).objects c.path → ((runOps al ⟨Index.new, []⟩ pre).channelLength c).map Reply.length
      = .ok (.length (some ((storeOf pre).count c.path)))) ∧
      (¬ (storeOf pre).objects c.path → ((runOps al ⟨Index.new, []⟩ pre).channelLength c).map Reply.length = .ok (.length none)) := ha1
  by_cases ho : (storeOf pre).objects c.path
  · have := (hans.1 ho).symm.trans hlen2
    injection this with this
    injection this with this
    injection this with this
    omega
  · have := (hans.2 ho).symm.trans hlen2
    injection this with this
    injection this with this
    cases this

/-- A history of tables that change the list of channels, with other values and up to any point, is within the limits. -/
theorem sound_of_changing (al : Alloc) {ops ops' : List Op} (n : Nat) (htabs : Tables ops) (hfit : ∀ op ∈ ops, OpFits op)
    (hsz : (runOps al ⟨Index.new, []⟩ ops).bytes.length < 2 ^ 63) (h : Changing Last.none ops) (hs : SameShape ops ops') :
    Sound al (ops'.take n) := by
  have hc := changing_take _ _ n (changing_shape hs _ h)
  refine ⟨?_, ?_, ?_, fun op ho => opfits_shape hs hfit op (List.mem_of_mem_take ho), changing_described al _ _ hc⟩
  · exact changing_compatible _ _ (fun e ty chs vals layout hm => tables_shape hs htabs.tables e ty chs vals layout
      (List.mem_of_mem_take hm)) hc
  · intro op ho op' ho'
    exact shape_types hs htabs.types op (List.mem_of_mem_take ho) op' (List.mem_of_mem_take ho')
  · have h1 := runOps_take_bytes al ⟨Index.new, []⟩ ops' n
    have h2 := (runOps_shape al hs htabs.sized ⟨Index.new, []⟩ ⟨Index.new, []⟩ rfl rfl).2
    omega

end Library

/-- **C92, the guard is exact.** Take a history of tables on a new file, with one type per channel, of objects whose names have no
    slashes. A program can watch the history, with any values and up to any point, arriving in any pieces at any moments, by asking
    anything about one object at a time, and be answered as C92 says, exactly if every data write differs from the list of
    channels in force at a position that both lists have. -/
theorem watcher_store_iff (al : Alloc) (hal : Generous al) (ops : List Op) (htabs : Tables ops) (htidy : ∀ op ∈ ops, Tidy op)
    (hfit : ∀ op ∈ ops, OpFits op) (hsz : (runOps al ⟨Index.new, []⟩ ops).bytes.length < 2 ^ 63) :
    (∀ ops' n, SameShape ops ops' → ∀ capacity glances, (∀ q, Glance.ask q ∈ glances → (Command.ask q).Single) →
      ∀ g : Growing, g.Shows al (ops'.take n) → g.Reliable →
        Views al (ops'.take n) 0 (glimpses al capacity Index.new g glances)) ↔ Changing Last.none ops := by
  constructor
  · intro h
    refine changing_of_lengths al hal ops htabs hfit hsz fun ops' n hs c => ?_
    refine watched_whole al ?_ (.length c) (h ops' n hs 0 _ ?_ _ (List.append_nil _) nofun)
    · have h1 := runOps_take_bytes al ⟨Index.new, []⟩ ops' n
      have h2 := (runOps_shape al hs htabs.sized ⟨Index.new, []⟩ ⟨Index.new, []⟩ rfl rfl).2
      omega
    · intro q hq
      rcases List.mem_cons.mp hq with hq | hq
      · cases hq
      · cases List.mem_singleton.mp hq
        trivial
  · intro hc ops' n hs capacity glances hq g hshow hr
    refine watcher_store_partial al hal (sound_of_changing al n htabs hfit hsz hc hs) capacity glances (fun q hm => ?_) hshow hr
    have htidy' : ∀ op ∈ ops'.take n, Tidy op := by
      intro op ho
      obtain ⟨o, ho, _, _, h⟩ := shape_mem hs op (List.mem_of_mem_take ho)
      exact h (htidy o ho)
    cases q with
    | readMany ty cs start => exact absurd (hq _ hm) id
    | groups => exact htidy'
    | channels g => exact htidy'
    | _ => trivial

/-- The hypotheses hold for `changingOps`, and so do both sides; here is one way in which its bytes can arrive. -/
theorem watcher_store_iff_example : Generous anyAlloc ∧ Tables changingOps ∧ (∀ op ∈ changingOps, Tidy op) ∧
    (∀ op ∈ changingOps, OpFits op) ∧ (session changingOps).bytes.length < 2 ^ 63 ∧ Changing Last.none changingOps ∧
    Growing.Shows anyAlloc (changingOps.take 4) ⟨⟨(session changingOps).bytes.take 100, 7, [.short 3]⟩,
      [[], (session changingOps).bytes.drop 100]⟩ := by
  obtain ⟨h1, h2, h3, h4, _, h6⟩ := library_is_store_iff_example
  refine ⟨fun _ => rfl, h1, h2, h3, h4, h6, ?_⟩
  unfold Growing.Shows
  decide +kernel

end Tedium
