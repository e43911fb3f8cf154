import Verif.Props.WatcherOn
import Verif.Props.ResumedExact

/-! # C91 and C92 on files that exist: which histories are safe, exactly -/

namespace Tedium
open SegSpec WriteSpec Library

namespace Library

section
variable {al : Alloc} {fs : List FileSegment} {t0 : TdmsFile} {ty : Text → STy} {last : Last} {ops : List Op}

local notation "S0" => storeIn ty (TdmsFile.bytes t0) (List.map FileSegment.segment fs)

/-- A program that opens the complete file and asks: what `ViewsOn` says of it. -/
theorem watched_whole_on {s : Store} (ix : Index) (hsz : (runOps al t0 ops).bytes.length < 2 ^ 64) (q : Query)
    (h : ViewsOn al t0 s last ops 0 (glimpses al 0 ix (whole (runOps al t0 ops).bytes) [.reopen, .ask q])) :
    ∃ t, TdmsFile.new al (runOps al t0 ops).bytes = .ok t ∧ (storeFrom s ops).Answers al q (q.run al t) := by
  obtain ⟨bytes, hbytes⟩ : ∃ bytes, bytes = (runOps al t0 ops).bytes := ⟨_, rfl⟩
  rw [← hbytes] at h hsz ⊢
  have hb : bytesAt al t0 ops ops.length = bytes.length := by
    unfold bytesAt
    rw [List.take_length, hbytes]
  have htotal : (whole bytes).total = bytes.length := rfl
  obtain ⟨r, g', h1, h2, h3, h4⟩ := open_while_growing al 0 (whole bytes) (by rw [htotal]; exact hsz) nofun
  obtain ⟨hc, hg⟩ := whole_later h2
  rw [hc] at h4
  unfold glimpses Glance.run at h
  dsimp only at h
  rw [h1] at h
  have hfin : ∀ k, k ≤ ops.length → (∀ j, j ≤ ops.length → (bytesAt al t0 ops j ≤ g'.contents.length ↔ j ≤ k)) →
      foundOn al t0 last ops g'.contents.length k = some ops.length := by
    intro k hk hiff
    have : k = ops.length := Nat.le_antisymm hk ((hiff _ (Nat.le_refl _)).mp (by rw [hb, hc]; exact Nat.le_refl _))
    subst this
    unfold foundOn
    rw [List.getElem?_eq_none (Nat.le_refl _)]
  cases r with
  | error e =>
    obtain ⟨k, hk, hiff, h⟩ := h
    dsimp only at hiff h
    rw [hfin k hk hiff] at h
    cases h.1
  | ok ix =>
    obtain ⟨k, hk, hiff, h⟩ := h
    dsimp only at hiff h
    rw [hfin k hk hiff] at h
    have hobt : Obtained al ix := Or.inl ⟨0, whole bytes, by rw [h1]⟩
    have htot' : g'.total = bytes.length := by
      unfold Growing.total
      rw [hg]
      show g'.contents.length + 0 = _
      rw [hc, Nat.add_zero]
    obtain ⟨g'', e1, e2, _⟩ := Query.runGrowing_eq 0 hobt (g := g') (by rw [htot']; exact hsz) h3 q
    have hc' : g''.contents = bytes := by
      obtain ⟨now, d1, d2⟩ := e2
      rw [hg] at d1
      obtain ⟨rfl, _⟩ := List.append_eq_nil_iff.mp d1.symm
      rw [d2, hc]
      exact List.append_nil _
    have hv := h.2.2
    unfold glimpses Glance.run at hv
    dsimp only at hv
    rw [e1] at hv
    have hv := hv.1
    rw [List.take_length, hc'] at hv
    refine ⟨⟨ix, bytes⟩, ?_, ?_⟩
    · unfold TdmsFile.new
      rw [← h4]
      rfl
    · rcases hv with hv | ⟨_, hlt, _⟩
      · exact hv
      · exact absurd hlt (by rw [hb]; exact Nat.lt_irrefl _)

/-- A history of tables on a file whose contents can be opened and have as many samples as were written, at every point and for all
    values. -/
theorem changing_of_lengths_on (he : Existing al fs t0 ty last) (ops : List Op) (htabs : Tables ops)
    (hfile : ∀ op ∈ ops, ∀ p, Names p op → ∀ c, (S0).content p = some c → typeOf op = some c.1)
    (hfit : ∀ op ∈ ops, OpFits op) (hsz : (runOps al t0 ops).bytes.length < 2 ^ 63)
    (h : ∀ ops' n, SameShape ops ops' → ∀ c, ∃ t, TdmsFile.new al (runOps al t0 (ops'.take n)).bytes = .ok t ∧
      (storeFrom S0 (ops'.take n)).Answers al (.length c) ((Query.length c).run al t)) : Changing last ops := by
  have hal := he.generous
  have hsized := opfits_sized hfit
  obtain ⟨s, hs0⟩ : ∃ s, s = S0 := ⟨_, rfl⟩
  rw [← hs0] at hfile h
  refine Classical.byContradiction fun hc => ?_
  obtain ⟨pre, e, wty, chs, vals, layout, post, hops, hpre, hd⟩ := first_repeat ops last hc
  have hmemw : Op.write e wty chs vals layout ∈ ops := by rw [hops]; simp
  have hty : SizedTy wty := hsized e wty chs vals layout hmemw
  obtain ⟨v, hv⟩ := STy.ones al (ty := wty) hty.2
  obtain ⟨vals', hvals'⟩ : ∃ vals' : List wty.Val, vals' = List.replicate vals.length v := ⟨_, rfl⟩
  have hshape : SameShape ops (pre ++ Op.write e wty chs vals' layout :: post) := by
    rw [hops]
    exact sameShape_append (sameShape_refl pre) (.write (by rw [hvals', List.length_replicate]) (sameShape_refl post))
  have htake : (pre ++ Op.write e wty chs vals' layout :: post).take (pre.length + 1)
      = pre ++ [Op.write e wty chs vals' layout] := by
    rw [List.take_append, List.take_of_length_le (Nat.le_succ _), Nat.add_sub_cancel_left]; rfl
  have htab' := tables_shape hshape htabs.tables
  have hsub : ∀ o ∈ pre ++ [Op.write e wty chs vals' layout], o ∈ pre ++ Op.write e wty chs vals' layout :: post := by
    rw [← htake]
    exact fun o => List.mem_of_mem_take
  have hlastmem : Op.write e wty chs vals' layout ∈ pre ++ [Op.write e wty chs vals' layout] :=
    List.mem_append_right _ (List.mem_singleton.mpr rfl)
  have htabw : Table wty chs vals' := htab' e wty chs vals' layout (hsub _ hlastmem)
  obtain ⟨c, hc0⟩ := List.exists_mem_of_ne_nil _ htabw.some_channel
  have hnames : Names c.path (Op.write e wty chs vals' layout) := ⟨c, hc0, rfl⟩
  have hcount := after_count_grows (s := pre.foldl Store.after s) (e := e) (layout := layout) htabw hc0 (by
    intro x hx
    rcases content_type s pre c.path x hx with ⟨c0, h1, h2⟩ | ⟨op, h1, h2, h3⟩
    · have h4 := shape_fileTypes hshape hfile _ (hsub _ hlastmem) c.path hnames c0 h1
      rw [← h2]
      exact (Option.some.inj h4).symm
    · have h4 := shape_types hshape htabs.types _ (hsub _ hlastmem) op (hsub _ (List.mem_append_left _ h1)) c.path hnames h2
      rw [h3] at h4
      exact (Option.some.inj h4).symm)
  have hpsz : (runOps al t0 pre).bytes.length < 2 ^ 63 := by
    have h1 : (runOps al t0 pre).bytes.length ≤ (runOps al t0 ops).bytes.length := by
      rw [hops, runOps_append]
      exact (runOps_bytes al _ _).length_le
    omega
  have hcompp : Compatible last pre := changing_compatible pre _
    (fun e ty chs vals layout hm => htab' e ty chs vals layout (List.mem_append_left _ hm)) hpre
  have hallp := (models_history (he.models (Nat.lt_of_le_of_lt (runOps_bytes al t0 pre).length_le hpsz)) pre hcompp
    (fun a ha b hb => shape_types hshape htabs.types a (hsub a (List.mem_append_left _ ha)) b (hsub b (List.mem_append_left _ hb)))
    (fun a ha => by
      rw [← hs0]
      exact shape_fileTypes hshape hfile a (hsub a (List.mem_append_left _ ha))) hpsz).1
  have hfit' := opfits_shape hshape hfit
  have hdist' : ∀ op ∈ pre, Distinct op := by
    intro op ho
    cases op with
    | props => trivial
    | write e ty chs vals layout => exact (htab' _ _ _ _ _ (List.mem_append_left _ ho)).distinct
  have hses : Session al t0 := .opened he.opened
  have hholds := _root_.Tedium.Holds.of_opened al hal he.fits he.opened
  have hact : last.channels = t0.index.activeObjects.map (·.path) := by
    rw [← he.channels]
    exact (replay_refines hholds.index).obj.paths.symm
  obtain ⟨more, hfs⟩ := reads_history al pre fs t0 last hholds hses hact hallp hdist'
    (fun op ho => hfit' op (List.mem_append_left _ ho)) (changing_described al pre _ hpre) (by omega)
  have hforce := active_in_force al pre t0 last hses hact hdist' hallp
  obtain ⟨t1, ho1, ha1⟩ := h ops pre.length (sameShape_refl ops) c
  rw [hops, List.take_left' rfl] at ho1 ha1
  rw [hfs.new al hal] at ho1
  obtain rfl : runOps al t0 pre = t1 := Except.ok.inj ho1
  obtain ⟨t2, ho2, ha2⟩ := h _ (pre.length + 1) hshape c
  rw [htake] at ho2 ha2
  rw [runOps_append] at ho2
  have hidx := ones_forgotten al hal hfs e wty chs vals' layout (by
    intro w hw x hx
    rw [hvals'] at hw
    rw [List.eq_of_mem_replicate hw] at hx
    exact hv e x hx) (by rw [← hforce]; exact hd) htabw.some_channel htabw.whole ho2
  rw [storeFrom_snoc] at ha2
  have hobj : ((storeFrom s pre).after (Op.write e wty chs vals' layout)).objects c.path := Or.inr ⟨c, hc0, rfl⟩
  have hlen2 : (t2.channelLength c).map Reply.length
      = .ok (.length (some (((storeFrom s pre).after (Op.write e wty chs vals' layout)).count c.path))) := ha2.1 hobj
  have hsame : t2.channelLength c = (runOps al t0 pre).channelLength c := by
    unfold TdmsFile.channelLength
    rw [hidx]
  rw [hsame] at hlen2
  have hans : ((storeFrom s pre).objects c.path → ((runOps al t0 pre).channelLength c).map Reply.length
      = .ok (.length (some ((storeFrom s pre).count c.path)))) ∧
      (¬ (storeFrom s pre).objects c.path → ((runOps al t0 pre).channelLength c).map Reply.length = .ok (.length none)) := ha1
  by_cases ho : (storeFrom s pre).objects c.path
  · have := (hans.1 ho).symm.trans hlen2
    injection this with this
    injection this with this
    injection this with this
    exact absurd this (Nat.ne_of_lt hcount)
  · have := (hans.2 ho).symm.trans hlen2
    injection this with this
    injection this with this
    cases this

/-- A history of tables that change the list of channels, with other values and up to any point, is within the limits. -/
theorem soundOn_of_changing {s : Store} {ops' : List Op} (n : Nat) (htabs : Tables ops)
    (hfile : ∀ op ∈ ops, ∀ p, Names p op → ∀ c, s.content p = some c → typeOf op = some c.1)
    (hfit : ∀ op ∈ ops, OpFits op) (hsz : (runOps al t0 ops).bytes.length < 2 ^ 63) (h : Changing last ops) (hs : SameShape ops ops') :
    SoundOn al t0 s last (ops'.take n) := by
  have hc := changing_take _ _ n (changing_shape hs _ h)
  refine ⟨?_, ?_, ?_, ?_, fun op ho => opfits_shape hs hfit op (List.mem_of_mem_take ho), changing_described al _ _ hc⟩
  · exact changing_compatible _ _ (fun e ty chs vals layout hm => tables_shape hs htabs.tables e ty chs vals layout
      (List.mem_of_mem_take hm)) hc
  · intro op ho op' ho'
    exact shape_types hs htabs.types op (List.mem_of_mem_take ho) op' (List.mem_of_mem_take ho')
  · intro op ho
    exact shape_fileTypes hs hfile op (List.mem_of_mem_take ho)
  · have h1 := runOps_take_bytes al t0 ops' n
    have h2 := (runOps_shape al hs htabs.sized t0 t0 rfl rfl).2
    omega

/-- Questions about one object at a time can be asked of objects whose names have no slashes. -/
theorem askableOn_single {segs : List Segment} {s : Store} {ops' : List Op} (n : Nat) (htidy : ∀ op ∈ ops, Tidy op)
    (hplain : ∀ p, s.objects p → ∃ o : Obj, o.SlashFree ∧ o.toPath.path = p) (hs : SameShape ops ops') {q : Query}
    (hq : (Command.ask q).Single) : AskableOn segs s (ops'.take n) q := by
  have htidy' : ∀ op ∈ ops'.take n, Tidy op := by
    intro op ho
    obtain ⟨o, ho, _, _, h⟩ := shape_mem hs op (List.mem_of_mem_take ho)
    exact h (htidy o ho)
  cases q with
  | readMany ty cs start => exact absurd hq id
  | groups => exact ⟨htidy', hplain⟩
  | channels g => exact ⟨htidy', hplain⟩
  | _ => trivial

end
end Library

/-- **C92, the guard is exact, on files that exist.** Open a file that exists, whoever wrote it, whose objects have names without slashes.
    Take a history of tables on it that write values of the types that the channels have. A program can watch the history, with any values
    and up to any point, arriving in any pieces at any moments, by asking anything about one object at a time, and be answered as
    C92 says, exactly if every data write differs from the list of channels in force at a position that both lists have; at the beginning
    this is the list of the last data segment of the file. -/
theorem watcher_existing_iff (al : Alloc) {fs : List FileSegment} {t : TdmsFile} {ty : Text → STy} {last : Last}
    (he : Existing al fs t ty last)
    (hplain : ∀ p, (storeIn ty t.bytes (fs.map FileSegment.segment)).objects p → ∃ o : Obj, o.SlashFree ∧ o.toPath.path = p)
    (ops : List Op) (htabs : Tables ops)
    (hfile : ∀ op ∈ ops, ∀ p, Names p op → ∀ c, (storeIn ty t.bytes (fs.map FileSegment.segment)).content p = some c →
      typeOf op = some c.1)
    (htidy : ∀ op ∈ ops, Tidy op) (hfit : ∀ op ∈ ops, OpFits op) (hsz : (runOps al t ops).bytes.length < 2 ^ 63) :
    (∀ ops' n, SameShape ops ops' → ∀ capacity glances, (∀ q, Glance.ask q ∈ glances → (Command.ask q).Single) →
      ∀ g : Growing, ShowsOn al t (ops'.take n) g → g.Reliable →
        ViewsOn al t (storeIn ty t.bytes (fs.map FileSegment.segment)) last (ops'.take n) 0
          (glimpses al capacity t.index g glances)) ↔ Changing last ops := by
  constructor
  · intro h
    refine changing_of_lengths_on he ops htabs hfile hfit hsz fun ops' n hs c => ?_
    refine watched_whole_on t.index ?_ (.length c) (h ops' n hs 0 _ ?_ _ ⟨?_, List.append_nil _⟩ nofun)
    · have h1 := runOps_take_bytes al t ops' n
      have h2 := (runOps_shape al hs htabs.sized t t rfl rfl).2
      omega
    · intro q hq
      rcases List.mem_cons.mp hq with hq | hq
      · cases hq
      · cases List.mem_singleton.mp hq
        trivial
    · exact (runOps_bytes al t _).length_le
  · intro hc ops' n hs capacity glances hq g hshow hr
    exact watcher_existing_partial al he (soundOn_of_changing n htabs hfile hfit hsz hc hs) capacity glances
      (fun q hm => askableOn_single n htidy hplain hs (hq q hm)) hshow hr

/-- **C91, the guard on the calls is exact, on files that exist.** The file and the history are as in `watcher_existing_iff`. Let a crash
    leave the file, some whole calls and less than the 4 bytes of a tag. Then it can be opened and answers all questions
    about one object at a time as the store of the file after these calls, for all values and all such crashes, exactly if every data write
    differs from the list of channels in force at a position that both lists have. -/
theorem crash_existing_histories_iff (al : Alloc) {fs : List FileSegment} {t0 : TdmsFile} {ty : Text → STy} {last : Last}
    (he : Existing al fs t0 ty last)
    (hplain : ∀ p, (storeIn ty t0.bytes (fs.map FileSegment.segment)).objects p → ∃ o : Obj, o.SlashFree ∧ o.toPath.path = p)
    (ops : List Op) (htabs : Tables ops)
    (hfile : ∀ op ∈ ops, ∀ p, Names p op → ∀ c, (storeIn ty t0.bytes (fs.map FileSegment.segment)).content p = some c →
      typeOf op = some c.1)
    (htidy : ∀ op ∈ ops, Tidy op) (hfit : ∀ op ∈ ops, OpFits op) (hsz : (runOps al t0 ops).bytes.length < 2 ^ 63) :
    (∀ ops', SameShape ops ops' → ∀ k kept, k ≤ ops'.length → kept ≤ (runOps al t0 ops').bytes.length →
      bytesAt al t0 ops' k ≤ kept → kept < bytesAt al t0 ops' k + 4 →
      ∃ t, TdmsFile.new al ((runOps al t0 ops').bytes.take kept) = .ok t ∧
        ∀ q, (Command.ask q).Single →
          ((ops'.take k).foldl Store.after (storeIn ty t0.bytes (fs.map FileSegment.segment))).Answers al q (q.run al t)) ↔
      Changing last ops := by
  constructor
  · intro h
    refine changing_of_lengths_on he ops htabs hfile hfit hsz fun ops' n hs c => ?_
    obtain ⟨k, hk, hkn⟩ : ∃ k, k ≤ ops'.length ∧ ops'.take n = ops'.take k := by
      by_cases hn : n ≤ ops'.length
      · exact ⟨n, hn, rfl⟩
      · exact ⟨ops'.length, Nat.le_refl _, by rw [List.take_length, List.take_of_length_le (by omega)]⟩
    have hp := bytes_prefix al t0 ops' k
    obtain ⟨t, h1, h2⟩ := h ops' hs k (bytesAt al t0 ops' k) hk hp.length_le (Nat.le_refl _) (by omega)
    rw [hkn]
    refine ⟨t, ?_, h2 (.length c) trivial⟩
    rw [← h1]
    congr 1
    exact List.prefix_iff_eq_take.mp hp
  · intro hc ops' hs k kept hk hkept h1 h2
    have hsound := soundOn_of_changing (al := al) ops'.length htabs hfile hfit hsz hc hs
    rw [List.take_length] at hsound
    have hlow : t0.bytes.length ≤ kept := by
      have := bytesAt_mono al t0 ops' (Nat.zero_le k)
      have h0 : bytesAt al t0 ops' 0 = t0.bytes.length := rfl
      omega
    obtain ⟨t, h3, h4⟩ := (crash_existing_survived_iff al he hsound kept hlow hkept).2 k hk h1 h2
    refine ⟨t, h3, fun q hq => h4 q ?_⟩
    have := askableOn_single (segs := fs.map FileSegment.segment) ops'.length htidy hplain hs hq
    rwa [List.take_length] at this

/-- The hypotheses hold for `windowFile` and `windowOps`; so do both sides. Here is one way in which the bytes can arrive. -/
theorem watcher_existing_iff_example : Existing anyAlloc windowFile windowOpen windowTypes windowLast ∧
    (∀ p, (storeIn windowTypes windowOpen.bytes (windowFile.map FileSegment.segment)).objects p →
      ∃ o : Obj, o.SlashFree ∧ o.toPath.path = p) ∧ Tables windowOps ∧
    (∀ op ∈ windowOps, ∀ p, Names p op →
      ∀ c, (storeIn windowTypes windowOpen.bytes (windowFile.map FileSegment.segment)).content p = some c → typeOf op = some c.1) ∧
    (∀ op ∈ windowOps, Tidy op) ∧ (∀ op ∈ windowOps, OpFits op) ∧ (runOps anyAlloc windowOpen windowOps).bytes.length < 2 ^ 63 ∧
    Changing windowLast windowOps ∧ ShowsOn anyAlloc windowOpen (windowOps.take 4) arrivingWindow := by
  obtain ⟨h1, h2, h3, h4, h5, h6, h7, h8⟩ := existing_file_is_store_iff_example
  exact ⟨h1, h2, h3, h4, h5, h6, h7, h8, spectator_askable.2.2.1⟩

end Tedium
