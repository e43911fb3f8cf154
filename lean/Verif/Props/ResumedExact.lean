import Verif.Props.ExistingExact
import Verif.Props.CrashExact
import Verif.Props.Resumed
import Verif.Proofs.WatcherOn

/-!
# C91 on files that exist, exactly: which crashes the store survives
-/

namespace Tedium
open SegSpec WriteSpec

namespace Library

section
variable {al : Alloc} {fs : List FileSegment} {t0 : TdmsFile} {ty : Text → STy} {last : Last} {ops : List Op}

local notation "S0" => storeIn ty (TdmsFile.bytes t0) (List.map FileSegment.segment fs)

/-- A channel of a file that exists whose samples are read into a buffer of the right length. -/
theorem read_whole_on (he : Existing al fs t0 ty last) (hcomp : Compatible last ops)
    (htypes : ∀ op ∈ ops, ∀ op' ∈ ops, ∀ p, Names p op → Names p op' → typeOf op = typeOf op')
    (hfile : ∀ op ∈ ops, ∀ p, Names p op → ∀ c, (S0).content p = some c → typeOf op = some c.1)
    (hsz : (runOps al t0 ops).bytes.length < 2 ^ 63) {wty : STy} {c : ChannelPath} {vals : List wty.Val}
    (hobj : (storeFrom S0 ops).objects c.path) (hc : (storeFrom S0 ops).content c.path = some ⟨wty, vals⟩) {out : List wty.Val}
    (ho : out.length = vals.length) :
    (Query.read wty c 0 out).run al (runOps al t0 ops) = .ok (.samples wty vals) := by
  have hsamples : (storeFrom S0 ops).samplesAs wty c.path = vals := by
    unfold Store.samplesAs
    rw [hc]
    dsimp only
    rw [readAs_self]
    rfl
  obtain ⟨_, segs, H, _⟩ := models_history (he.models (Nat.lt_of_le_of_lt (runOps_bytes al t0 ops).length_le hsz)) ops hcomp htypes hfile hsz
  have h1 := (H.image.answers_read wty c 0 out).1 hobj (by
    rintro ⟨⟨x, hx1, hx2⟩, _⟩
    rw [hc] at hx1
    cases hx1
    rw [readAs_self] at hx2
    cases hx2)
  rw [h1, hsamples, List.drop_zero, overlay_self ho]

/-- If the last call, which writes samples, is not complete in the file, its last channel cannot be read to the end. -/
theorem torn_read_on (he : Existing al fs t0 ty last) {pre : List Op} {e : Endian} {wty : STy} {chs : List ChannelPath}
    {vals : List wty.Val} {layout : DataLayout} (h : SoundOn al t0 S0 last (pre ++ [.write e wty chs vals layout])) {disk : Bytes}
    (hd : disk <+: (runOps al t0 (pre ++ [.write e wty chs vals layout])).bytes)
    (hl : disk.length < (runOps al t0 (pre ++ [.write e wty chs vals layout])).bytes.length) :
    ∃ c ∈ chs, ∃ out : List wty.Val, (Query.read wty c 0 out).run al
      ⟨(runOps al t0 (pre ++ [.write e wty chs vals layout])).index, disk⟩ = R.err (.ioError .unexpectedEof) := by
  obtain ⟨op, hop⟩ : ∃ op, op = Op.write e wty chs vals layout := ⟨_, rfl⟩
  rw [← hop] at h hd hl ⊢
  have hmem : op ∈ pre ++ [op] := List.mem_append_right _ (List.mem_singleton.mpr rfl)
  have htab : Table wty chs vals := compatible_table _ _ h.compatible e wty chs vals layout (hop ▸ hmem)
  have hsized := sized_of_ordinary htab.ordinary
  -- the same call with another last value
  obtain ⟨init, v, hvals⟩ : ∃ init v, vals = init ++ [v] :=
    ⟨vals.dropLast, vals.getLast htab.some_value, (List.dropLast_concat_getLast _).symm⟩
  obtain ⟨v', hne, htwin⟩ := STy.twin al e htab.ordinary v
  obtain ⟨op', hop'⟩ : ∃ op', op' = Op.write e wty chs (init ++ [v']) layout := ⟨_, rfl⟩
  have hshape : SameShape (pre ++ [op]) (pre ++ [op']) := by
    refine sameShape_append (sameShape_refl pre) ?_
    rw [hop, hop']
    exact .write (by rw [hvals]; simp) .nil
  have hsz1 : ∀ e ty channels vals layout, Op.write e ty channels vals layout ∈ pre ++ [op] → SizedTy ty :=
    fun e ty channels vals layout hm => sized_of_ordinary (compatible_table _ _ h.compatible e ty channels vals layout hm).ordinary
  obtain ⟨hix, hlen⟩ := runOps_shape al hshape hsz1 t0 t0 rfl rfl
  have hdrop : (runOps al t0 (pre ++ [op'])).bytes.dropLast = (runOps al t0 (pre ++ [op])).bytes.dropLast := by
    rw [runOps_append, runOps_append, hop, hop', hvals]
    exact writeChannels_twin al hsized e _ chs init htwin layout
  have hd' := prefix_dropLast hd hl hdrop hlen
  obtain ⟨c, hc⟩ : ∃ c, c = chs.getLast htab.some_channel := ⟨_, rfl⟩
  have hcm : c ∈ chs := hc ▸ List.getLast_mem _
  have hidx : (chs.map ChannelPath.path).idxOf? c.path = some (chs.length - 1) := by
    refine idxOf?_of_nodup htab.distinct ?_
    rw [List.getElem?_map, ← List.getLast?_eq_getElem?, List.getLast?_eq_some_getLast htab.some_channel, ← hc]
    rfl
  have hnames : Names c.path op := by rw [hop]; exact ⟨c, hcm, rfl⟩
  have htyop : typeOf op = some wty := by rw [hop]; rfl
  -- what was there before
  have hold : ∃ old : List wty.Val, ∀ w, (storeFrom S0 (pre ++ [Op.write e wty chs (init ++ [w]) layout])).content c.path
      = some ⟨wty, old ++ column layout chs.length (chs.length - 1) (init ++ [w])⟩ := by
    have hstep : ∀ w, (storeFrom S0 (pre ++ [Op.write e wty chs (init ++ [w]) layout])).content c.path
        = some (extend (column layout chs.length (chs.length - 1) (init ++ [w])) ((storeFrom S0 pre).content c.path)) := by
      intro w
      rw [storeFrom_snoc]
      unfold Store.after
      dsimp only
      rw [hidx]
    cases hx : (storeFrom S0 pre).content c.path with
    | none =>
      refine ⟨[], fun w => ?_⟩
      rw [hstep, hx]
      rfl
    | some x =>
      have hxt : x.1 = wty := by
        rcases content_type _ pre c.path x hx with ⟨c0, h1, h2⟩ | ⟨o, h1, h2, h3⟩
        · have h4 := h.fileTypes op hmem c.path hnames c0 h1
          rw [← h2]
          exact (Option.some.inj (htyop.symm.trans h4)).symm
        · have h4 := h.types op hmem o (List.mem_append_left _ h1) c.path hnames h2
          rw [h3, htyop] at h4
          exact (Option.some.inj h4).symm
      obtain ⟨xt, old⟩ := x
      obtain rfl : xt = wty := hxt
      refine ⟨old, fun w => ?_⟩
      rw [hstep, hx]
      unfold extend
      dsimp only
      rw [dif_pos rfl]
  obtain ⟨old, hold⟩ := hold
  have hobj : ∀ w, (storeFrom S0 (pre ++ [Op.write e wty chs (init ++ [w]) layout])).objects c.path := by
    intro w
    rw [storeFrom_snoc]
    exact Or.inr ⟨c, hcm, rfl⟩
  have hlast : ∀ w, (old ++ column layout chs.length (chs.length - 1) (init ++ [w])).getLast? = some w := by
    intro w
    rw [List.getLast?_append, column_last layout (List.length_pos_iff.mpr htab.some_channel) init w (by
      have := htab.whole
      rw [hvals] at this
      simpa using this)]
    rfl
  obtain ⟨n, hn⟩ : ∃ n, n = (old ++ column layout chs.length (chs.length - 1) (init ++ [v])).length := ⟨_, rfl⟩
  have hn' : n = (old ++ column layout chs.length (chs.length - 1) (init ++ [v'])).length := by
    rw [hn, List.length_append, List.length_append]
    congr 1
    exact column_same_length layout _ _ (by simp)
  refine ⟨c, hcm, List.replicate n v, ?_⟩
  have hc1 := hold v
  rw [← hvals, ← hop] at hc1
  have ho1 := hobj v
  rw [← hvals, ← hop] at ho1
  have hc2 := hold v'
  rw [← hop'] at hc2
  have ho2 := hobj v'
  rw [← hop'] at ho2
  have r1 := read_whole_on he h.compatible h.types h.fileTypes h.size ho1 hc1 (out := List.replicate n v) (by rw [List.length_replicate, hn, hvals])
  have r2 := read_whole_on he (compatible_shape hshape _ h.compatible) (shape_types hshape h.types)
    (shape_fileTypes hshape h.fileTypes) (by rw [hlen]; exact h.size) ho2 hc2 (out := List.replicate n v) (by rw [List.length_replicate, hn'])
  rcases read_of_part (al := al) (ix := (runOps al t0 (pre ++ [op])).index) hd (.read wty c 0 (List.replicate n v)) trivial
    with hr | hr
  · exact hr
  rcases read_of_part (al := al) (ix := (runOps al t0 (pre ++ [op])).index) hd' (.read wty c 0 (List.replicate n v)) trivial
    with hr' | hr'
  · exact hr'
  exfalso
  rw [← hix] at hr'
  rw [hix] at hr'
  have r12 := r1.symm.trans (hr.symm.trans (hr'.trans ((by rw [← hix] :
    (Query.read wty c 0 (List.replicate n v)).run al ⟨(runOps al t0 (pre ++ [op])).index, (runOps al t0 (pre ++ [op'])).bytes⟩ =
      (Query.read wty c 0 (List.replicate n v)).run al (runOps al t0 (pre ++ [op']))).trans r2)))
  injection r12 with r12
  injection r12 with _ r12
  have l1 := hlast v
  have l2 := hlast v'
  rw [← hvals, r12, l2] at l1
  exact hne (Option.some.inj l1)

/-- Every call adds at least a header. -/
theorem bytesAt_succ (h : Compatible last ops) {k : Nat} (hk : k < ops.length) :
    bytesAt al t0 ops k + 28 ≤ bytesAt al t0 ops (k + 1) := by
  have htake : ops.take (k + 1) = ops.take k ++ [ops[k]] := by
    rw [List.take_add_one, List.getElem?_eq_getElem hk]
    rfl
  unfold bytesAt
  rw [htake, runOps_append]
  generalize runOps al t0 (ops.take k) = t
  have hmem := List.getElem_mem hk
  generalize ops[k] = op at hmem
  show _ ≤ (op.run al t).2.bytes.length
  cases op with
  | props e path ps =>
    unfold Op.run TdmsFile.writeProperties
    dsimp only
    rw [List.length_append, length_writeSegment]
    omega
  | write e ty chs vals layout =>
    have ht := compatible_table _ _ h e ty chs vals layout hmem
    unfold Op.run TdmsFile.writeChannels
    dsimp only
    rw [if_neg (by simpa using ht.some_channel), if_neg (by
      have := Nat.mod_eq_zero_of_dvd ht.whole
      simpa using this)]
    dsimp only
    rw [List.length_append, length_writeSegment]
    omega

theorem bytesAt_mono (al : Alloc) (t0 : TdmsFile) (ops : List Op) {i j : Nat} (h : i ≤ j) : bytesAt al t0 ops i ≤ bytesAt al t0 ops j := by
  unfold bytesAt
  have : ops.take j = ops.take i ++ (ops.take j).drop i := by
    conv => lhs; rw [← List.take_append_drop i (ops.take j), List.take_take, Nat.min_eq_left h]
  rw [this, runOps_append]
  exact (runOps_bytes al _ _).length_le

end
end Library

/-- **C91, the guard on crashes is exact, on files that exist.** Calls within the limits of C90 are made on a file that exists, whoever
    wrote it, and a crash leaves the first `kept` of the bytes, at least those that were there at the beginning. What is left can be opened and
    answers as a store, whichever, exactly if it is the file and whole calls, or these and less than the 4 bytes of a tag; and then it
    is the store of the file after these calls. -/
theorem crash_existing_survived_iff (al : Alloc) {fs : List FileSegment} {t0 : TdmsFile} {ty : Text → STy} {last : Last}
    (he : Library.Existing al fs t0 ty last) {ops : List Op}
    (h : Library.SoundOn al t0 (Library.storeIn ty t0.bytes (fs.map FileSegment.segment)) last ops) (kept : Nat)
    (hfrom : t0.bytes.length ≤ kept) (hk : kept ≤ (runOps al t0 ops).bytes.length) :
    ((∃ t s, TdmsFile.new al ((runOps al t0 ops).bytes.take kept) = .ok t ∧
        ∀ q, Library.AskableOn (fs.map FileSegment.segment) (Library.storeIn ty t0.bytes (fs.map FileSegment.segment)) ops q →
          Library.Store.Answers al s q (q.run al t)) ↔
      ∃ k, k ≤ ops.length ∧ Library.bytesAt al t0 ops k ≤ kept ∧ kept < Library.bytesAt al t0 ops k + 4) ∧
    ∀ k, k ≤ ops.length → Library.bytesAt al t0 ops k ≤ kept → kept < Library.bytesAt al t0 ops k + 4 →
      ∃ t, TdmsFile.new al ((runOps al t0 ops).bytes.take kept) = .ok t ∧
        ∀ q, Library.AskableOn (fs.map FileSegment.segment) (Library.storeIn ty t0.bytes (fs.map FileSegment.segment)) ops q →
          ((ops.take k).foldl Library.Store.after (Library.storeIn ty t0.bytes (fs.map FileSegment.segment))).Answers al q
            (q.run al t) := by
  obtain ⟨disk, hdisk⟩ : ∃ disk, disk = (runOps al t0 ops).bytes.take kept := ⟨_, rfl⟩
  have hlen : disk.length = kept := by rw [hdisk, List.length_take]; omega
  have hd : disk <+: (runOps al t0 ops).bytes := hdisk ▸ List.take_prefix _ _
  rw [← hdisk]
  have hfull : ∀ j, (runOps al t0 (ops.take j)).bytes <+: (runOps al t0 ops).bytes := by
    intro j
    conv => rhs; rw [← List.take_append_drop j ops, runOps_append]
    exact runOps_bytes al _ _
  have hh := _root_.Tedium.Holds.of_opened al he.generous he.fits he.opened
  have hact : last.channels = t0.index.activeObjects.map (·.path) := by
    rw [← he.channels]
    exact (replay_refines hh.index).obj.paths.symm
  obtain ⟨k, hkl, hiff', _, _, hex⟩ := recover al he.generous disk ops fs t0 last hh (.opened he.opened) hact (h.models he).1
    (fun op hop => by
      cases op with
      | props => trivial
      | write e ty chs vals layout => exact (compatible_table _ _ h.compatible e ty chs vals layout hop).distinct)
    h.fits h.described (by have := h.size; omega) (prefix_of_le (runOps_bytes al t0 ops) hd (by omega)) hd
  have hiff : ∀ j, j ≤ ops.length → (Library.bytesAt al t0 ops j ≤ kept ↔ j ≤ k) := by
    intro j hj
    rw [← hiff' j hj, ← hlen]
    exact ⟨fun hle => prefix_of_le (hfull j) hd hle, fun hp => hp.length_le⟩
  have hsurv : ∀ k', k' ≤ ops.length → Library.bytesAt al t0 ops k' ≤ kept → kept < Library.bytesAt al t0 ops k' + 4 →
      ∃ t, TdmsFile.new al disk = .ok t ∧
        ∀ q, Library.AskableOn (fs.map FileSegment.segment) (Library.storeIn ty t0.bytes (fs.map FileSegment.segment)) ops q →
          ((ops.take k').foldl Library.Store.after (Library.storeIn ty t0.bytes (fs.map FileSegment.segment))).Answers al q
            (q.run al t) := by
    intro k' hk' h1 h2
    have hle : k' ≤ k := (hiff k' hk').mp h1
    have hb := (hiff k hkl).mpr (Nat.le_refl _)
    have heq : k' = k := by
      refine Nat.le_antisymm hle (Nat.le_of_not_lt fun hlt => ?_)
      have h3 := Library.bytesAt_succ (al := al) (t0 := t0) h.compatible (Nat.lt_of_lt_of_le hlt hkl)
      have h4 := Library.bytesAt_mono al t0 ops (show k' + 1 ≤ k from hlt)
      omega
    subst heq
    refine ⟨_, he.cut_opens h hd hk' hiff' (by rw [hlen]; exact h2), fun q hq => ?_⟩
    exact (h.first k').answers he (t := ⟨_, disk⟩) rfl ((hiff' k' hk').mpr (Nat.le_refl _)) (Nat.lt_of_le_of_lt hd.length_le h.size) q (hq.first k')
  refine ⟨⟨?_, fun ⟨k', hk', h1, h2⟩ => ?_⟩, hsurv⟩
  · rintro ⟨t, s, ht, hans⟩
    refine ⟨k, hkl, (hiff k hkl).mpr (Nat.le_refl _), Nat.lt_of_not_le fun hge => ?_⟩
    cases ho : ops[k]? with
    | none =>
      have hkl' : k = ops.length := Nat.le_antisymm hkl (List.getElem?_eq_none_iff.mp ho)
      have : Library.bytesAt al t0 ops k = (runOps al t0 ops).bytes.length := by
        unfold Library.bytesAt
        rw [hkl', List.take_length]
      omega
    | some op =>
      have hklt : k < ops.length := (List.getElem?_eq_some_iff.mp ho).1
      have hinc : kept < Library.bytesAt al t0 ops (k + 1) :=
        Nat.lt_of_not_le fun hle => absurd ((hiff (k + 1) hklt).mp hle) (Nat.not_succ_le_self k)
      have hnew := (hex op ho).2
      unfold Library.bytesAt at hge
      rw [hlen, if_neg (Nat.not_lt.mpr hge)] at hnew
      split at hnew
      · rw [hnew] at ht
        cases ht
      · rename_i hff
        rw [hnew] at ht
        obtain rfl : _ = t := Except.ok.inj ht
        have htake : ops.take (k + 1) = ops.take k ++ [op] := by
          rw [List.take_add_one, ho]
          rfl
        cases op with
        | props e path ps =>
          have hz : dataBytes al (.props e path ps) = 0 := rfl
          rw [hz] at hff
          unfold Library.bytesAt at hinc
          omega
        | write e wty chs vals layout =>
          have hs1 := h.first (k + 1)
          rw [htake] at hs1
          have hd1 : disk <+: (runOps al t0 (ops.take k ++ [.write e wty chs vals layout])).bytes := by
            rw [← htake]
            exact prefix_of_le hd (hfull (k + 1)) (by rw [hlen]; exact Nat.le_of_lt hinc)
          obtain ⟨c, _, out, hread⟩ := Library.torn_read_on he hs1 hd1 (by rw [← htake, hlen]; exact hinc)
          have ha := hans (.read wty c 0 out) trivial
          rw [htake, hread] at ha
          by_cases hobj : s.objects c.path
          · by_cases href : s.Refuses wty c.path 0 out
            · obtain ⟨⟨ty', vals'⟩, hcont, _⟩ := href.1
              cases ha.2.1 hobj href ty' vals' hcont
            · cases ha.1 hobj href
          · cases ha.2.2 hobj
  · obtain ⟨t, h3, h4⟩ := hsurv k' hk' h1 h2
    exact ⟨t, _, h3, h4⟩

/-- The file of `windowFile` and the calls of `windowOps` end at these bytes, so a crash that leaves 471 bytes is survived, and crashes
    that leave 500 or 540 bytes are not: the first of these files cannot be opened, and of the second one channel `b` cannot be read
    to the end. -/
theorem crash_existing_survived_example :
    Library.Existing anyAlloc windowFile windowOpen windowTypes windowLast ∧
    Library.SoundOn anyAlloc windowOpen (Library.storeIn windowTypes windowOpen.bytes (windowFile.map FileSegment.segment)) windowLast
      windowOps ∧
    (List.range 5).map (Library.bytesAt anyAlloc windowOpen windowOps) = [226, 296, 357, 469, 541] ∧
    (TdmsFile.new anyAlloc ((runOps anyAlloc windowOpen windowOps).bytes.take 471)).toOption.map
        (fun t => Library.Query.run anyAlloc t (.read .u16 (chan "b") 4 (vals16 [0, 0, 0])))
      = some (.ok (.samples .u16 (vals16 [14, 15, 0]))) ∧
    TdmsFile.new anyAlloc ((runOps anyAlloc windowOpen windowOps).bytes.take 500) = R.err (.ioError .unexpectedEof) ∧
    (TdmsFile.new anyAlloc ((runOps anyAlloc windowOpen windowOps).bytes.take 540)).toOption.map
        (fun t => Library.Query.run anyAlloc t (.read .u16 (chan "b") 4 (vals16 [0, 0, 0, 0])))
      = some (R.err (.ioError .unexpectedEof)) := by
  refine ⟨windowFile_existing, windowOps_sound, ?_, ?_, ?_, ?_⟩ <;> decide +kernel

end Tedium
