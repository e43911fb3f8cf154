import Verif.Proofs.Watcher
import Verif.Props.LibraryExact

/-! # Helper lemmas: a call that is not complete in the file -/

namespace Tedium
open SegSpec WriteSpec

/-- Values of which all bytes but the last one are the same. -/
theorem numeric_twin (e : Endian) (w : Nat) (nat : DataType) (sup : List DataType) (hw : 0 < w) (v : BitVec (8 * w)) :
    ∃ v', v' ≠ v ∧ ((numeric w nat sup).write e v').dropLast = ((numeric w nat sup).write e v).dropLast := by
  obtain ⟨x, hx⟩ : ∃ x, x = (numeric w nat sup).write e v := ⟨_, rfl⟩
  have hlen : x.length = w := by rw [hx]; exact length_encNat e w _
  have hne : x ≠ [] := by intro h; rw [h] at hlen; simp at hlen; omega
  obtain ⟨y, hy⟩ : ∃ y, y = x.dropLast ++ [x.getLast hne + 1] := ⟨_, rfl⟩
  have hylen : y.length = w := by
    rw [hy, List.length_append, List.length_dropLast, hlen]
    show w - 1 + 1 = w
    omega
  have hwrite : (numeric w nat sup).write e (BitVec.ofNat (8 * w) (decNat e y)) = y := by
    show encNat e w (BitVec.ofNat (8 * w) (decNat e y)).toNat = y
    have h1 := encNat_decNat e y
    have h2 := decNat_encNat e w (decNat e y)
    rw [hylen] at h1
    rw [h1] at h2
    rw [BitVec.toNat_ofNat, ← pow256, ← h2, h1]
  refine ⟨BitVec.ofNat (8 * w) (decNat e y), fun heq => ?_, ?_⟩
  · rw [heq, ← hx, hy] at hwrite
    have h1 := List.dropLast_concat_getLast hne
    have h2 := List.append_cancel_left (h1.trans hwrite)
    have h3 : x.getLast hne = x.getLast hne + 1 := (List.cons.inj h2).1
    exact absurd h3 (by
      intro h
      have := congrArg UInt8.toNat h
      rw [UInt8.toNat_add] at this
      have h4 := (x.getLast hne).toNat_lt
      simp at this
      omega)
  · rw [hwrite, ← hx, hy, List.dropLast_concat]

theorem complex_twin (e : Endian) (w : Nat) (t c : DataType) (hw : 0 < w) (v : Complex (BitVec (8 * w))) :
    ∃ v', v' ≠ v ∧ ((complexStorage w t c).write e v').dropLast = ((complexStorage w t c).write e v).dropLast := by
  obtain ⟨i, h1, h2⟩ := numeric_twin e w c [c] hw v.imaginary
  have hne : ∀ u : BitVec (8 * w), (numeric w c [c]).write e u ≠ [] := by
    intro u h
    have hl : ((numeric w c [c]).write e u).length = w := length_encNat e w _
    rw [h] at hl
    exact absurd hl (by simp; omega)
  refine ⟨⟨v.real, i⟩, fun h => h1 (congrArg Complex.imaginary h), ?_⟩
  show ((numeric w c [c]).write e v.real ++ (numeric w c [c]).write e i).dropLast
    = ((numeric w c [c]).write e v.real ++ (numeric w c [c]).write e v.imaginary).dropLast
  rw [List.dropLast_append_of_ne_nil (hne _), List.dropLast_append_of_ne_nil (hne _), h2]

theorem STy.twin (al : Alloc) (e : Endian) {ty : STy} (ht : Format.ordinaryTy ty = true) (v : ty.Val) :
    ∃ v' : ty.Val, v' ≠ v ∧ ((ty.storage al).write e v').dropLast = ((ty.storage al).write e v).dropLast := by
  cases ty
  case string => exact absurd ht (by decide)
  case extended => exact absurd ht (by decide)
  case timestamp => exact absurd ht (by decide)
  case bool =>
    obtain ⟨b, hb⟩ : ∃ b : Bool, b = v := ⟨v, rfl⟩
    refine ⟨(!b : Bool), ?_, rfl⟩
    subst hb
    intro h
    cases b <;> cases h
  case complex32 => exact complex_twin e 4 _ _ (by decide) v
  case complex64 => exact complex_twin e 8 _ _ (by decide) v
  case i8 => exact numeric_twin e 1 _ _ (by decide) v
  case u8 => exact numeric_twin e 1 _ _ (by decide) v
  case i16 => exact numeric_twin e 2 _ _ (by decide) v
  case u16 => exact numeric_twin e 2 _ _ (by decide) v
  case i32 => exact numeric_twin e 4 _ _ (by decide) v
  case u32 => exact numeric_twin e 4 _ _ (by decide) v
  case f32 => exact numeric_twin e 4 _ _ (by decide) v
  case i64 => exact numeric_twin e 8 _ _ (by decide) v
  case u64 => exact numeric_twin e 8 _ _ (by decide) v
  case f64 => exact numeric_twin e 8 _ _ (by decide) v

theorem column_last {α : Type} (layout : DataLayout) {k : Nat} (hk : 0 < k) (init : List α) (x : α)
    (hd : k ∣ (init ++ [x]).length) : (column layout k (k - 1) (init ++ [x])).getLast? = some x := by
  obtain ⟨m, hm⟩ := hd
  have hlen : init.length + 1 = k * m := by rw [← hm]; simp
  have hdiv : (init ++ [x]).length / k = m := by rw [hm, Nat.mul_div_cancel_left _ hk]
  have hmpos : 0 < m := by
    rcases Nat.eq_zero_or_pos m with h | h
    · subst h; simp at hlen
    · exact h
  obtain ⟨k, rfl⟩ : ∃ j, k = j + 1 := ⟨k - 1, by omega⟩
  obtain ⟨m, rfl⟩ : ∃ j, m = j + 1 := ⟨m - 1, by omega⟩
  have hkm : (k + 1) * (m + 1) = k * (m + 1) + (m + 1) := by rw [Nat.succ_mul]
  unfold column
  rw [hdiv]
  cases layout with
  | contigious =>
    dsimp only
    rw [Nat.add_sub_cancel, List.take_of_length_le (by rw [List.length_drop, hm]; omega),
      List.drop_append_of_le_length (by omega)]
    rw [List.getLast?_append]
    rfl
  | interleaved =>
    dsimp only
    rw [List.range_succ, List.filterMap_append, List.getLast?_append, Nat.add_sub_cancel]
    have : m * (k + 1) + k = init.length := by
      have : (k + 1) * (m + 1) = m * (k + 1) + (k + 1) := by rw [Nat.mul_comm, Nat.succ_mul]
      omega
    rw [List.filterMap_cons, this, List.getElem?_append_right (Nat.le_refl _)]
    simp

theorem column_same_length {α : Type} (layout : DataLayout) (k i : Nat) {l l' : List α} (h : l.length = l'.length) :
    (column layout k i l).length = (column layout k i l').length := by
  unfold column
  rw [h]
  cases layout with
  | contigious => simp [h]
  | interleaved =>
    dsimp only
    rw [List.length_filterMap_eq_countP, List.length_filterMap_eq_countP]
    congr 1
    funext row
    rw [Bool.eq_iff_iff]
    simp [h]

/-- A write that differs in the last value only differs in the last byte only. -/
theorem writeChannels_twin (al : Alloc) {ty : STy} (hty : SizedTy ty) (e : Endian) (t : TdmsFile) (chs : List ChannelPath)
    (init : List ty.Val) {v v' : ty.Val} (hv : ((ty.storage al).write e v').dropLast = ((ty.storage al).write e v).dropLast)
    (layout : DataLayout) :
    (t.writeChannels (ty.storage al) e chs (init ++ [v']) layout).2.bytes.dropLast
      = (t.writeChannels (ty.storage al) e chs (init ++ [v]) layout).2.bytes.dropLast := by
  have hne : ∀ u, (ty.storage al).write e u ≠ [] := by
    intro u h
    have hl := length_write_sized al hty e u
    rw [h] at hl
    have : 0 < (ty.storage al).memSize := by cases ty <;> exact Nat.succ_pos _
    exact absurd hl (by simp; omega)
  have hlen : (init ++ [v']).length = (init ++ [v]).length := by simp
  unfold TdmsFile.writeChannels
  rw [hlen]
  split
  · rfl
  · split
    · rfl
    · have hs : TdmsFile.dataStructure (ty.storage al) (init ++ [v']) chs.length
          = TdmsFile.dataStructure (ty.storage al) (init ++ [v]) chs.length := by
        unfold TdmsFile.dataStructure; rw [hlen]
      rw [hs]
      have key : ∀ u, (TdmsFile.sliceData (ty.storage al) e (init ++ [u]))
          = ⟨(ty.storage al).memSize * (init ++ [v]).length, init.flatMap ((ty.storage al).write e) ++ (ty.storage al).write e u⟩ := by
        intro u
        unfold TdmsFile.sliceData
        rw [List.flatMap_append, show (init ++ [u]).length = (init ++ [v]).length by simp]
        simp
      rw [key v', key v]
      unfold writeSegment finalToC
      dsimp only [DataToWrite.optSize, DataToWrite.optBytes]
      simp only [← List.append_assoc]
      rw [List.dropLast_append_of_ne_nil (hne _), List.dropLast_append_of_ne_nil (hne _), hv]
      rfl

namespace Library

theorem prefix_dropLast {disk a b : Bytes} (hd : disk <+: a) (hl : disk.length < a.length) (hab : b.dropLast = a.dropLast)
    (hlen : b.length = a.length) : disk <+: b := by
  have h1 : disk <+: a.dropLast := by
    rw [List.dropLast_eq_take]
    exact List.prefix_take_iff.mpr ⟨hd, by omega⟩
  rw [← hab] at h1
  exact h1.trans (List.dropLast_prefix b)

/-- A channel whose samples are read into a buffer of the right length. -/
theorem read_whole (al : Alloc) {ops : List Op} (hc : Compatible Last.none ops)
    (types : ∀ op ∈ ops, ∀ op' ∈ ops, ∀ p, Names p op → Names p op' → typeOf op = typeOf op')
    (hsz : (runOps al ⟨Index.new, []⟩ ops).bytes.length < 2 ^ 63) {ty : STy} {c : ChannelPath}
    (hty : ∀ op ∈ ops, Names c.path op → typeOf op = some ty) (hn : ∃ op ∈ ops, Names c.path op) {out : List ty.Val}
    (ho : out.length = (written ty c.path ops).length) :
    (Query.read ty c 0 out).run al (runOps al ⟨Index.new, []⟩ ops) = .ok (.samples ty (written ty c.path ops)) := by
  have hcontent := store_content ops ty c.path hty hn
  have hobj : (storeOf ops).objects c.path := by
    rw [store_objects]
    obtain ⟨op, ho, hh⟩ := hn
    refine ⟨op, ho, ?_⟩
    cases op with
    | props => cases hh
    | write e ty' chs vals layout => exact List.mem_map.mpr hh
  have hsamples : (storeOf ops).samplesAs ty c.path = written ty c.path ops := by
    unfold Store.samplesAs
    rw [hcontent]
    dsimp only
    rw [readAs_self]
    rfl
  have h1 := (answers_read hc types hsz ty c 0 out).1 hobj (by
    rintro ⟨⟨x, hx1, hx2⟩, _⟩
    rw [hcontent] at hx1
    cases hx1
    rw [readAs_self] at hx2
    cases hx2)
  rw [h1, hsamples, List.drop_zero, overlay_self ho]

/-- If the last call, which writes samples, is not complete in the file, its last channel cannot be read to the end. -/
theorem torn_read (al : Alloc) {pre : List Op} {e : Endian} {ty : STy} {chs : List ChannelPath} {vals : List ty.Val}
    {layout : DataLayout} (h : Sound al (pre ++ [.write e ty chs vals layout])) {disk : Bytes}
    (hd : disk <+: (runOps al ⟨Index.new, []⟩ (pre ++ [.write e ty chs vals layout])).bytes)
    (hl : disk.length < (runOps al ⟨Index.new, []⟩ (pre ++ [.write e ty chs vals layout])).bytes.length) :
    ∃ c ∈ chs, ∃ out : List ty.Val, (Query.read ty c 0 out).run al
      ⟨(runOps al ⟨Index.new, []⟩ (pre ++ [.write e ty chs vals layout])).index, disk⟩ = R.err (.ioError .unexpectedEof) := by
  obtain ⟨op, hop⟩ : ∃ op, op = Op.write e ty chs vals layout := ⟨_, rfl⟩
  rw [← hop] at h hd hl ⊢
  have hmem : op ∈ pre ++ [op] := List.mem_append_right _ (List.mem_singleton.mpr rfl)
  have htab : Table ty chs vals := compatible_table _ _ h.compatible e ty chs vals layout (hop ▸ hmem)
  have hsized := sized_of_ordinary htab.ordinary
  -- the same call with another last value
  obtain ⟨init, v, hvals⟩ : ∃ init v, vals = init ++ [v] :=
    ⟨vals.dropLast, vals.getLast htab.some_value, (List.dropLast_concat_getLast _).symm⟩
  obtain ⟨v', hne, htwin⟩ := STy.twin al e htab.ordinary v
  obtain ⟨op', hop'⟩ : ∃ op', op' = Op.write e ty chs (init ++ [v']) layout := ⟨_, rfl⟩
  have hshape : SameShape (pre ++ [op]) (pre ++ [op']) := by
    refine sameShape_append (sameShape_refl pre) ?_
    rw [hop, hop']
    exact .write (by rw [hvals]; simp) .nil
  have hsz1 : ∀ e ty channels vals layout, Op.write e ty channels vals layout ∈ pre ++ [op] → SizedTy ty :=
    fun e ty channels vals layout hm => sized_of_ordinary (compatible_table _ _ h.compatible e ty channels vals layout hm).ordinary
  obtain ⟨hix, hlen⟩ := runOps_shape al hshape hsz1 ⟨Index.new, []⟩ ⟨Index.new, []⟩ rfl rfl
  have hdrop : (runOps al ⟨Index.new, []⟩ (pre ++ [op'])).bytes.dropLast = (runOps al ⟨Index.new, []⟩ (pre ++ [op])).bytes.dropLast := by
    rw [runOps_append, runOps_append, hop, hop', hvals]
    exact writeChannels_twin al hsized e _ chs init htwin layout
  have hd' := prefix_dropLast hd hl hdrop hlen
  have hcomp' : Compatible Last.none (pre ++ [op']) := compatible_shape hshape _ h.compatible
  have htypes' := shape_types hshape h.types
  have hsize' : (runOps al ⟨Index.new, []⟩ (pre ++ [op'])).bytes.length < 2 ^ 63 := by rw [hlen]; exact h.size
  obtain ⟨c, hc⟩ : ∃ c, c = chs.getLast htab.some_channel := ⟨_, rfl⟩
  have hcm : c ∈ chs := hc ▸ List.getLast_mem _
  obtain ⟨n, hn⟩ : ∃ n, n = (written ty c.path (pre ++ [op])).length := ⟨_, rfl⟩
  refine ⟨c, hcm, List.replicate n v, ?_⟩
  have hcol : ∀ w, written ty c.path (pre ++ [Op.write e ty chs (init ++ [w]) layout])
      = written ty c.path pre ++ column layout chs.length (chs.length - 1) (init ++ [w]) := by
    intro w
    rw [written_append]
    congr 1
    show valuesFor ty c.path (.write e ty chs (init ++ [w]) layout) ++ [] = _
    rw [List.append_nil]
    unfold valuesFor
    dsimp only
    rw [dif_pos rfl]
    have hidx : (chs.map ChannelPath.path).idxOf? c.path = some (chs.length - 1) := by
      refine idxOf?_of_nodup htab.distinct ?_
      rw [List.getElem?_map, ← List.getLast?_eq_getElem?, List.getLast?_eq_some_getLast htab.some_channel, ← hc]
      rfl
    rw [hidx]
  have hlast : ∀ w, (written ty c.path (pre ++ [Op.write e ty chs (init ++ [w]) layout])).getLast? = some w := by
    intro w
    rw [hcol, List.getLast?_append, column_last layout (List.length_pos_iff.mpr htab.some_channel) init w (by
      have := htab.whole
      rw [hvals] at this
      simpa using this)]
    rfl
  have hnames : Names c.path op := by rw [hop]; exact ⟨c, hcm, rfl⟩
  have hnames' : Names c.path op' := by rw [hop']; exact ⟨c, hcm, rfl⟩
  have htyop : typeOf op = some ty := by rw [hop]; rfl
  have htyop' : typeOf op' = some ty := by rw [hop']; rfl
  have hmem' : op' ∈ pre ++ [op'] := List.mem_append_right _ (List.mem_singleton.mpr rfl)
  have hn' : n = (written ty c.path (pre ++ [op'])).length := by
    rw [hn, hop, hop', hvals, hcol, hcol, List.length_append, List.length_append]
    congr 1
    exact column_same_length layout _ _ (by simp)
  have r1 := read_whole al h.compatible h.types h.size (ty := ty) (c := c) (out := List.replicate n v)
    (fun o ho hh => (h.types o ho op hmem c.path hh hnames).trans htyop) ⟨op, hmem, hnames⟩ (by rw [List.length_replicate, hn])
  have r2 := read_whole al hcomp' htypes' hsize' (ty := ty) (c := c) (out := List.replicate n v)
    (fun o ho hh => (htypes' o ho op' hmem' c.path hh hnames').trans htyop') ⟨op', hmem', hnames'⟩
    (by rw [List.length_replicate, hn'])
  rcases read_of_part (al := al) (ix := (runOps al ⟨Index.new, []⟩ (pre ++ [op])).index) hd (.read ty c 0 (List.replicate n v)) trivial
    with he | he
  · exact he
  rcases read_of_part (al := al) (ix := (runOps al ⟨Index.new, []⟩ (pre ++ [op])).index) hd' (.read ty c 0 (List.replicate n v)) trivial
    with he' | he'
  · exact he'
  exfalso
  rw [← hix] at he'
  rw [hix] at he'
  have r12 : (Except.ok (Reply.samples ty (written ty c.path (pre ++ [op]))) : R Reply)
      = .ok (.samples ty (written ty c.path (pre ++ [op']))) := by
    rw [← r1, ← r2]
    refine he.symm.trans (he'.trans ?_)
    rw [← hix]
  injection r12 with r12
  injection r12 with _ r12
  have l1 := hlast v
  have l2 := hlast v'
  rw [← hvals, ← hop, r12, hop', l2] at l1
  exact hne (Option.some.inj l1)

end Library
end Tedium
