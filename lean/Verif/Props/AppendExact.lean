import Verif.Spec.Appending
import Verif.Proofs.WrongType
import Verif.Props.ReadBack
import Verif.Props.Rearrange
import Verif.Props.Faults
import Verif.Props.Disk
import Verif.Props.Work

/-! # Properties: exactly which files can be appended to (C45, C49, C63) -/

namespace Tedium
open SegSpec WriteSpec Faults

theorem fresh_not_active {segs : List Segment} {ix : Index} (h : Refines segs ix) {p : Text}
    (hf : ¬ Listed (entries segs) p) : p ∉ active segs := by
  intro hp
  obtain ⟨m, hm⟩ := h.obj.activeSome p hp
  rw [layoutOf_unlisted hf] at hm
  cases hm

theorem fresh_diverges {segs : List Segment} {ix : Index} (h : Refines segs ix) {p : Text}
    (hf : ¬ Listed (entries segs) p) : Diverges (active segs) [p] := by
  have hn := fresh_not_active h hf
  cases ha : active segs with
  | nil => exact Or.inl rfl
  | cons a as =>
    refine Or.inr ⟨(a, p), by simp, ?_⟩
    intro hh
    apply hn
    rw [ha]
    have : a = p := hh
    rw [this]
    exact List.mem_cons_self

theorem samples_drop {α : Type} (dec : Endian → Bytes → α) {f f' : Bytes} (b : DataBlock) (i : Nat) (m : RawDataMeta)
    (n : Nat) (h : f.drop b.start = f'.drop b.start) : b.samples dec f i m n = b.samples dec f' i m n := by
  unfold DataBlock.samples
  refine List.map_congr_left (fun s _ => ?_)
  congr 1
  unfold DataBlock.sampleBytes
  have : ∃ k, b.samplePos i m s = b.start + k := by
    unfold DataBlock.samplePos
    cases b.layout with
    | interleaved => exact ⟨s * rowBytesOf b.channels + rowBytesOf (b.channels.take i), by dsimp only; omega⟩
    | contigious => exact ⟨s / m.numberOfValues * chunkBytesOf b.channels + chunkBytesOf (b.channels.take i)
        + s % m.numberOfValues * Format.bytesOf m.dataType, by dsimp only; omega⟩
  obtain ⟨k, hk⟩ := this
  rw [hk, ← List.drop_drop, ← List.drop_drop, h]

/-- Bytes as values. -/
def bytesAsVals (bs : Bytes) : List STy.u8.Val := bs.map (fun b => BitVec.ofNat 8 b.toNat)

theorem bytesAsVals_write (al : Alloc) (e : Endian) : ∀ bs : Bytes,
    (bytesAsVals bs).flatMap ((STy.u8.storage al).write e) = bs
  | [] => rfl
  | b :: bs => by
    have h : (STy.u8.storage al).write e (BitVec.ofNat 8 b.toNat) = [b] := by
      show encNat e 1 (BitVec.ofNat 8 b.toNat).toNat = [b]
      rw [BitVec.toNat_ofNat, Nat.mod_eq_of_lt b.toNat_lt]
      cases e <;> (show [UInt8.ofNat _] = _; simp)
    show (STy.u8.storage al).write e (BitVec.ofNat 8 b.toNat) ++ (bytesAsVals bs).flatMap _ = _
    rw [h, bytesAsVals_write al e bs]
    rfl

theorem bytesAsVals_length (bs : Bytes) : (bytesAsVals bs).length = bs.length := List.length_map _

theorem fresh_prefix {segs : List Segment} {ix : Index} (h : replay Index.new segs = .ok ix) {p : Text}
    (hf : ¬ Listed (entries segs) p) {pre : List Segment} (hpre : pre ∈ dataPrefixes segs) : p ∉ active pre := by
  obtain ⟨i, hi⟩ := List.mem_iff_getElem?.mp hpre
  obtain ⟨k, hk⟩ := (dataPrefixes_take segs i pre hi).1
  have hsplit : segs = pre ++ segs.drop (k + 1) := by rw [hk]; exact (List.take_append_drop _ segs).symm
  rw [hsplit, replay_append] at h
  cases hp : replay Index.new pre with
  | error e => rw [hp] at h; cases h
  | ok ix0 =>
    apply fresh_not_active (replay_refines hp)
    rintro ⟨o, ho, hop⟩
    apply hf
    refine ⟨o, ?_, hop⟩
    rw [hsplit]
    unfold entries at ho ⊢
    rw [List.flatMap_append]
    exact List.mem_append_left _ ho

/-- **Where the reader looks.** A write of bytes to a new channel makes the reader look for them behind the
    place where the index ends, whatever the file has there. -/
theorem displaced_read (al : Alloc) {segs : List Segment} {t : TdmsFile} (h : replay Index.new segs = .ok t.index)
    (c : ChannelPath) (hf : ¬ Listed (entries segs) c.path) (e : Endian) (vals : List STy.u8.Val) (layout : DataLayout)
    (hne : vals ≠ []) :
    ∃ (hdr : Bytes) (ix' : Index), hdr.length = 56 + textSize c.path ∧ (endOf segs + hdr.length + vals.length < 2 ^ 63 →
      t.writeChannels (STy.u8.storage al) e [c] vals layout
        = (.ok (), ⟨ix', t.bytes ++ (hdr ++ vals.flatMap ((STy.u8.storage al).write e))⟩)) ∧
      ∀ f : Bytes, endOf segs + hdr.length + vals.length ≤ f.length → f.length < 2 ^ 63 →
        ∀ out : List STy.u8.Val, out.length = vals.length →
          (TdmsFile.mk ix' f).readChannelFrom (STy.u8.storage al) c 0 out
            = .ok (bytesAsVals ((f.drop (endOf segs + hdr.length)).take vals.length)) := by
  have hr := replay_refines h
  have hd := fresh_diverges hr hf
  have htab : ∀ vs : List STy.u8.Val, vs.length = vals.length → Table STy.u8 [c] vs := fun vs hv =>
    ⟨rfl, by simp, by simp, fun hh => hne (List.length_eq_zero_iff.mp (by rw [← hv, hh]; rfl)), Nat.one_dvd _⟩
  have hpos : 0 < vals.length := List.length_pos_iff.mpr hne
  obtain ⟨hdr, hbytes, hhdr⟩ := writtenSegment_bytes (STy.u8.storage al) e segs [c.path] vals layout
  have hlenw : ∀ vs : List STy.u8.Val, (vs.flatMap ((STy.u8.storage al).write e)).length = vs.length := by
    intro vs
    rw [length_flatMap_const _ _ _ (fun v _ => STy.length_write al .u8 rfl e v)]
    exact Nat.one_mul _
  have hseg : ∀ vs : List STy.u8.Val, vs.length = vals.length →
      (writtenSegment (STy.u8.storage al) e segs [c.path] vs layout).1
        = (writtenSegment (STy.u8.storage al) e segs [c.path] vals layout).1 := by
    intro vs hv
    unfold writtenSegment
    rw [hv]
    unfold writeSegment DataToWrite.optSize TdmsFile.sliceData finalToC
    dsimp only
    rw [hv]
    rfl
  -- the same write, of any bytes, to a file that ends where the index ends
  have hstep : ∀ (F : Bytes) (vs : List STy.u8.Val), F.length = endOf segs → vs.length = vals.length →
      endOf segs + hdr.length + vals.length < 2 ^ 63 → _ :=
    fun F vs hF hv hsz => write_step al .u8 (t := ⟨t.index, F⟩) ⟨h, hF.symm⟩ e [c] vs layout (htab vs hv)
      (m := vs.length / [c].length) (by
        have := uniform_fresh (S := STy.u8.storage al) e vs layout hd (by simp) (List.mem_singleton.mpr rfl)
        exact this)
      (by rw [hv]; show 0 < vals.length / 1; rw [Nat.div_one]; exact hpos) (Or.inl rfl) (by
        rw [writeChannels_eq (STy.u8.storage al) e (t := ⟨t.index, F⟩) hr [c] vs layout (by simp) (Nat.one_dvd _)]
        obtain ⟨hdr', hb', hh'⟩ := writtenSegment_bytes (STy.u8.storage al) e segs [c.path] vs layout
        show (F ++ (writtenSegment (STy.u8.storage al) e segs [c.path] vs layout).2).length < _
        rw [hb', List.length_append, List.length_append, hh', hseg vs hv, ← hhdr, hlenw, hF, hv]
        omega)
  refine ⟨hdr, (t.index.addSegment (writtenSegment (STy.u8.storage al) e segs [c.path] vals layout).1).2, ?_, ?_, ?_⟩
  · rw [hhdr]
    have : writtenMeta (STy.u8.storage al) segs [c.path] (vals.length / 1) = some { objects :=
        [entryFor (entries segs) (writtenFormat (STy.u8.storage al) (vals.length / 1)) c.path] } := if_pos hd
    show 28 + MetaData.optSize (writtenMeta (STy.u8.storage al) segs [c.path] (vals.length / 1)) = _
    rw [this]
    have hlay := layoutOf_unlisted hf
    unfold entryFor
    rw [hlay]
    show 28 + (4 + ((textSize c.path + (3 * 4 + 8) + 4 + 0) + 0)) = _
    omega
  · intro hsz
    obtain ⟨t', h1, _⟩ := hstep (List.replicate (endOf segs) 0) vals List.length_replicate rfl hsz
    rw [writeChannels_eq (STy.u8.storage al) e (t := ⟨t.index, List.replicate (endOf segs) 0⟩) hr [c] vals layout (by simp) (Nat.one_dvd _)] at h1
    rw [writeChannels_eq (STy.u8.storage al) e hr [c] vals layout (by simp) (Nat.one_dvd _)]
    have h2 := congrArg Prod.fst h1
    refine Prod.ext h2 ?_
    show TdmsFile.mk _ (t.bytes ++ (writtenSegment (STy.u8.storage al) e segs [c.path] vals layout).2) = _
    rw [hbytes]
    rfl
  · intro f hfl hf63 out hout
    have hE : endOf segs ≤ f.length := by omega
    let reg := (f.drop (endOf segs + hdr.length)).take vals.length
    have hreg : reg.length = vals.length := by
      show ((f.drop _).take _).length = _
      rw [List.length_take, List.length_drop]
      omega
    have hvl : (bytesAsVals reg).length = vals.length := (bytesAsVals_length reg).trans hreg
    obtain ⟨t0, h1, hb, hx, hregular, _, hlast⟩ := hstep (f.take (endOf segs)) (bytesAsVals reg)
      (by rw [List.length_take]; omega) hvl (by omega)
    have hu := uniform_fresh (S := STy.u8.storage al) e (bytesAsVals reg) layout hd (by simp) (List.mem_singleton.mpr rfl)
    obtain ⟨hdr', hb', hh'⟩ := writtenSegment_bytes (STy.u8.storage al) e segs [c.path] (bytesAsVals reg) layout
    have hl' : hdr'.length = hdr.length := by rw [hh', hhdr, hseg _ hvl]
    have hraw := (writtenSegment_fields (STy.u8.storage al) e segs [c.path] (bytesAsVals reg) layout).1
    have hix : t0.index = (t.index.addSegment (writtenSegment (STy.u8.storage al) e segs [c.path] vals layout).1).2 := by
      rw [writeChannels_eq (STy.u8.storage al) e (t := ⟨t.index, f.take (endOf segs)⟩) hr [c] (bytesAsVals reg) layout
        (by simp) (Nat.one_dvd _)] at h1
      have h2 := congrArg (fun x => x.2.index) h1
      rw [← hseg _ hvl]
      exact h2.symm
    have htail : f.drop (endOf segs + hdr.length) = reg ++ f.drop (endOf segs + hdr.length + vals.length) := by
      rw [← List.drop_drop (i := vals.length)]
      exact (List.take_append_drop _ _).symm
    have hdrop : (t0.bytes ++ f.drop (endOf segs + hdr.length + vals.length)).drop (endOf segs + hdr.length)
        = f.drop (endOf segs + hdr.length) := by
      rw [hb]
      show ((f.take (endOf segs) ++ (writtenSegment (STy.u8.storage al) e segs [c.path] (bytesAsVals reg) layout).2) ++ _).drop _
        = _
      rw [hb', bytesAsVals_write, htail, ← List.append_assoc, List.append_assoc _ reg]
      apply List.drop_left'
      rw [List.length_append, List.length_take, hl']
      omega
    replace hlast := hlast c.path (f.drop (endOf segs + hdr.length + vals.length))
    replace hregular := hregular []
    have hx1 := hx.refines
    rw [hix] at hx1
    have hends := hx.ends
    have hlen0 : t0.bytes.length ≤ f.length := by
      rw [hb]
      show (f.take (endOf segs) ++ (writtenSegment (STy.u8.storage al) e segs [c.path] (bytesAsVals reg) layout).2).length ≤ _
      rw [hb', bytesAsVals_write, List.length_append, List.length_append, List.length_take, hl', hreg]
      omega
    rw [← hseg _ hvl] at hx1
    change replay Index.new (segs ++ [(writtenSegment (STy.u8.storage al) e segs [c.path] (bytesAsVals reg) layout).1]) = _ at hx1
    change Regular (t0.bytes ++ []) (segs ++ [(writtenSegment (STy.u8.storage al) e segs [c.path] (bytesAsVals reg) layout).1])
      at hregular
    change lastSamples _ _ (segs ++ [(writtenSegment (STy.u8.storage al) e segs [c.path] (bytesAsVals reg) layout).1]) _ = _
      at hlast
    rw [← hseg _ hvl]
    have hst : 28 + (writtenSegment (STy.u8.storage al) e segs [c.path] (bytesAsVals reg) layout).1.rawDataOffset = hdr.length := by
      rw [hhdr, hseg _ hvl]
    generalize (writtenSegment (STy.u8.storage al) e segs [c.path] (bytesAsVals reg) layout).1 = s at *
    have hlisted : Listed (entries (segs ++ [s])) c.path := by
      obtain ⟨l, hl, _⟩ := hu.layout c.path (List.mem_singleton.mpr rfl)
      exact layoutOf_listed hl
    rw [read_window_regular_partial al .u8 rfl (t := ⟨(t.index.addSegment s).2, f⟩) hx1 hf63 c hlisted ?_ 0 out]
    · rw [channelSamples_snoc, hraw, if_pos rfl, channelSamples_unlisted _ _ hf, List.nil_append, List.drop_zero]
      have hcong : lastSamples (Format.decode .u8) f (segs ++ [s]) c.path = lastSamples (Format.decode .u8)
          (t0.bytes ++ f.drop (endOf segs + hdr.length + vals.length)) (segs ++ [s]) c.path := by
        unfold lastSamples
        rw [blockOf_snoc]
        split
        · rename_i b i m hb1 _ _
          cases hb1
          apply samples_drop
          show f.drop (endOf segs + 28 + s.rawDataOffset) = _
          rw [Nat.add_assoc, hst]
          exact hdrop.symm
        · rfl
      show Except.ok (overlay out (lastSamples (Format.decode .u8) f (segs ++ [s]) c.path)) = _
      rw [hcong, hlast]
      have : ([c].map ChannelPath.path).idxOf? c.path = some 0 := by
        show List.idxOf? c.path [c.path] = _
        simp [List.idxOf?]
      rw [this]
      show Except.ok (overlay out (column layout 1 0 (bytesAsVals reg))) = _
      rw [column_one, overlay_self (by rw [hout, hvl])]
    · intro pre hpre hact
      rw [dataPrefixes_snoc, hraw, if_pos rfl] at hpre
      rcases List.mem_append.mp hpre with hp | hp
      · exact absurd hact (fresh_prefix h hf hp)
      · rw [List.mem_singleton.mp hp]
        refine ⟨⟨?_, hregular.ordinary, hregular.equal, hregular.whole⟩, ?_⟩
        · obtain ⟨b, hb1, hb2⟩ := hregular.inside
          refine ⟨b, hb1, ?_⟩
          rw [List.append_nil] at hb2
          exact Nat.le_trans hb2 hlen0
        · intro m hm
          obtain ⟨l, hl, hs, _⟩ := hu.layout c.path (List.mem_singleton.mpr rfl)
          rw [hl] at hm
          cases hm
          exact hs

theorem bytesAsVals_inj : ∀ {a b : Bytes}, bytesAsVals a = bytesAsVals b → a = b
  | [], [], _ => rfl
  | x :: a, y :: b, h => by
    have h' : BitVec.ofNat 8 x.toNat :: bytesAsVals a = BitVec.ofNat 8 y.toNat :: bytesAsVals b := h
    injection h' with h1 h2
    have h3 := congrArg BitVec.toNat h1
    rw [BitVec.toNat_ofNat, BitVec.toNat_ofNat, Nat.mod_eq_of_lt x.toNat_lt, Nat.mod_eq_of_lt y.toNat_lt] at h3
    rw [bytesAsVals_inj h2, UInt8.toNat_inj.mp h3]

/-- **Appending, exactly.** Whatever is written to a new channel is read back if and only if the file ends where the index
    ends. -/
theorem append_replayed_iff (al : Alloc) {segs : List Segment} {t : TdmsFile} (h : replay Index.new segs = .ok t.index)
    (c : ChannelPath) (hf : ¬ Listed (entries segs) c.path) (hroom : Room c t) :
    AppendsWell al c t ↔ t.index.nextSegmentStart = t.bytes.length := by
  have hr := replay_refines h
  unfold Room at hroom
  rw [hr.next] at hroom ⊢
  constructor
  · intro ha
    rcases Nat.lt_trichotomy (endOf segs) t.bytes.length with hlt | heq | hgt
    · exfalso
      have hn : (bytesAsVals (List.replicate (t.bytes.length - endOf segs) 0 ++ [1])).length
          = t.bytes.length - endOf segs + 1 := by
        rw [bytesAsVals_length, List.length_append, List.length_replicate]; rfl
      obtain ⟨hdr, ix', hlen, hw, hread⟩ := displaced_read al h c hf .little
        (bytesAsVals (List.replicate (t.bytes.length - endOf segs) 0 ++ [1])) .contigious
        (fun hh => by rw [hh] at hn; cases hn)
      replace hw := hw (by omega)
      rw [bytesAsVals_write] at hw
      have hwell := ha .little .u8 (bytesAsVals (List.replicate (t.bytes.length - endOf segs) 0 ++ [1])) .contigious rfl
        (fun hh => by rw [hh] at hn; cases hn) (by
        rw [hw]
        show (t.bytes ++ (hdr ++ _)).length < _
        rw [List.length_append, List.length_append, List.length_append, List.length_replicate, hlen]
        show _ + (_ + (_ + 1)) < _
        omega)
      have h1 := hwell.2.2 _ rfl
      rw [hw] at h1
      rw [hread _ (by
        rw [hn, List.length_append, List.length_append, List.length_append, List.length_replicate, hlen]
        show _ ≤ _ + (_ + (_ + 1))
        omega) (by
        rw [List.length_append, List.length_append, List.length_append, List.length_replicate, hlen]
        show _ + (_ + (_ + 1)) < _
        omega) _ rfl] at h1
      have h2 := bytesAsVals_inj (Except.ok.inj h1)
      rw [hn] at h2
      have h3 := congrArg (fun l : Bytes => l[t.bytes.length - endOf segs]?) h2
      rw [List.getElem?_take_of_lt (by omega), List.getElem?_drop, List.getElem?_append_right (by omega),
        List.getElem?_append_right (by omega), List.getElem?_append_left (by
          rw [List.length_replicate]; omega), List.getElem?_append_right (by rw [List.length_replicate]; omega),
        List.length_replicate, Nat.sub_self, List.getElem?_replicate_of_lt (by omega)] at h3
      exact absurd h3 (by decide)
    · exact heq
    · exfalso
      obtain ⟨hdr, ix', hlen, hw, hread⟩ := displaced_read al h c hf .little (bytesAsVals [0]) .contigious (by
        intro hh; cases hh)
      have h1l : (bytesAsVals [0]).length = 1 := rfl
      rw [h1l] at hw hread
      replace hw := hw (by omega)
      rw [bytesAsVals_write] at hw
      have hlen1 : (t.bytes ++ (hdr ++ [0])).length = t.bytes.length + (hdr.length + 1) := by
        rw [List.length_append, List.length_append]; rfl
      have hwell := ha .little .u8 (bytesAsVals [0]) .contigious rfl (by intro hh; cases hh) (by
        rw [hw]
        show (t.bytes ++ (hdr ++ [0])).length < _
        omega)
      have h1 := hwell.2.2 (bytesAsVals [0]) rfl
      rw [hw] at h1
      have h2 := readChannelFrom_mono (STy.mono al .u8) (t := ⟨ix', t.bytes ++ (hdr ++ [0])⟩)
        (t' := ⟨ix', (t.bytes ++ (hdr ++ [0])) ++ List.replicate (endOf segs - t.bytes.length) 1⟩)
        ⟨⟨_, rfl⟩, [], (List.append_nil _).symm⟩ rfl h1
      have hlen2 : ((t.bytes ++ (hdr ++ [0])) ++ List.replicate (endOf segs - t.bytes.length) (1 : UInt8)).length
          = endOf segs + hdr.length + 1 := by
        rw [List.length_append, hlen1, List.length_replicate]
        omega
      rw [hread _ (by omega) (by omega) _ rfl] at h2
      have h3 := congrArg (fun l : Bytes => l[0]?) (bytesAsVals_inj (Except.ok.inj h2))
      rw [List.getElem?_take_of_lt (by omega), List.getElem?_drop, List.getElem?_append_right (by omega),
        List.getElem?_replicate_of_lt (by omega)] at h3
      exact absurd h3 (by decide)
  · intro hend e ty vals layout hty hne hsz
    have hd := fresh_diverges hr hf
    have hc : Compatible ⟨active segs, none⟩ [.write e ty [c] vals layout] :=
      ⟨⟨⟨hty, by simp, by simp, hne, Nat.one_dvd _⟩, Or.inl hd⟩, trivial⟩
    obtain ⟨h1, h2⟩ := append_then_read_partial al ⟨h, hend⟩ (last := ⟨active segs, none⟩)
      ⟨rfl, fun _ _ hh => by cases hh⟩ [.write e ty [c] vals layout] hc hsz
    have h3 := h2 ty c hty
      (by intro op hop _; rw [List.mem_singleton.mp hop]; rfl)
      (Or.inr ⟨_, List.mem_singleton.mpr rfl, c, List.mem_singleton.mpr rfl, rfl⟩)
      (fun pre hpre hact => absurd hact (fresh_prefix h hf hpre))
    have hw : written ty c.path [.write e ty [c] vals layout] = vals := by
      unfold written
      rw [List.flatMap_cons, List.flatMap_nil, List.append_nil]
      unfold valuesFor
      dsimp only
      rw [dif_pos rfl]
      have : ([c].map ChannelPath.path).idxOf? c.path = some 0 := by
        show List.idxOf? c.path [c.path] = _
        simp [List.idxOf?]
      rw [this]
      exact column_one layout vals
    rw [channelSamples_unlisted _ _ hf, List.nil_append, hw] at h3
    refine ⟨h1 [] _ [] rfl, h3.1, fun out hout => ?_⟩
    have := h3.2 0 out
    rw [List.drop_zero, overlay_self hout] at this
    exact this

/-! ## Healthy files -/

theorem WriteSpec.Healthy.replay {al : Alloc} {t : TdmsFile} (h : Healthy al t) : ∃ segs, replay Index.new segs = .ok t.index := by
  induction h with
  | opened ho =>
    obtain ⟨_, segs, _, hr⟩ := Tedium.opened ho
    exact ⟨segs, hr⟩
  | call op _ hok ih =>
    obtain ⟨segs, hs⟩ := ih
    rename_i t0 _
    have key : ∀ (s : Segment), (t0.index.addSegment s).1.map (fun _ => ()) = .ok () →
        ∃ segs, SegSpec.replay Index.new segs = .ok (t0.index.addSegment s).2 := by
      intro s h
      cases hx : t0.index.addSegment s with
      | mk r ix =>
        cases r with
        | error e => rw [hx] at h; cases h
        | ok n => exact ⟨_, replay_snoc hs hx⟩
    cases op with
    | props e path properties => exact key (propertySegment e path properties).1 hok
    | write e ty chs vals layout =>
      have hok' : (t0.writeChannels (ty.storage al) e chs vals layout).1 = .ok () := hok
      show ∃ segs, SegSpec.replay Index.new segs = .ok (t0.writeChannels (ty.storage al) e chs vals layout).2.index
      unfold TdmsFile.writeChannels at hok' ⊢
      split at hok'
      · cases hok'
      · split at hok'
        · cases hok'
        · rename_i h1 h2
          rw [if_neg h1, if_neg h2]
          exact key _ hok'

theorem unlisted_of_channelLength {segs : List Segment} {t : TdmsFile} (h : replay Index.new segs = .ok t.index)
    {c : ChannelPath} (hc : t.channelLength c = .ok none) : ¬ Listed (entries segs) c.path := by
  intro hl
  rw [channel_length_sum h c hl] at hc
  split at hc <;> cases hc

/-- **C45, exactly.** A file has been opened, and calls have been made that returned `Ok`. Whatever is written to a new
    channel then is read back, if and only if the file ends where its last segment ends. -/
theorem append_iff (al : Alloc) {t : TdmsFile} (h : Healthy al t) (c : ChannelPath) (hc : t.channelLength c = .ok none)
    (hroom : Room c t) : AppendsWell al c t ↔ t.index.nextSegmentStart = t.bytes.length := by
  obtain ⟨segs, hs⟩ := h.replay
  exact append_replayed_iff al hs c (unlisted_of_channelLength hs hc) hroom

/-- The same for a file that has just been opened, in terms of its segments. -/
theorem append_after_open_iff (al : Alloc) {f : Bytes} {t : TdmsFile} (ht : TdmsFile.new al f = .ok t)
    {segs : List Segment} {stop : Fail} (hp : Parses al f 0 segs stop) (c : ChannelPath)
    (hc : t.channelLength c = .ok none) (hroom : Room c t) : AppendsWell al c t ↔ endOf segs = f.length := by
  obtain ⟨hb, segs', hp', hr⟩ := (open_is_replay al f t).mp ht
  obtain ⟨rfl, _⟩ := hp.unique hp'
  rw [append_iff al (.opened ht) c hc hroom, (replay_refines hr).next, hb]

/-- A file to which could be appended, with other bytes behind it: only if nothing was added. -/
theorem append_grown_iff (al : Alloc) {t : TdmsFile} (h : Healthy al t) (c : ChannelPath) (hc : t.channelLength c = .ok none)
    (hw : AppendsWell al c t) {f : Bytes} (hf : t.bytes <+: f) (hroom : Room c ⟨t.index, f⟩) :
    AppendsWell al c ⟨t.index, f⟩ ↔ f = t.bytes := by
  obtain ⟨segs, hs⟩ := h.replay
  have hu := unlisted_of_channelLength hs hc
  have hle := hf.length_le
  have hroom' : Room c t := by
    unfold Room at hroom ⊢
    dsimp only at hroom
    omega
  have he := (append_replayed_iff al hs c hu hroom').mp hw
  rw [append_replayed_iff al (t := ⟨t.index, f⟩) hs c hu hroom]
  show t.index.nextSegmentStart = f.length ↔ _
  rw [he]
  constructor
  · intro hl; exact (hf.eq_of_length hl).symm
  · intro hh; rw [hh]

/-- **C49, exactly.** A write ends with an I/O error, in a state in which a new channel could be written. It can still be
    written, to be read back, if and only if nothing of the failed call stays behind: neither in the file nor in the buffer. -/
theorem resume_after_error_iff (al : Alloc) {split : Bytes → List Bytes} (hs : ∀ b, (split b).flatten = b) {w : FileWriter}
    (h : Healthy al ⟨w.index, w.out.contents⟩) (c : ChannelPath)
    (hc : (TdmsFile.mk w.index w.out.contents).channelLength c = .ok none)
    (hw : AppendsWell al c ⟨w.index, w.out.contents⟩) (op : Op) (hio : IsIoError (run al split w (.op op)).1)
    (hroom : Room c ⟨(run al split w (.op op)).2.index, (run al split w (.op op)).2.out.contents⟩) :
    AppendsWell al c ⟨(run al split w (.op op)).2.index, (run al split w (.op op)).2.out.contents⟩ ↔
      (run al split w (.op op)).2.out.contents = w.out.contents := by
  have hsess : Session al ⟨w.index, w.out.contents⟩ := by
    clear hc hw hio hroom
    generalize TdmsFile.mk w.index w.out.contents = t at h
    induction h with
    | opened ho => exact .opened ho
    | call op _ _ ih => exact .call op ih
  rcases write_outcome al hs (t := ⟨w.index, w.out.contents⟩) (w := w) ⟨rfl, rfl⟩ op with ⟨_, h2, _⟩ | ⟨kind, part, h1, h2, h3, h4, h5⟩
  · exact absurd (h2 ▸ hio) (no_ioError hsess op)
  · rw [h3] at hroom ⊢
    exact append_grown_iff al h c hc hw (by rw [h4]; exact List.prefix_append _ _) hroom

/-- **C63, exactly, for writers.** A program has a file open to which it could append, while others do anything with the same
    file but create it anew. It can still append to it, if and only if they have not written anything. -/
theorem writers_beside_writers_iff {ν : Type} [DecidableEq ν] (al : Alloc) {name : ν} {h : Nat} {cs : List (DiskCall ν)}
    {d : Disk ν} {index : Index} {t : TdmsFile} (hh : d.handles[h]? = some (name, index)) (hv : d.view h = some t)
    (hk : ∀ c ∈ cs, Kept name c) (hno : ∀ c ∈ cs, c.through h = none) (ht : Healthy al t) (c : ChannelPath)
    (hc : t.channelLength c = .ok none) (hw : AppendsWell al c t) :
    ∃ t', (d.run al cs).view h = some t' ∧
      (Room c t' → (AppendsWell al c t' ↔ (d.run al cs).files name = d.files name)) := by
  unfold Disk.view at hv
  rw [hh] at hv
  dsimp only at hv
  cases hf : d.files name with
  | none => rw [hf] at hv; cases hv
  | some b =>
    rw [hf] at hv
    cases hv
    obtain ⟨g, hg⟩ := files_only_grow al cs hf hk
    have hh' := handle_kept al cs hh hno
    refine ⟨⟨index, b ++ g⟩, ?_, fun hroom => ?_⟩
    · unfold Disk.view
      rw [hh']
      dsimp only
      rw [hg]
      rfl
    · rw [append_grown_iff al ht c hc hw (List.prefix_append _ _) hroom, hg]
      exact ⟨fun h => by rw [h], fun h => Option.some.inj h⟩

/-! ## Examples -/

/-- The hypotheses of the theorems, in a form that can be computed. -/
def appendable (c : ChannelPath) (t : TdmsFile) (ends : Bool) : Bool :=
  decide (t.channelLength c = .ok none) &&
    decide (2 * t.bytes.length + t.index.nextSegmentStart + textSize c.path + 100 < 2 ^ 63) &&
    decide (decide (t.index.nextSegmentStart = t.bytes.length) = ends)

theorem appendable_iff {c : ChannelPath} {t : TdmsFile} {ends : Bool} (h : appendable c t ends = true) :
    t.channelLength c = .ok none ∧ Room c t ∧ (t.index.nextSegmentStart = t.bytes.length ↔ ends = true) := by
  unfold appendable at h
  rw [Bool.and_eq_true, Bool.and_eq_true, decide_eq_true_iff, decide_eq_true_iff, decide_eq_true_iff] at h
  exact ⟨h.1.1, h.1.2, by rw [← h.2, decide_eq_true_iff]⟩

/-- What is appended to an example file is read back; with one byte more, or three bytes less, the file can
    be opened, but what is appended to it is not read back. -/
theorem append_iff_example :
    (∃ t, TdmsFile.new anyAlloc (fileOf windowFile) = .ok t ∧ AppendsWell anyAlloc (chan "z") t) ∧
    (∃ t, TdmsFile.new anyAlloc (fileOf windowFile ++ [0]) = .ok t ∧ ¬ AppendsWell anyAlloc (chan "z") t) ∧
    (∃ t, TdmsFile.new anyAlloc ((fileOf windowFile).take ((fileOf windowFile).length - 3)) = .ok t ∧
      ¬ AppendsWell anyAlloc (chan "z") t) := by
  refine ⟨?_, ?_, ?_⟩
  · obtain ⟨t, ht, hp⟩ := ok_and (x := TdmsFile.new anyAlloc (fileOf windowFile)) (P := fun t => appendable (chan "z") t true)
      (by decide +kernel)
    obtain ⟨h1, h2, h3⟩ := appendable_iff hp
    exact ⟨t, ht, (append_iff anyAlloc (.opened ht) _ h1 h2).mpr (h3.mpr rfl)⟩
  · obtain ⟨t, ht, hp⟩ := ok_and (x := TdmsFile.new anyAlloc (fileOf windowFile ++ [0]))
      (P := fun t => appendable (chan "z") t false) (by decide +kernel)
    obtain ⟨h1, h2, h3⟩ := appendable_iff hp
    exact ⟨t, ht, fun hw => by cases h3.mp ((append_iff anyAlloc (.opened ht) _ h1 h2).mp hw)⟩
  · obtain ⟨t, ht, hp⟩ := ok_and (x := TdmsFile.new anyAlloc ((fileOf windowFile).take ((fileOf windowFile).length - 3)))
      (P := fun t => appendable (chan "z") t false) (by decide +kernel)
    obtain ⟨h1, h2, h3⟩ := appendable_iff hp
    exact ⟨t, ht, fun hw => by cases h3.mp ((append_iff anyAlloc (.opened ht) _ h1 h2).mp hw)⟩

theorem healthy_session {ops : List Op} (h : AllSucceed anyAlloc ⟨Index.new, []⟩ ops) : Healthy anyAlloc (session ops) := by
  have : ∀ (ops : List Op) (t : TdmsFile), Healthy anyAlloc t → AllSucceed anyAlloc t ops →
      Healthy anyAlloc (runOps anyAlloc t ops) := by
    intro ops
    induction ops with
    | nil => intro t ht _; exact ht
    | cons op ops ih =>
      intro t ht hs
      rw [allSucceed_cons] at hs
      exact ih _ (.call op ht hs.1) hs.2
  exact this ops _ (.opened (f := []) rfl) h

/-- A stream that refuses the second write before it has taken any byte of it, and one that has taken some. -/
def refusingWriter : FileWriter := faultySession [.accept 16, .accept 16, .accept 16, .accept 16, .fail (.other 28)]
  [.op (writeU16 ["a"] [1, 2, 3, 4, 5, 6])]
def partialWriter : FileWriter := faultySession [.accept 16, .accept 16, .accept 16, .accept 16, .accept 16, .fail (.other 28)]
  [.op (writeU16 ["a"] [1, 2])]
/-- The second write. -/
def secondWrite (w : FileWriter) : R Unit × FileWriter := run anyAlloc byByte w (.op (writeU16 ["b"] [3]))

theorem resume_example (w : FileWriter) (vs : List Nat)
    (hw : TdmsFile.mk w.index w.out.contents = session [writeU16 ["a"] vs])
    (hok : ((writeU16 ["a"] vs).run anyAlloc ⟨Index.new, []⟩).1 = .ok ())
    (ha : appendable (chan "c") ⟨w.index, w.out.contents⟩ true = true)
    (hio : (secondWrite w).1 = R.err (.ioError (.other 28))) (same : Bool)
    (hb : appendable (chan "c") ⟨(secondWrite w).2.index, (secondWrite w).2.out.contents⟩ same = true) :
    AppendsWell anyAlloc (chan "c") ⟨(secondWrite w).2.index, (secondWrite w).2.out.contents⟩ ↔
      (secondWrite w).2.out.contents = w.out.contents := by
  have hh : Healthy anyAlloc ⟨w.index, w.out.contents⟩ := by
    rw [hw]
    exact .call (writeU16 ["a"] vs) (.opened (f := []) rfl) hok
  obtain ⟨h1, h2, h3⟩ := appendable_iff ha
  exact resume_after_error_iff anyAlloc byByte_flatten hh _ h1 ((append_iff anyAlloc hh _ h1 h2).mpr (h3.mpr rfl)) _
    ⟨_, hio⟩ (appendable_iff hb).2.1

/-- The two examples of C49: after the first failed write the next channel can be written, after the second it cannot. -/
theorem resume_after_error_iff_example :
    (secondWrite refusingWriter).1 = R.err (.ioError (.other 28)) ∧
    AppendsWell anyAlloc (chan "c") ⟨(secondWrite refusingWriter).2.index, (secondWrite refusingWriter).2.out.contents⟩ ∧
    (secondWrite partialWriter).1 = R.err (.ioError (.other 28)) ∧
    ¬ AppendsWell anyAlloc (chan "c") ⟨(secondWrite partialWriter).2.index, (secondWrite partialWriter).2.out.contents⟩ := by
  have k1 := resume_example refusingWriter [1, 2, 3, 4, 5, 6] (by decide +kernel) (by decide +kernel) (by decide +kernel)
    (by decide +kernel) true (by decide +kernel)
  have k2 := resume_example partialWriter [1, 2] (by decide +kernel) (by decide +kernel) (by decide +kernel)
    (by decide +kernel) false (by decide +kernel)
  have e1 : (secondWrite refusingWriter).2.out.contents = refusingWriter.out.contents := by decide +kernel
  have e2 : (secondWrite partialWriter).2.out.contents ≠ partialWriter.out.contents := by decide +kernel
  exact ⟨by decide +kernel, k1.mpr e1, by decide +kernel, fun h => e2 (k2.mp h)⟩

/-- A file that one program has created and written, and another one has loaded. -/
def sharedDisk : Disk Nat := emptyDisk.run anyAlloc [.create 0 none, .call 0 (writeU16 ["a"] [1, 2]), .load 0 none]

/-- The two programs of `two_writers_counterexample`: the second can no longer append once the first has written. -/
theorem writers_beside_writers_iff_example :
    (∃ t, (sharedDisk.run anyAlloc [.load 0 none, .create 1 none]).view 1 = some t ∧ AppendsWell anyAlloc (chan "c") t) ∧
    ∃ t, (sharedDisk.run anyAlloc [.call 0 (writeU16 ["b"] [3, 4])]).view 1 = some t ∧ ¬ AppendsWell anyAlloc (chan "c") t := by
  obtain ⟨t0, ht0, hp0⟩ := ok_and (x := TdmsFile.new anyAlloc (session [writeU16 ["a"] [1, 2]]).bytes)
    (P := fun t => appendable (chan "c") t true && decide (sharedDisk.handles[1]? = some (0, t.index)) &&
      decide (sharedDisk.view 1 = some t)) (by decide +kernel)
  rw [Bool.and_eq_true, Bool.and_eq_true, decide_eq_true_iff, decide_eq_true_iff] at hp0
  obtain ⟨⟨ha, hh⟩, hv⟩ := hp0
  obtain ⟨h1, h2, h3⟩ := appendable_iff ha
  have hw := (append_iff anyAlloc (.opened ht0) _ h1 h2).mpr (h3.mpr rfl)
  constructor
  · obtain ⟨t, hv', hiff⟩ := writers_beside_writers_iff anyAlloc (cs := [.load 0 none, .create 1 none]) hh hv (by
      intro c hc
      simp only [List.mem_cons, List.not_mem_nil, or_false] at hc
      rcases hc with rfl | rfl
      · exact True.intro
      · intro h; cases h) (by
      intro c hc
      simp only [List.mem_cons, List.not_mem_nil, or_false] at hc
      rcases hc with rfl | rfl <;> rfl) (.opened ht0) (chan "c") h1 hw
    have hroom : ((sharedDisk.run anyAlloc [.load 0 none, .create 1 none]).view 1).all (fun t => appendable (chan "c") t true)
        = true := by decide +kernel
    rw [hv'] at hroom
    exact ⟨t, hv', (hiff (appendable_iff (ends := true) hroom).2.1).mpr (by decide +kernel)⟩
  · obtain ⟨t, hv', hiff⟩ := writers_beside_writers_iff anyAlloc (cs := [.call 0 (writeU16 ["b"] [3, 4])]) hh hv (by
      intro c hc
      rw [List.mem_singleton.mp hc]
      exact True.intro) (by
      intro c hc
      rw [List.mem_singleton.mp hc]
      rfl) (.opened ht0) (chan "c") h1 hw
    have hroom : ((sharedDisk.run anyAlloc [.call 0 (writeU16 ["b"] [3, 4])]).view 1).all
        (fun t => appendable (chan "c") t false) = true := by decide +kernel
    rw [hv'] at hroom
    have hne : (sharedDisk.run anyAlloc [.call 0 (writeU16 ["b"] [3, 4])]).files 0 ≠ sharedDisk.files 0 := by decide +kernel
    exact ⟨t, hv', fun h => hne ((hiff (appendable_iff (ends := false) hroom).2.1).mp h)⟩

end Tedium
