import Verif.Spec.OwnType
import Verif.Proofs.Frame
import Verif.Props.ReadBack

/-! # Sample types of one's own -/

namespace Tedium
open SegSpec WriteSpec

theorem numeric_decode_write (w : Nat) (e : Endian) {bs : Bytes} (h : bs.length = w) :
    encNat e w (BitVec.ofNat (8 * w) (decNat e bs)).toNat = bs := by
  have hlt := decNat_lt e bs
  rw [BitVec.toNat_ofNat, ← pow256, Nat.mod_eq_of_lt (by rw [← h]; exact hlt), ← h]
  exact encNat_decNat e bs

/-- Every sequence of bytes of the right length is a value. -/
theorem STy.write_decode (al : Alloc) {ty : STy} (h : PlainTy ty) (e : Endian) {bs : Bytes}
    (hl : bs.length = (ty.storage al).memSize) : (ty.storage al).write e (Format.decode ty e bs) = bs := by
  have hc : ∀ w, bs.length = 2 * w →
      encNat e w (BitVec.ofNat (8 * w) (decNat e (bs.take w))).toNat
        ++ encNat e w (BitVec.ofNat (8 * w) (decNat e (bs.drop w))).toNat = bs := by
    intro w hw
    rw [numeric_decode_write w e (by rw [List.length_take]; omega), numeric_decode_write w e (by rw [List.length_drop]; omega),
      List.take_append_drop]
  obtain ⟨h1, h2⟩ := h
  cases ty <;> first
    | (cases h1; done)
    | exact absurd rfl h2
    | exact numeric_decode_write _ e hl
    | exact hc 4 hl
    | exact hc 8 hl

/-! ## Byte order of blocks -/

/-- All blocks are little-endian. -/
def LittleIx (ix : Index) : Prop := ∀ b ∈ ix.dataBlocks, b.byteOrder = .little

theorem addRawData_little {ix : Index} {s : Segment} (hs : s.toc.bigEndian = false) (h : LittleIx ix) :
    LittleIx (ix.addRawData s).2 := by
  unfold Index.addRawData
  split
  · split
    · exact h
    · rename_i chs _
      split
      · exact h
      · rename_i hne
        have hc := fromSegment_cases s ix.nextSegmentStart chs (by intro hh; rw [hh] at hne; exact hne rfl)
        split
        · exact h
        · rename_i b hb
          have hbo : b.byteOrder = .little := by
            rw [hb] at hc
            rcases hc with ⟨_, h⟩ | ⟨_, h⟩ | ⟨_, _, h⟩ | ⟨_, _, h⟩
            · cases h
            · cases h
            · cases h
            · cases h
              show (if s.toc.bigEndian then Endian.big else Endian.little) = _
              rw [hs]; rfl
          unfold Index.insertDataBlock
          split
          · exact h
          · intro b' hb'
            rcases List.mem_append.mp hb' with hb' | hb'
            · exact h b' hb'
            · rw [List.mem_singleton.mp hb']; exact hbo
  · exact h

theorem addSegment_little {ix : Index} {s : Segment} (hs : s.toc.bigEndian = false) (h : LittleIx ix) :
    LittleIx (ix.addSegment s).2 := by
  rw [addSegment_eq]
  have hf := (afterObjects_frame ix s).2
  revert hf
  cases afterObjects ix s with
  | mk r ix1 =>
    intro hf
    have h1 : LittleIx ix1 := by unfold LittleIx; dsimp only at hf; rw [hf]; exact h
    cases r with
    | error e => exact h1
    | ok u =>
      dsimp only
      have h2 := addRawData_little hs h1
      revert h2
      cases ix1.addRawData s with
      | mk r2 ix2 =>
        intro h2
        cases r2 with
        | error e => exact h2
        | ok u2 =>
          dsimp only
          rw [advance_eq]
          split <;> exact h2

theorem writeChannels_little {α : Type} (S : Storage α) {t : TdmsFile} (h : LittleIx t.index) (chs : List ChannelPath)
    (vals : List α) (layout : DataLayout) : LittleIx (t.writeChannels S .little chs vals layout).2.index := by
  unfold TdmsFile.writeChannels
  split
  · exact h
  · split
    · exact h
    · exact addSegment_little rfl h

theorem runAny_little {α : Type} (al : Alloc) (S : Storage α) : ∀ (ops : List (AnyOp α)) {t : TdmsFile}, LittleIx t.index →
    (∀ op ∈ ops, op.Little) → LittleIx (runAny al S t ops).index := by
  intro ops
  induction ops with
  | nil => intro t h _; exact h
  | cons op ops ih =>
    intro t h hl
    refine ih (t := (op.run al S t).2) ?_ (fun o ho => hl o (List.mem_cons_of_mem _ ho))
    have hop := hl op List.mem_cons_self
    cases op with
    | own chs vals layout => exact writeChannels_little S h chs vals layout
    | lib op =>
      cases op with
      | write e ty chs vals layout =>
        have : e = .little := hop
        subst this
        exact writeChannels_little _ h chs vals layout
      | props e path ps =>
        have : e = .little := hop
        subst this
        show LittleIx (t.writeProperties .little path ps).2.index
        unfold TdmsFile.writeProperties
        exact addSegment_little rfl h

/-- Samples of little-endian blocks, with another function that makes values of bytes. -/
theorem channelSamples_little {α β : Type} (dec : Endian → Bytes → α) (conv : Endian → α → β) {segs : List Segment}
    {ix : Index} (h : replay Index.new segs = .ok ix) (hl : LittleIx ix) (f : Bytes) (p : Text) :
    channelSamples (fun e bs => conv e (dec e bs)) f segs p = (channelSamples dec f segs p).map (conv .little) := by
  have hr := replay_refines h
  unfold channelSamples
  rw [List.map_flatMap]
  have hcongr : ∀ (l : List (List Segment)) (u v : List Segment → List β), (∀ x ∈ l, u x = v x) → l.flatMap u = l.flatMap v := by
    intro l u v huv
    rw [List.flatMap_def, List.flatMap_def, List.map_congr_left huv]
  apply hcongr
  intro pre hpre
  obtain ⟨i, hi⟩ := List.mem_iff_getElem?.mp hpre
  obtain ⟨b, hb, hgb⟩ := hr.block hi
  have hbo := hl b (List.mem_of_getElem? hgb)
  rw [hb]
  split
  · rename_i b' j m hb' hj hm
    cases hb'
    unfold DataBlock.samples
    rw [List.map_map]
    apply List.map_congr_left
    intro s _
    show conv b.byteOrder _ = _
    rw [hbo]
    rfl
  · rfl

end Tedium
