import Verif.Spec.SampleData
import Verif.Props.SampleData
import Verif.Props.Delivered
import Verif.Props.Jointly

/-! # Which bytes of a file a read depends on (C107) -/

namespace Tedium
open SegSpec SampleData

theorem Cell.value_same {α : Type} (dec : Endian → Bytes → α) {w : Nat} {f g : Bytes} {c : Cell}
    (h : SameBytes f g c.2 (c.2 + w)) : Cell.value dec w f c = Cell.value dec w g c := by
  unfold Cell.value
  rw [drop_take_same h]

theorem overlay_front_congr {α : Type} {out xs ys : List α} (h : ∀ i < out.length, xs[i]? = ys[i]?) :
    overlay out xs = overlay out ys := by
  apply List.ext_getElem?
  intro i
  by_cases hi : i < out.length
  · rw [overlay_getElem? _ _ _ hi, overlay_getElem? _ _ _ hi, h i hi]
  · rw [List.getElem?_eq_none (by rw [length_overlay]; omega), List.getElem?_eq_none (by rw [length_overlay]; omega)]

theorem number_inj {w : Nat} {e : Endian} {bs bs' : Bytes} (h : bs.length = w) (h' : bs'.length = w)
    (hx : BitVec.ofNat (8 * w) (decNat e bs) = BitVec.ofNat (8 * w) (decNat e bs')) : bs = bs' := by
  have hlim : 2 ^ (8 * w) = 256 ^ w := by rw [Nat.pow_mul]
  have h1 := decNat_lt e bs
  have h2 := decNat_lt e bs'
  have h3 := congrArg BitVec.toNat hx
  rw [BitVec.toNat_ofNat, BitVec.toNat_ofNat, hlim, Nat.mod_eq_of_lt (by rw [← h]; exact h1),
    Nat.mod_eq_of_lt (by rw [← h']; exact h2)] at h3
  rw [← encNat_decNat e bs, ← encNat_decNat e bs', h, h', h3]

/-- Another byte. -/
def otherByte (b : UInt8) : UInt8 := if b = 0 then 1 else 0

theorem otherByte_ne (b : UInt8) : otherByte b ≠ b := by
  unfold otherByte
  split
  · rename_i h; rw [h]; decide
  · rename_i h; exact fun hx => h hx.symm

/-- Every byte of a value matters. -/
theorem decode_changed {ty : STy} (h : Format.fixedTy ty = true) (al : Alloc) (e : Endian) {bs bs' : Bytes}
    (hl : bs.length = (ty.storage al).memSize) (hl' : bs'.length = (ty.storage al).memSize) {j : Nat} {b : UInt8}
    (hb : bs[j]? = some b) (hb' : bs'[j]? = some (otherByte b)) :
    Format.decode ty e bs' ≠ Format.decode ty e bs := by
  have hne : bs' ≠ bs := by
    intro hx
    rw [hx, hb] at hb'
    exact otherByte_ne b (Option.some.inj hb').symm
  have hnum : ∀ w, bs.length = w → bs'.length = w →
      BitVec.ofNat (8 * w) (decNat e bs') ≠ BitVec.ofNat (8 * w) (decNat e bs) :=
    fun w h1 h2 hx => hne (number_inj h2 h1 hx)
  have hpair : ∀ w, bs.length = w + w → bs'.length = w + w →
      (⟨BitVec.ofNat (8 * w) (decNat e (bs'.take w)), BitVec.ofNat (8 * w) (decNat e (bs'.drop w))⟩ : Complex (BitVec (8 * w)))
      ≠ ⟨BitVec.ofNat (8 * w) (decNat e (bs.take w)), BitVec.ofNat (8 * w) (decNat e (bs.drop w))⟩ := by
    intro w h1 h2 hx
    injection hx with hx1 hx2
    have e1 := number_inj (by rw [List.length_take]; omega) (by rw [List.length_take]; omega) hx1
    have e2 := number_inj (by rw [List.length_drop]; omega) (by rw [List.length_drop]; omega) hx2
    exact hne (by rw [← List.take_append_drop w bs', e1, e2, List.take_append_drop])
  cases ty
  case string => cases h
  case extended => cases h
  case bool =>
    have hj : j < 1 := by
      have := (List.getElem?_eq_some_iff.mp hb).1
      rw [hl] at this
      exact this
    have hj0 : j = 0 := by omega
    subst hj0
    cases bs with
    | nil => cases hb
    | cons x xs =>
      cases bs' with
      | nil => cases hb'
      | cons x' xs' =>
        injection hb with hb
        injection hb' with hb'
        subst hb
        subst hb'
        show ((otherByte x != 0 : Bool)) ≠ (x != 0)
        unfold otherByte
        by_cases hx : x = 0
        · subst hx; decide
        · rw [if_neg hx]
          simp [hx]
  case complex32 => exact hpair 4 hl hl'
  case complex64 => exact hpair 8 hl hl'
  all_goals exact hnum _ hl hl'

/-- Another byte in a place of a file gives another value. -/
theorem Cell.value_changed {ty : STy} (hty : Format.fixedTy ty = true) (al : Alloc) {f : Bytes} {cell : Cell} {p : Nat}
    (hin : cell.2 + (ty.storage al).memSize ≤ f.length) (hp1 : cell.2 ≤ p) (hp2 : p < cell.2 + (ty.storage al).memSize)
    (hpl : p < f.length) :
    Cell.value (Format.decode ty) (ty.storage al).memSize (f.set p (otherByte f[p])) cell ≠
      Cell.value (Format.decode ty) (ty.storage al).memSize f cell := by
  have hg : (f.set p (otherByte f[p])).length = f.length := List.length_set
  refine decode_changed hty al cell.1 (bs := (f.drop cell.2).take (ty.storage al).memSize)
    (bs' := ((f.set p (otherByte f[p])).drop cell.2).take (ty.storage al).memSize) (j := p - cell.2) (b := f[p]) ?_ ?_ ?_ ?_
  · rw [List.length_take, List.length_drop]; omega
  · rw [List.length_take, List.length_drop, hg]; omega
  · rw [List.getElem?_take, if_pos (by omega), List.getElem?_drop, show cell.2 + (p - cell.2) = p by omega,
      List.getElem?_eq_getElem hpl]
  · rw [List.getElem?_take, if_pos (by omega), List.getElem?_drop, show cell.2 + (p - cell.2) = p by omega,
      List.getElem?_set_self hpl]

/-- **C107.** A read that can be served depends on the bytes at the places of C73, as many places as the buffer takes, on
    every one of them, and on nothing else in the file: what stands at certain positions has no influence on it if and
    only if none of these positions is in such a place. -/
theorem read_depends_iff (al : Alloc) (ty : STy) (hty : Format.fixedTy ty = true) {segs : List Segment}
    {t : TdmsFile} (h : replay Index.new segs = .ok t.index) (hf : t.bytes.length < 2 ^ 63) (c : ChannelPath)
    (hl : Listed (entries segs) c.path) (start : Nat) (out : List ty.Val)
    (hserved : ServedIn (ty.storage al).supported (ty.storage al).memSize t.bytes segs c.path start out.length)
    (changed : Nat → Prop) :
    (∀ g : Bytes, g.length = t.bytes.length → (∀ p, ¬ changed p → t.bytes[p]? = g[p]?) →
      ({ t with bytes := g } : TdmsFile).readChannelFrom (ty.storage al) c start out
        = t.readChannelFrom (ty.storage al) c start out) ↔
    (∀ i < out.length, ∀ cell, (delivered (ty.storage al).memSize segs c.path start)[i]? = some cell →
      ∀ p, cell.2 ≤ p → p < cell.2 + (ty.storage al).memSize → ¬ changed p) := by
  have hread : ∀ g : Bytes, g.length = t.bytes.length →
      ({ t with bytes := g } : TdmsFile).readChannelFrom (ty.storage al) c start out = .ok (overlay out
        ((delivered (ty.storage al).memSize segs c.path start).map
          (Cell.value (Format.decode ty) (ty.storage al).memSize g))) := by
    intro g hg
    refine read_layout_exact al ty hty (t := { t with bytes := g }) h (by rw [hg]; exact hf) c hl start out ?_
    intro pre hpre hact hpos hst hlen
    have hsv := hserved pre hpre hact hpos hst hlen
    obtain ⟨b, hb, hin⟩ := hsv.inside
    exact ⟨hsv.stored, ⟨b, hb, by rw [hg]; exact hin⟩, hsv.contiguous, hsv.interleaved⟩
  have hself : t.readChannelFrom (ty.storage al) c start out = .ok (overlay out
        ((delivered (ty.storage al).memSize segs c.path start).map
          (Cell.value (Format.decode ty) (ty.storage al).memSize t.bytes))) := hread t.bytes rfl
  constructor
  · intro hall i hi cell hd p hp1 hp2 hch
    obtain ⟨pre, hpre, b, hb, hs1, hs2, hs3⟩ := delivered_inside h hserved hi hd
    have hpl : p < t.bytes.length := by omega
    have hg : (t.bytes.set p (otherByte t.bytes[p])).length = t.bytes.length := List.length_set
    have heq := hall _ hg (fun q hq => by
      rw [List.getElem?_set_ne]
      rintro rfl
      exact hq hch)
    rw [hread _ hg, hself] at heq
    have h2 := congrArg (fun l : List ty.Val => l[i]?) (Except.ok.inj heq)
    rw [overlay_getElem? _ _ _ hi, overlay_getElem? _ _ _ hi, List.getElem?_map, List.getElem?_map, hd] at h2
    exact Cell.value_changed hty al (by omega) hp1 hp2 hpl (Option.some.inj h2)
  · intro hcells g hg hsame
    rw [hread g hg, hself]
    congr 1
    refine overlay_front_congr (fun i hi => ?_)
    rw [List.getElem?_map, List.getElem?_map]
    cases hd : (delivered (ty.storage al).memSize segs c.path start)[i]? with
    | none => rfl
    | some cell =>
      exact congrArg some (Cell.value_same _ (fun p h1 h2 => hsame p (hcells i hi cell hd p h1 h2))).symm

/-- **C107, other channels.** Where a read is right (C73), the samples it is asked for are all it depends on: change the
    samples of other channels, or other samples of the same channel, in any way, and it gives the same. -/
theorem read_ignores_other_samples (al : Alloc) (ty : STy) (hty : Format.fixedTy ty = true) {segs : List Segment}
    {t : TdmsFile} (c : ChannelPath) (start : Nat) (out : List ty.Val)
    (htypes : ∀ pre ∈ dataPrefixes segs, c.path ∈ active pre → ∀ m, layoutOf (entries pre) c.path = some m →
      m.dataType ∈ (ty.storage al).supported)
    (hright : ReadsRight al ty t segs c start out.length) (g : Bytes) (hg : SameMetaData segs t.bytes g)
    (hsame : ∀ i < out.length, ∀ cell, (sampleCells segs c.path)[start + i]? = some cell →
      SameBytes t.bytes g cell.2 (cell.2 + (ty.storage al).memSize)) :
    ({ t with bytes := g } : TdmsFile).readChannelFrom (ty.storage al) c start out
      = t.readChannelFrom (ty.storage al) c start out := by
  have h1 := hright g hg out rfl
  have h2 : t.readChannelFrom (ty.storage al) c start out = _ := hright t.bytes ⟨rfl, fun _ _ => rfl⟩ out rfl
  rw [h1, h2, channelSamples_cells al ty hty htypes, channelSamples_cells al ty hty htypes]
  congr 1
  refine overlay_front_congr (fun i hi => ?_)
  rw [List.getElem?_drop, List.getElem?_drop, List.getElem?_map, List.getElem?_map]
  cases hd : (sampleCells segs c.path)[start + i]? with
  | none => rfl
  | some cell => exact congrArg some (Cell.value_same _ (hsame i hi cell hd)).symm

/-- **C107, several channels at once.** What stands at certain positions of the file has no influence on a read of several
    channels that can be served if and only if none of these positions is in a place whose value is, in the end, in one of
    the buffers (by C75). -/
theorem joint_read_depends_iff (al : Alloc) (ty : STy) (hty : Format.fixedTy ty = true) {segs : List Segment}
    {t : TdmsFile} (h : replay Index.new segs = .ok t.index) (hf : t.bytes.length < 2 ^ 63) (cs : List ChannelPath)
    (hl : ∀ c ∈ cs, Listed (entries segs) c.path) (start : Nat) (outs : List (List ty.Val))
    (hlen : outs.length = cs.length)
    (hserved : JointlyServed (ty.storage al).supported (ty.storage al).memSize t.bytes segs
      ((cs.map ChannelPath.path).zip (outs.map List.length)) start) (changed : Nat → Prop) :
    (∀ g : Bytes, g.length = t.bytes.length → (∀ p, ¬ changed p → t.bytes[p]? = g[p]?) →
      ({ t with bytes := g } : TdmsFile).readChannelsFrom (ty.storage al) cs start outs
        = t.readChannelsFrom (ty.storage al) cs start outs) ↔
    (∀ (s : Nat) (out : List ty.Val) (as : List (Nat × Cell)), outs[s]? = some out →
      (storedFrom (ty.storage al).memSize segs ((cs.map ChannelPath.path).zip (outs.map List.length)) start)[s]? = some as →
      ∀ k < out.length, ∀ cell, lastAt as k = some cell →
        ∀ p, cell.2 ≤ p → p < cell.2 + (ty.storage al).memSize → ¬ changed p) := by
  have hread : ∀ g : Bytes, g.length = t.bytes.length →
      ({ t with bytes := g } : TdmsFile).readChannelsFrom (ty.storage al) cs start outs = .ok (List.zipWith
        (storeAll (Cell.value (Format.decode ty) (ty.storage al).memSize g)) outs
        (storedFrom (ty.storage al).memSize segs ((cs.map ChannelPath.path).zip (outs.map List.length)) start)) :=
    fun g hg => joint_read_exact al ty hty (t := { t with bytes := g }) h (by rw [hg]; exact hf) cs hl start outs hlen
      (jointlyServed_congr hserved hg.symm)
  have hself : t.readChannelsFrom (ty.storage al) cs start outs = .ok (List.zipWith
        (storeAll (Cell.value (Format.decode ty) (ty.storage al).memSize t.bytes)) outs
        (storedFrom (ty.storage al).memSize segs ((cs.map ChannelPath.path).zip (outs.map List.length)) start)) :=
    hread t.bytes rfl
  constructor
  · intro hall s out as ho has k hk cell hd p hp1 hp2 hch
    obtain ⟨x, pre, b, ts, u, r, hor⟩ := stored_origin _ _ _ _ _ has (lastAt_mem hd)
    have hcont : (ts.map (·.chan)).contains u.chan = true :=
      List.contains_iff_mem.mpr (List.mem_map_of_mem hor.taker)
    obtain ⟨hs1, hs2⟩ := DataBlock.offered_inside hcont hor.offered
    have hs3 := (hserved _ hor.read).inside
    have hr : cell.2 = r := congrArg Prod.snd hor.cell
    have hin : cell.2 + (ty.storage al).memSize ≤ t.bytes.length := by dsimp only at hs3; omega
    have hpl : p < t.bytes.length := by omega
    have hg : (t.bytes.set p (otherByte t.bytes[p])).length = t.bytes.length := List.length_set
    have heq := hall _ hg (fun q hq => by
      rw [List.getElem?_set_ne]
      rintro rfl
      exact hq hch)
    rw [hread _ hg, hself] at heq
    have h2 := congrArg (fun l : List (List ty.Val) => l[s]?) (Except.ok.inj heq)
    simp only [List.getElem?_zipWith, ho, has, Option.some.injEq] at h2
    have h3 := congrArg (fun l : List ty.Val => l[k]?) h2
    rw [storeAll_getElem? _ _ _ _ hk, storeAll_getElem? _ _ _ _ hk, hd] at h3
    exact Cell.value_changed hty al hin hp1 hp2 hpl (Option.some.inj h3)
  · intro hcells g hg hsame
    rw [hread g hg, hself]
    congr 1
    apply List.ext_getElem?
    intro s
    simp only [List.getElem?_zipWith]
    cases ho : outs[s]? with
    | none => rfl
    | some out =>
      cases has : (storedFrom (ty.storage al).memSize segs
          ((cs.map ChannelPath.path).zip (outs.map List.length)) start)[s]? with
      | none => rfl
      | some as =>
        dsimp only
        congr 1
        apply List.ext_getElem?
        intro k
        by_cases hk : k < out.length
        · rw [storeAll_getElem? _ _ _ _ hk, storeAll_getElem? _ _ _ _ hk]
          cases hd : lastAt as k with
          | none => rfl
          | some cell =>
            exact congrArg some (Cell.value_same _
              (fun p h1 h2 => hsame p (hcells s out as ho has k hk cell hd p h1 h2))).symm
        · rw [List.getElem?_eq_none (by rw [length_storeAll]; omega), List.getElem?_eq_none (by rw [length_storeAll]; omega)]

/-- The file of `uneven_example`, and a read of four samples of `b` from sample 1 on, which is right: they are at 108 to
    112 and 114 to 118. So all of `a` (104, 105, 112, 113), and the other samples of `b`, may be changed, and no byte of
    these four. -/
theorem read_depends_example : ∃ t, TdmsFile.new anyAlloc (fileOf unevenFile) = .ok t ∧
    replay Index.new (unevenFile.map FileSegment.segment) = .ok t.index ∧ t.bytes.length < 2 ^ 63 ∧
    Listed (entries (unevenFile.map FileSegment.segment)) (chan "b").path ∧
    ServedIn (STy.u16.storage anyAlloc).supported (STy.u16.storage anyAlloc).memSize t.bytes
      (unevenFile.map FileSegment.segment) (chan "b").path 1 4 ∧
    ReadsRight anyAlloc .u16 t (unevenFile.map FileSegment.segment) (chan "b") 1 4 ∧
    ((delivered (STy.u16.storage anyAlloc).memSize (unevenFile.map FileSegment.segment) (chan "b").path 1).take 4).map
      Prod.snd = [108, 110, 114, 116] ∧
    (sampleCells (unevenFile.map FileSegment.segment) (chan "a").path).map Prod.snd = [104, 105, 112, 113] ∧
    (∀ pre ∈ dataPrefixes (unevenFile.map FileSegment.segment), ∀ m ∈ layoutOf (entries pre) (chan "b").path,
      m.dataType ∈ (STy.u16.storage anyAlloc).supported) := by
  obtain ⟨t, h1, h2, h3, h4, _⟩ := uneven_example
  have hb : t.bytes = fileOf unevenFile := ((open_is_replay _ _ _).mp h1).1
  refine ⟨t, h1, h2, ?_, ?_, h3 1 (by decide), h4, ?_, ?_, ?_⟩
  · rw [hb]; decide +kernel
  · unfold Listed; decide +kernel
  · decide +kernel
  · decide +kernel
  · decide +kernel

/-- The file of `joint_right_example`: a joint read of two samples of `a` and four of `b`, which are in different
    segments. -/
theorem joint_read_depends_example : ∃ t, TdmsFile.new anyAlloc (fileOf orderFile) = .ok t ∧
    replay Index.new (orderFile.map FileSegment.segment) = .ok t.index ∧ t.bytes.length < 2 ^ 63 ∧
    (∀ c ∈ [chan "a", chan "b"], Listed (entries (orderFile.map FileSegment.segment)) c.path) ∧
    JointlyServed (STy.u8.storage anyAlloc).supported 1 t.bytes (orderFile.map FileSegment.segment)
      [((chan "a").path, 2), ((chan "b").path, 4)] 0 ∧
    (storedFrom 1 (orderFile.map FileSegment.segment) [((chan "a").path, 2), ((chan "b").path, 4)] 0).map
      (·.map fun a => (a.1, a.2.2)) = [[(0, 68), (1, 69)], [(0, 174), (1, 175), (2, 176), (3, 177)]] := by
  obtain ⟨t, h1, h2, h3, _⟩ := joint_right_example
  have hb : t.bytes = fileOf orderFile := ((open_is_replay _ _ _).mp h1).1
  refine ⟨t, h1, h2, ?_, ?_, h3, ?_⟩
  · rw [hb]; decide +kernel
  · unfold Listed; decide +kernel
  · decide +kernel

end Tedium
