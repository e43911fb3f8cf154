import Verif.Proofs.FirstWrite
import Verif.Props.Write
import Verif.Props.Codec

/-! # C44, exactly: what becomes of values of each type -/

namespace Tedium
open SegSpec WriteSpec

/-- What the channel length grows by when `n` values are written. -/
def lengthOf (n : Nat) : STy → Nat
  | .timestamp => n * 2
  | .string => 0
  | _ => n

/-- What is left of a value in the file: of an extended float the lower 80 bits. -/
def keptOf : (ty : STy) → ty.Val → ty.Val
  | .extended, v => BitVec.ofNat 128 (BitVec.toNat (w := 128) v % 2 ^ 80)
  | _, v => v

/-- Values other than strings are left as they are if they fit: extended floats into 80 bits, others always. -/
theorem keptOf_eq_iff (ty : STy) (hty : ty ≠ .string) (v : ty.Val) : keptOf ty v = v ↔ ty.Fits v := by
  cases ty
  case extended =>
    have key : ∀ v : BitVec 128, BitVec.ofNat 128 (v.toNat % 2 ^ 80) = v ↔ v.toNat < 2 ^ 80 := by
      intro v
      constructor
      · intro h
        have := congrArg BitVec.toNat h
        rw [BitVec.toNat_ofNat] at this
        omega
      · intro h
        apply BitVec.eq_of_toNat_eq
        rw [BitVec.toNat_ofNat, Nat.mod_eq_of_lt h, Nat.mod_eq_of_lt (by omega)]
    exact key v
  case string => exact absurd rfl hty
  all_goals exact ⟨fun _ => trivial, fun _ => rfl⟩

theorem extended_write_kept (e : Endian) (v : BitVec 128) :
    extendedStorage.write e v = extendedStorage.write e (BitVec.ofNat 128 (v.toNat % 2 ^ 80)) := by
  have hu : (BitVec.ofNat 128 (v.toNat % 2 ^ 80)).toNat = v.toNat % 2 ^ 80 := by
    rw [BitVec.toNat_ofNat]; omega
  have hle : leBytes 10 v.toNat = leBytes 10 (BitVec.ofNat 128 (v.toNat % 2 ^ 80)).toNat := by
    have h1 := leBytes_leVal (leBytes 10 v.toNat)
    rw [length_leBytes, leVal_leBytes] at h1
    rw [← h1, hu]
  have ht : ∀ x : Nat, (leBytes 16 x).take 10 = leBytes 10 x := fun x => leBytes_take 10 6 x
  cases e
  · show (leBytes 16 v.toNat).take 10 = (leBytes 16 _).take 10
    rw [ht, ht, hle]
  · show ((leBytes 16 v.toNat).reverse).drop 6 = ((leBytes 16 _).reverse).drop 6
    rw [List.drop_reverse, List.drop_reverse, length_leBytes, length_leBytes]
    rw [show 16 - 6 = 10 from rfl, ht, ht, hle]

/-- Values other than strings are read as what is left of them. -/
theorem Reads.kept (al : Alloc) (e : Endian) (ty : STy) (hty : ty ≠ .string) (v : ty.Val) :
    Reads ((ty.storage al).read e) ((ty.storage al).write e v) (keptOf ty v) := by
  cases ty
  case extended =>
    have key : ∀ v : BitVec 128, Reads (extendedStorage.read e) (extendedStorage.write e v)
        (BitVec.ofNat 128 (v.toNat % 2 ^ 80)) := by
      intro v
      rw [extended_write_kept]
      refine Reads.extended e _ ?_
      rw [BitVec.toNat_ofNat]
      exact Nat.lt_of_le_of_lt (Nat.mod_le _ _) (Nat.mod_lt _ (by decide))
    exact key v
  case string => exact absurd rfl hty
  all_goals exact Reads.storage (fun _ => true) al (fun _ => rfl) e _ v trivial

theorem lengthOf_chunks (al : Alloc) (ty : STy) (n : Nat) (hn : 0 < n) :
    n * firstChunks (ty.storage al) n = lengthOf n ty := by
  have key : ∀ k s : Nat, 0 < s → k * s * n / (n * s) = k := by
    intro k s hs
    rw [show k * s * n = k * (n * s) by rw [Nat.mul_assoc, Nat.mul_comm s n]]
    exact Nat.mul_div_cancel k (Nat.mul_pos hn hs)
  have h1 : ∀ s, 0 < s → s * n / (n * s) = 1 := by
    intro s hs
    have := key 1 s hs
    rwa [Nat.one_mul] at this
  unfold firstChunks
  cases ty
  case string => show n * (24 * n / (n * 0)) = 0; simp
  case timestamp => show n * (2 * 8 * n / (n * 8)) = n * 2; rw [key 2 8 (by omega)]
  all_goals
    refine (congrArg (n * ·) (h1 _ (Nat.le_of_ble_eq_true rfl))).trans (Nat.mul_one n)

/-- **C44, exactly.** Whatever the type: writing values to a channel of a new file succeeds, if the sizes can be represented. The channel is
    then as long as there are values, but timestamps count twice and strings not at all. Any buffer is filled from the
    values with what is left of them, but strings leave it as it was. -/
theorem storage_type_exact (al : Alloc) (ty : STy) (e : Endian) (layout : DataLayout) (c : ChannelPath)
    (vals : List ty.Val) (hv : vals ≠ []) {t : TdmsFile} (ht : TdmsFile.create al = .ok t)
    (hsz : (t.writeChannels (ty.storage al) e [c] vals layout).2.bytes.length + (ty.storage al).memSize * vals.length < 2 ^ 63) :
    ∃ t', t.writeChannels (ty.storage al) e [c] vals layout = (.ok (), t') ∧
      t'.channelLength c = .ok (some (lengthOf vals.length ty)) ∧
      ∀ buf : List ty.Val, buf ≠ [] → t'.readChannel (ty.storage al) c buf =
        .ok (if ty = .string then buf else (vals.take buf.length).map (keptOf ty) ++ buf.drop vals.length) := by
  have ht' : t = ⟨Index.new, []⟩ := by
    have : TdmsFile.create al = .ok ⟨Index.new, []⟩ := rfl
    rw [this] at ht
    exact (Except.ok.inj ht).symm
  subst ht'
  have hn : 0 < vals.length := List.length_pos_iff.mpr hv
  have hm : 0 < (ty.storage al).memSize := by cases ty <;> exact Nat.le_of_ble_eq_true rfl
  have hs : (ty.storage al).natural.size ≤ (ty.storage al).memSize := by cases ty <;> exact Nat.le_of_ble_eq_true rfl
  have hsup : (ty.storage al).supported.contains (ty.storage al).natural = true := by cases ty <;> rfl
  rw [firstWrite_eq] at hsz ⊢
  obtain ⟨hdr, hbytes, hhdr⟩ := writeSegment_header e
    { containsNewObjectList := true, dataIsInterleaved := decide (layout = .interleaved) }
    (some (firstMeta (ty.storage al) c vals.length)) (some (TdmsFile.sliceData (ty.storage al) e vals))
  change (firstSegment (ty.storage al) e c vals layout).2 = hdr ++ vals.flatMap ((ty.storage al).write e) at hbytes
  change hdr.length = 28 + (firstMeta (ty.storage al) c vals.length).size at hhdr
  dsimp only at hsz
  have hlen : (firstSegment (ty.storage al) e c vals layout).2.length =
      28 + (firstMeta (ty.storage al) c vals.length).size + (vals.flatMap ((ty.storage al).write e)).length := by
    rw [hbytes, List.length_append, hhdr]
  rw [firstWrite_index (ty.storage al) e c vals layout hv hm hs (by omega)]
  refine ⟨_, rfl, ?_, ?_⟩
  · show Index.channelLength (firstIndex (ty.storage al) e c vals layout) c = _
    unfold Index.channelLength firstIndex
    dsimp only
    rw [show SMap.get? c.path [(c.path, firstObject (ty.storage al) c vals.length
      [⟨0, 0, vals.length * firstChunks (ty.storage al) vals.length⟩])] = some _ by simp [SMap.get?]; rfl]
    dsimp only [firstObject]
    rw [show ([(⟨0, 0, vals.length * firstChunks (ty.storage al) vals.length⟩ : DataLocation)].map (·.numberOfSamples)).sum
      = lengthOf vals.length ty by simp [lengthOf_chunks al ty _ hn], if_pos]
    have : lengthOf vals.length ty ≤ (ty.storage al).memSize * vals.length := by
      have := Nat.le_mul_of_pos_left vals.length hm
      cases ty <;> first | exact this | skip
      · show vals.length * 2 ≤ 16 * vals.length
        omega
      · exact Nat.zero_le _
    show _ < 2 ^ 64
    omega
  · intro buf hbuf
    unfold TdmsFile.readChannel
    rw [readChannelFrom_one _ _ _ _ _ hbuf]
    have hpos : (firstIndex (ty.storage al) e c vals layout).getChannelDataPositions c =
        some [⟨0, 0, lengthOf vals.length ty⟩] := by
      unfold Index.getChannelDataPositions firstIndex
      simp [SMap.get?, firstObject, lengthOf_chunks al ty _ hn]
    dsimp only
    rw [hpos]
    dsimp only
    unfold execOne
    dsimp only
    by_cases hty : ty = .string
    · subst hty
      rw [if_pos (show 0 ≥ lengthOf vals.length .string from Nat.le_refl 0), if_pos rfl]
      rfl
    · rw [if_neg (show ¬ 0 ≥ lengthOf vals.length ty by cases ty <;> first | exact absurd rfl hty | (simp only [lengthOf]; omega)),
        if_neg hty]
      rw [show (firstIndex (ty.storage al) e c vals layout).getDataBlock 0 =
        some (firstBlock (ty.storage al) e c vals layout) from rfl]
      dsimp only
      have hp : (firstMeta (ty.storage al) c vals.length).size + 28 + 0 = hdr.length := by omega
      have hat : At (firstSegment (ty.storage al) e c vals layout).2 ((firstMeta (ty.storage al) c vals.length).size + 28 + 0)
          (vals.flatMap ((ty.storage al).write e)) := by
        rw [hbytes, hp]
        have := At.mid hdr (vals.flatMap ((ty.storage al).write e)) []
        rwa [List.append_nil] at this
      rw [firstBlock_read (ty.storage al) e c vals layout buf.length _ hv hm hsup (by omega)
        (fun v _ => Reads.kept al e ty hty v) hat (by omega)]
      dsimp only
      have hd : ∀ vs : List ty.Val, vs = (vals.take buf.length).map (keptOf ty) →
          vs ++ buf.drop vs.length = (vals.take buf.length).map (keptOf ty) ++ buf.drop vals.length := by
        rintro vs rfl
        congr 1
        rw [List.length_map, List.length_take]
        rcases Nat.le_total buf.length vals.length with h | h
        · rw [Nat.min_eq_left h, List.drop_eq_nil_of_le (Nat.le_refl _), List.drop_eq_nil_of_le h]
        · rw [Nat.min_eq_right h]
      split
      · exact congrArg Except.ok (hd _ rfl)
      · show Except.ok _ = _
        dsimp only
        rw [List.append_nil]
        exact congrArg Except.ok (hd _ rfl)

/-- C44 holds for a write to a new file if and only if the values are not timestamps or strings, and extended floats have at most
    80 bits. -/
theorem storage_type_iff (al : Alloc) (ty : STy) (e : Endian) (layout : DataLayout) (c : ChannelPath)
    (vals : List ty.Val) (hv : vals ≠ []) {t t' : TdmsFile} (ht : TdmsFile.create al = .ok t)
    (hsz : (t.writeChannels (ty.storage al) e [c] vals layout).2.bytes.length + (ty.storage al).memSize * vals.length < 2 ^ 63)
    (hw : t.writeChannels (ty.storage al) e [c] vals layout = (.ok (), t')) :
    (t'.channelLength c = .ok (some vals.length) ∧
      ∀ buf : List ty.Val, buf.length = vals.length → t'.readChannel (ty.storage al) c buf = .ok vals) ↔
    ty ≠ .timestamp ∧ ty ≠ .string ∧ ∀ v ∈ vals, ty.Fits v := by
  have hn : 0 < vals.length := List.length_pos_iff.mpr hv
  obtain ⟨t'', h1, h2, h3⟩ := storage_type_exact al ty e layout c vals hv ht hsz
  rw [hw] at h1
  obtain rfl := (Prod.mk.inj h1).2
  constructor
  · rintro ⟨hl, hr⟩
    rw [h2] at hl
    have hl' : lengthOf vals.length ty = vals.length := Option.some.inj (Except.ok.inj hl)
    have hts : ty ≠ .timestamp := by
      rintro rfl
      simp only [lengthOf] at hl'
      omega
    have hst : ty ≠ .string := by
      rintro rfl
      simp only [lengthOf] at hl'
      omega
    refine ⟨hts, hst, ?_⟩
    have := hr vals rfl
    rw [h3 vals hv, if_neg hst, List.take_length, List.drop_length, List.append_nil] at this
    have hmap := Except.ok.inj this
    intro v hvm
    rw [← keptOf_eq_iff ty hst]
    exact (List.map_eq_map_iff.mp (hmap.trans (List.map_id vals).symm)) v hvm
  · rintro ⟨hts, hst, hfit⟩
    refine ⟨?_, ?_⟩
    · rw [h2]
      cases ty <;> first | rfl | exact absurd rfl hts | exact absurd rfl hst
    · intro buf hb
      rw [h3 buf (fun h => by rw [h] at hb; exact hv (List.length_eq_zero_iff.mp hb.symm)), if_neg hst, hb, List.take_length,
        ← hb, List.drop_length, List.append_nil]
      congr 1
      rw [List.map_congr_left (g := id) (fun v hvm => (keptOf_eq_iff ty hst v).mpr (hfit v hvm)), List.map_id]

/-- The hypotheses hold for two extended floats, of which one has too many bits, and it is cut; and for two timestamps, which make
    the channel four long. -/
theorem storage_type_exact_example :
    let ext : List STy.extended.Val := [BitVec.ofNat 128 5, BitVec.ofNat 128 (2 ^ 80 + 7)]
    let stamps : List STy.timestamp.Val := [5#128, 6#128]
    let t := (TdmsFile.writeChannels (STy.extended.storage anyAlloc) .big ⟨Index.new, []⟩ [chan "x"] ext .interleaved)
    let u := (TdmsFile.writeChannels (STy.timestamp.storage anyAlloc) .little ⟨Index.new, []⟩ [chan "x"] stamps .contigious)
    TdmsFile.create anyAlloc = .ok ⟨Index.new, []⟩ ∧
    t.2.bytes.length + (STy.extended.storage anyAlloc).memSize * 2 < 2 ^ 63 ∧ t.1 = .ok () ∧
    t.2.readChannel (STy.extended.storage anyAlloc) (chan "x") [0#128, 0#128, 0#128] = .ok [5#128, 7#128, 0#128] ∧
    u.2.bytes.length + (STy.timestamp.storage anyAlloc).memSize * 2 < 2 ^ 63 ∧ u.1 = .ok () ∧
    u.2.channelLength (chan "x") = .ok (some 4) ∧
    u.2.readChannel (STy.timestamp.storage anyAlloc) (chan "x") [0#128, 0#128, 0#128, 0#128] =
      .ok [5#128, 6#128, 0#128, 0#128] := by
  refine ⟨rfl, ?_, ?_, ?_, ?_, ?_, ?_, ?_⟩ <;> decide +kernel

end Tedium
