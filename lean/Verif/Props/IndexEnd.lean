import Verif.Props.Append

/-! # C30, exactly: where the index expects the next segment -/

namespace Tedium
open SegSpec WriteSpec

/-- The bytes that the values of a call take in the file. -/
def bytesWritten (al : Alloc) : Op → Nat
  | .props _ _ _ => 0
  | .write e ty _ vals _ => (vals.map (fun v => ((ty.storage al).write e v).length)).sum

/-- The bytes that the values of a call take in memory. -/
def bytesInMemory (al : Alloc) : Op → Nat
  | .props _ _ _ => 0
  | .write _ ty _ vals _ => vals.length * (ty.storage al).memSize

/-- The bytes of the values, as they are in the file and in memory: extended floats and strings differ. -/
theorem value_sizes (al : Alloc) (e : Endian) (ty : STy) (v : ty.Val) :
    (SizedTy ty → ((ty.storage al).write e v).length = (ty.storage al).memSize) ∧
    (ty = .extended → ((ty.storage al).write e v).length = 10 ∧ (ty.storage al).memSize = 16) ∧
    (∀ s : Text, ((STy.string.storage al).write e s).length = (utf8Enc s).length + 4 ∧ (STy.string.storage al).memSize = 24) := by
  refine ⟨fun h => length_write_sized al h e v, ?_, ?_⟩
  · rintro rfl
    refine ⟨?_, rfl⟩
    show List.length (match e with
      | .little => (encNat .little 16 (BitVec.toNat v)).take 10
      | .big => (encNat .big 16 (BitVec.toNat v)).drop 6) = 10
    cases e
    · simp [length_encNat]
    · simp [length_encNat]
  · intro s
    refine ⟨?_, rfl⟩
    show (encNat e 4 ((utf8Enc s).length % u32Lim) ++ utf8Enc s).length = _
    rw [List.length_append, length_encNat]
    omega

/-- **C30, exactly.** In every history of successful calls, the place where the index expects the next segment moves ahead of
    the end of the file by as many bytes as the values take in memory, less the bytes that they take in the file. -/
theorem index_end_exact (al : Alloc) (ops : List Op) : ∀ (t : TdmsFile), AllSucceed al t ops →
    (runOps al t ops).index.nextSegmentStart + t.bytes.length + (ops.map (bytesWritten al)).sum =
      (runOps al t ops).bytes.length + t.index.nextSegmentStart + (ops.map (bytesInMemory al)).sum := by
  induction ops with
  | nil => intro t _; show t.index.nextSegmentStart + t.bytes.length + 0 = t.bytes.length + t.index.nextSegmentStart + 0; omega
  | cons op ops ih =>
    intro t hall
    rw [allSucceed_cons] at hall
    rw [runOps_cons, List.map_cons, List.map_cons, List.sum_cons, List.sum_cons]
    have := ih _ hall.2
    suffices h : (op.run al t).2.index.nextSegmentStart + t.bytes.length + bytesWritten al op =
        (op.run al t).2.bytes.length + t.index.nextSegmentStart + bytesInMemory al op by omega
    have hok := hall.1
    cases op with
    | props e path properties =>
      obtain ⟨hdr, hbytes, hhdr⟩ := writeSegment_header e {}
        (some { objects := [{ path := path.path, properties, rawDataIndex := .none }] }) none
      obtain ⟨n, hn⟩ := addSegment_map_ok (s := (propertySegment e path properties).1) hok
      obtain ⟨h1, h2, _⟩ := addSegment_next (Prod.ext hn rfl :
        t.index.addSegment (propertySegment e path properties).1 = (.ok n, _))
      show (t.index.addSegment (propertySegment e path properties).1).2.nextSegmentStart + t.bytes.length + 0
        = (t.bytes ++ (propertySegment e path properties).2).length + _ + 0
      have hb : (propertySegment e path properties).2.length = _ := congrArg List.length hbytes
      have hnx : (propertySegment e path properties).1.nextSegmentOffset + 28 = (propertySegment e path properties).2.length := by
        rw [hb, List.length_append, hhdr]
        show _ = _ + 0
        rw [Nat.add_comm]; rfl
      rw [h2, h1, List.length_append]
      omega
    | write e ty chs vals layout =>
      change (t.writeChannels (ty.storage al) e chs vals layout).1 = .ok () at hok
      show (t.writeChannels (ty.storage al) e chs vals layout).2.index.nextSegmentStart + t.bytes.length +
        (vals.map (fun v => ((ty.storage al).write e v).length)).sum
        = (t.writeChannels (ty.storage al) e chs vals layout).2.bytes.length + _ + vals.length * (ty.storage al).memSize
      by_cases hne : chs = []
      · rw [(rejected_arguments _ e t chs vals layout).1 hne] at hok
        cases hok
      · by_cases hd : chs.length ∣ vals.length
        · obtain ⟨s, bs, heq, _, _, _, _, _, _, hnext, hlen, _⟩ :=
            writeChannels_segment (ty.storage al) e t chs vals layout hne hd
          rw [heq] at hok ⊢
          obtain ⟨n, hn⟩ := addSegment_map_ok hok
          obtain ⟨h1, h2, _⟩ := addSegment_next (Prod.ext hn rfl : t.index.addSegment s = (.ok n, _))
          dsimp only
          have hsum : (vals.flatMap ((ty.storage al).write e)).length =
              (vals.map (fun v => ((ty.storage al).write e v).length)).sum := by
            rw [List.length_flatMap]
          rw [h2, h1, List.length_append, hlen, hnext, hsum, Nat.mul_comm vals.length]
          omega
        · rw [(rejected_arguments _ e t chs vals layout).2 hne hd] at hok
          cases hok

/-- The index expects the next segment at the end of the file if and only if the values of all calls together take as many bytes
    in memory as in the file. -/
theorem index_end_iff (al : Alloc) (ops : List Op) {t : TdmsFile} (ht : t.index.nextSegmentStart = t.bytes.length)
    (hall : AllSucceed al t ops) : (runOps al t ops).index.nextSegmentStart = (runOps al t ops).bytes.length ↔
      (ops.map (bytesInMemory al)).sum = (ops.map (bytesWritten al)).sum := by
  have := index_end_exact al ops t hall
  omega

/-- The condition can hold for strings: one of 20 bytes; and fail: one of 2 bytes. -/
theorem index_end_iff_example :
    AllSucceed anyAlloc ⟨Index.new, []⟩ [.write .little .string [chan "a"] ["01234567890123456789".toList] .contigious] ∧
    ([Op.write .little .string [chan "a"] ["01234567890123456789".toList] .contigious].map (bytesInMemory anyAlloc)).sum = 24 ∧
    ([Op.write .little .string [chan "a"] ["01234567890123456789".toList] .contigious].map (bytesWritten anyAlloc)).sum = 24 ∧
    (let t := session [.write .little .string [chan "a"] ["01234567890123456789".toList] .contigious]
     t.index.nextSegmentStart = 92 ∧ t.bytes.length = 92) ∧
    ([Op.write .little .string [chan "a"] ["xy".toList] .contigious].map (bytesInMemory anyAlloc)).sum = 24 ∧
    ([Op.write .little .string [chan "a"] ["xy".toList] .contigious].map (bytesWritten anyAlloc)).sum = 6 := by
  refine ⟨?_, ?_, ?_, ⟨?_, ?_⟩, ?_, ?_⟩
  · rw [allSucceed_cons]
    refine ⟨by decide +kernel, ?_⟩
    intro pre op post h
    cases pre <;> cases h
  all_goals decide +kernel

end Tedium
