import Verif.Proofs.Errors
import Verif.Props.Build

/-! # Which errors each call can return (C108) -/

namespace Tedium
open SegSpec PlanSpec WriteSpec ErrorSpec

/-- **C108, opening.** Opening any byte string, with any memory, gives no other errors than those of the list
    `Opening`. In particular `EndOfFile`, `MissingObject`, `DataBlockNotFound`, `NoActiveChannelsInDataBlock`, `DataTypeMismatch`
    and the errors about paths and arguments are never returned. -/
theorem open_errors (al : Alloc) (f : Bytes) (e : TdmsError) (h : TdmsFile.new al f = R.err e) : Opening al e := by
  have key : R.Errs (Opening al) (TdmsFile.new al f) := R.Errs.bind (openLoop_errs al f _ _ Inv.new) (fun _ => .ok)
  exact key e h

/-- **C108, reading.** In every state that a user can get to, a read gives no other errors than those of the list
    `Reading`: all types, channels, offsets and buffers. The data blocks that the index refers to are always
    found. -/
theorem read_errors (al : Alloc) (ty : STy) {t : TdmsFile} (hs : Session al t) (start : Nat) :
    (∀ (c : ChannelPath) (out : List ty.Val) e, t.readChannelFrom (ty.storage al) c start out = R.err e →
      Reading t al ty [c] e) ∧
    ∀ (cs : List ChannelPath) (outs : List (List ty.Val)) e, t.readChannelsFrom (ty.storage al) cs start outs = R.err e →
      Reading t al ty cs e := by
  have hS : ∀ (asked : List ChannelPath) (en : Endian), Rd.Errs (Reading t al ty asked) ((ty.storage al).read en) :=
    fun asked en => storage_errs al ty en .ends (fun h => ⟨.text h, fun _ => .memory h⟩)
  constructor
  · intro c out
    show R.Errs (Reading t al ty [c]) _
    unfold TdmsFile.readChannelFrom
    cases hc : t.index.getChannelDataPositions c with
    | none =>
      refine .err (.missing List.mem_cons_self ?_)
      unfold TdmsFile.channelLength Index.channelLength
      rw [Option.map_eq_none_iff.mp hc]
    | some ls =>
      dsimp only
      rw [← bind_assoc]
      exact (readPositions_errs (hS [c]) .position hs.reach.inv [ls] start (fun x hx => by
        rw [List.mem_singleton.mp hx]; exact ⟨c, hc⟩) _ (fun x hx l hl h0 b hb m hm h => by
        rw [List.mem_singleton.mp hx] at hl
        exact .type List.mem_cons_self ⟨ls, hc, l, hl, h0, b, hb, m, hm, rfl⟩ h)).bind (fun _ => .ok)
  · intro cs outs
    show R.Errs (Reading t al ty cs) _
    unfold TdmsFile.readChannelsFrom
    refine (lookupPositions_errs cs (fun c hc h => .missing hc h)).bind' (fun pos hpos => ?_)
    have hl : ∀ ls ∈ pos, ∃ c ∈ cs, t.index.getChannelDataPositions c = some ls := by
      rcases lookupPositions_sat t cs with ⟨p, hp, h⟩ | ⟨e, he⟩
      · rw [hpos] at hp
        cases hp
        exact h
      · rw [hpos] at he; cases he
    rw [← bind_assoc]
    exact (readPositions_errs (hS cs) .position hs.reach.inv pos start (fun ls hls => by
      obtain ⟨c, _, hc⟩ := hl ls hls
      exact ⟨c, hc⟩) _ (fun ls hls l hlm h0 b hb m hm h => by
      obtain ⟨c, hcm, hc⟩ := hl ls hls
      exact .type hcm ⟨ls, hc, l, hlm, h0, b, hb, m, hm, rfl⟩ h)).bind (fun _ => .ok)

/-- **C108, writing values.** In every state that a user can get to, also after failed calls, `write_channels` gives no other
    errors than those of the list `Writing`. What the writer produces is never rejected as inconsistent: not with
    `NoPreviousType`, `InvalidRawOffset` or `SegmentTocDataBlockWithoutDataChannels`. -/
theorem write_errors (al : Alloc) (ty : STy) {t : TdmsFile} (hs : Session al t) (order : Endian) (chs : List ChannelPath)
    (vals : List ty.Val) (layout : DataLayout) (e : TdmsError)
    (h : (t.writeChannels (ty.storage al) order chs vals layout).1 = R.err e) : Writing chs.length vals.length e :=
  writeChannels_errs (ty.storage al) (STy.memSize_bounds al ty).1 order hs.reach.inv chs vals layout e h

/-- **C108, wrong arguments.** `NoChannels` is returned exactly when no channel is given, and `BadDataBlockLength` exactly when
    there are channels and the values cannot be divided evenly among them, with these two numbers. -/
theorem write_argument_errors (al : Alloc) (ty : STy) {t : TdmsFile} (hs : Session al t) (order : Endian)
    (chs : List ChannelPath) (vals : List ty.Val) (layout : DataLayout) :
    ((t.writeChannels (ty.storage al) order chs vals layout).1 = R.err .noChannels ↔ chs = []) ∧
    ∀ n m, (t.writeChannels (ty.storage al) order chs vals layout).1 = R.err (.badDataBlockLength n m) ↔
      chs ≠ [] ∧ ¬ chs.length ∣ vals.length ∧ n = vals.length ∧ m = chs.length := by
  refine ⟨⟨fun h => ?_, fun h => ?_⟩, fun n m => ⟨fun h => ?_, fun h => ?_⟩⟩
  · cases write_errors al ty hs order chs vals layout _ h with
    | none h0 => exact List.length_eq_zero_iff.mp h0
  · subst h; rfl
  · cases write_errors al ty hs order chs vals layout _ h with
    | uneven h0 h1 => exact ⟨fun h => h0 (by rw [h]; rfl), h1, rfl, rfl⟩
  · obtain ⟨h0, h1, rfl, rfl⟩ := h
    unfold TdmsFile.writeChannels
    rw [if_neg (fun h => h0 (List.length_eq_zero_iff.mp h)), if_pos (fun h => h1 (Nat.dvd_of_mod_eq_zero h))]

/-- **C108, writing properties.** `write_properties` returns `Ok` or `SegmentAddressOverflow`, and the second only if the
    segment would end beyond `2 ^ 64`. -/
theorem write_properties_errors (order : Endian) (t : TdmsFile) (path : PropertyPath)
    (properties : List (Text × PropertyValue)) :
    (t.writeProperties order path properties).1 = .ok () ∨
      (t.writeProperties order path properties).1 = R.err .segmentAddressOverflow ∧
        2 ^ 64 ≤ t.index.nextSegmentStart +
          ((t.writeProperties order path properties).2.bytes.length - t.bytes.length) := by
  have hb : (t.writeProperties order path properties).2.bytes = t.bytes ++ (propertySegment order path properties).2 := rfl
  have hlen : (propertySegment order path properties).2.length = (propertySegment order path properties).1.nextSegmentOffset + 28 := by
    unfold propertySegment
    rw [length_writeSegment]
    generalize (some _ : Option MetaData) = md
    show 28 + MetaData.optSize md + 0 = MetaData.optSize md + 0 + 28
    omega
  show ((t.index.addSegment (propertySegment order path properties).1).1.map fun _ => ()) = .ok () ∨
    ((t.index.addSegment (propertySegment order path properties).1).1.map fun _ => ()) = R.err .segmentAddressOverflow ∧ _
  rw [Library.property_addSegment, advance_eq, hb, List.length_append, hlen, Nat.add_sub_cancel_left]
  split
  · exact Or.inl rfl
  · rename_i h
    refine Or.inr ⟨rfl, ?_⟩
    change ¬ t.index.nextSegmentStart + ((propertySegment order path properties).1.nextSegmentOffset + 28) < 2 ^ 64 at h
    omega

/-! ## Every error occurs -/

/-- A segment with the given flags, offsets and metadata bytes. -/
def segmentBytes (flags next raw : Nat) (section_ : Bytes) : Bytes :=
  tdsmTag ++ (encNat .little 4 flags ++ (encNat .little 4 4713 ++ (encNat .little 8 next ++ (encNat .little 8 raw ++ section_))))

/-- One object: its path, a raw data index, properties. -/
def objectBytes (index properties : Bytes) : Bytes :=
  encNat .little 4 1 ++ (writeText .little "/'g'/'c'".toList ++ (index ++ properties))

/-- The error of opening, if any. -/
def openError (al : Alloc) (f : Bytes) : Option TdmsError :=
  match TdmsFile.new al f with
  | .error (.err e) => some e
  | _ => none

/-- A raw data index for `count` values of type `u8`. -/
def u8Index (count : Nat) : Bytes :=
  encNat .little 4 20 ++ (encNat .little 4 5 ++ (encNat .little 4 1 ++ encNat .little 8 count))

/-- All the errors of the list occur: the hypothesis of `open_errors` is met by each of them. -/
theorem open_errors_occur :
    openError anyAlloc (tdsmTag ++ [0]) = some (.ioError .unexpectedEof) ∧
    openError anyAlloc [1, 2, 3, 4, 5] = some (.headerPatternNotMatched [1, 2, 3, 4]) ∧
    openError anyAlloc (segmentBytes 2 0 0 (encNat .little 4 1 ++ (encNat .little 4 1 ++ [0xFF]))) = some .stringFormatError ∧
    openError anyAlloc (segmentBytes 2 0 0 (objectBytes (encNat .little 4 20 ++ encNat .little 4 14) [])) =
      some (.unknownPropertyType 14) ∧
    openError anyAlloc (segmentBytes 2 0 0 (objectBytes (encNat .little 4 0xFFFFFFFF)
      (encNat .little 4 1 ++ (writeText .little "p".toList ++ encNat .little 4 0x4F)))) = some (.unsupportedType .fixedPoint) ∧
    openError anyAlloc (segmentBytes 2 0 0 (objectBytes (encNat .little 4 0xFFFFFFFF)
      (encNat .little 4 1 ++ (writeText .little "p".toList ++ encNat .little 4 0xFFFFFFFF)))) =
        some (.unsupportedType .daqmxRawData) ∧
    openError anyAlloc (segmentBytes 2 0 0 (objectBytes (encNat .little 4 0x69120000) [])) = some .daqmxChannelsNotSupported ∧
    openError (fun _ => false) (segmentBytes 2 0 0 (encNat .little 4 1)) = some .vecAllocationFailed ∧
    openError (fun | .str _ => false | _ => true) (segmentBytes 2 0 0 (objectBytes [] [])) = some .stringAllocationFailed ∧
    openError (fun | .props _ => false | _ => true) (segmentBytes 2 0 0
      (objectBytes (encNat .little 4 0xFFFFFFFF) (encNat .little 4 1))) = some .propertyTableAllocationFailed ∧
    openError anyAlloc (segmentBytes 2 0 0 (objectBytes (encNat .little 4 0) (encNat .little 4 0))) = some .noPreviousType ∧
    openError anyAlloc (segmentBytes 10 0 0 (encNat .little 4 0)) = some .segmentTocDataBlockWithoutDataChannels ∧
    openError anyAlloc (segmentBytes 10 0 1 (objectBytes (u8Index 1) (encNat .little 4 0))) = some .invalidRawOffset ∧
    openError anyAlloc (segmentBytes 10 1 1 (objectBytes (u8Index 1) (encNat .little 4 0))) = some .zeroLengthDataBlock ∧
    openError anyAlloc (segmentBytes 10 (2 ^ 32) 0 (objectBytes (encNat .little 4 20 ++ (encNat .little 4 8 ++
      (encNat .little 4 1 ++ encNat .little 8 (2 ^ 62)))) (encNat .little 4 0))) = some .chunkSizeOverflow ∧
    openError anyAlloc (segmentBytes 2 (2 ^ 64 - 1) 0 (encNat .little 4 0)) = some .segmentAddressOverflow := by
  refine ⟨?_, ?_, ?_, ?_, ?_, ?_, ?_, ?_, ?_, ?_, ?_, ?_, ?_, ?_, ?_, ?_⟩ <;> decide +kernel

/-- One segment that claims `length` bytes of raw data, of two channels, `c` and `d`, with their raw data indices, and `raw`. -/
def twoChannels (length : Nat) (c d raw : Bytes) : Bytes :=
  segmentBytes 14 (76 + length) 76 (encNat .little 4 2 ++ (writeText .little "/'g'/'c'".toList ++ (c ++ (encNat .little 4 0 ++
    (writeText .little "/'g'/'d'".toList ++ (d ++ (encNat .little 4 0 ++ raw)))))))

/-- A string that is not UTF-8, and a byte. -/
def badString : Bytes :=
  twoChannels 25 (encNat .little 4 28 ++ (encNat .little 4 0x20 ++ (encNat .little 4 1 ++ encNat .little 8 1))) (u8Index 1)
    (encNat .little 4 1 ++ (0xFF :: List.replicate 20 0))

/-- A channel that claims more than `2 ^ 63` values, before another one. -/
def farChannel : Bytes := twoChannels (2 ^ 63 + 2) (u8Index (2 ^ 63 + 1)) (u8Index 1) []

/-- The error of reading channel `c` of group `g`, if any. -/
def readError (al : Alloc) (ty : STy) (f : Bytes) (c : String) (start : Nat) (out : List ty.Val) : Option TdmsError :=
  match TdmsFile.new anyAlloc f with
  | .ok t =>
    match t.readChannelFrom (ty.storage al) (chan c) start out with
    | .error (.err e) => some e
    | _ => none
  | _ => none

/-- The result of a call on a file that has just been opened. -/
def callError (f : Bytes) (op : Op) : Option TdmsError :=
  match TdmsFile.new anyAlloc f with
  | .ok t =>
    match (op.run anyAlloc t).1 with
    | .error (.err e) => some e
    | _ => none
  | _ => none

/-- All the errors of reads and of writes, each in a state of a session: after opening a file, and after writing to it. -/
theorem read_write_errors_occur :
    readError anyAlloc .u16 (fileOf windowFile) "z" 0 (vals16 [0]) = some (.missingObject (chan "z").path) ∧
    readError anyAlloc .u8 (fileOf windowFile) "b" 0 (vals8 [0]) = some (.dataTypeMismatch .u16 .u8) ∧
    readError anyAlloc .u16 ((fileOf windowFile).take 224) "b" 4 (vals16 [0]) = some (.ioError .unexpectedEof) ∧
    readError anyAlloc .string badString "c" 0 ["".toList] = some .stringFormatError ∧
    readError (fun _ => false) .string badString "c" 0 ["".toList] = some .stringAllocationFailed ∧
    readError anyAlloc .u8 farChannel "d" 0 (vals8 [0]) = some (.ioError .invalidInput) ∧
    ((writeU16 [] [1]).run anyAlloc (session [writeU16 ["a"] [1, 2]])).1 = R.err .noChannels ∧
    ((writeU16 ["a", "b"] [1]).run anyAlloc (session [writeU16 ["a"] [1, 2]])).1 = R.err (.badDataBlockLength 1 2) ∧
    ((writeU16 ["b"] []).run anyAlloc (session [writeU16 ["a"] [1, 2]])).1 = R.err .zeroLengthDataBlock ∧
    callError (segmentBytes 6 40 40 (objectBytes (encNat .little 4 20 ++ (encNat .little 4 8 ++ (encNat .little 4 1 ++
      encNat .little 8 (2 ^ 62)))) (encNat .little 4 0))) (writeU16 ["c"] [1]) = some .chunkSizeOverflow ∧
    callError (segmentBytes 2 (2 ^ 64 - 98) 4 (encNat .little 4 0)) (writeU16 ["c"] [1, 2]) = some .segmentAddressOverflow ∧
    callError (segmentBytes 2 (2 ^ 64 - 58) 4 (encNat .little 4 0)) (.props .little (chan "c").inner []) =
      some .segmentAddressOverflow := by
  refine ⟨?_, ?_, ?_, ?_, ?_, ?_, ?_, ?_, ?_, ?_, ?_, ?_⟩ <;> decide +kernel

end Tedium
