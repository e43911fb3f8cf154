import Verif.Model.File

/-!
# The unit tests of the repository, run on the model

These are tests, not proofs of any property. They transcribe the assertions of the `#[test]` functions in
`/repo/src` and the writing tests in `/repo/tests`, with the same inputs and the same expected values, and
check that the model gives the values that the authors of the code expect. They are evidence that the
definitions in `Verif/Model` are transcribed correctly, and nothing else depends on them. (The tests that
read `tests/tdms-test-file.tdms`, a file of 533965 bytes, are run by `validation/ReadTestFile.lean.txt`.)
-/

namespace Tedium.RepoTests

set_option synthInstance.maxSize 4000
set_option synthInstance.maxHeartbeats 200000

/-! ## Abbreviations for the test data -/

/-- A name as a text. -/
def txt (s : String) : Text := s.toList

/-- `ChannelPath::new` -/
def ch (g c : String) : ChannelPath := .new (txt g) (txt c)

/-- `PropertyPath::group` -/
def grp (g : String) : PropertyPath := .group (txt g)

/-- A property with a 32-bit signed value. -/
def p32 (n : String) (v : Int) : Text × PropertyValue := (txt n, .i32 (BitVec.ofInt 32 v))

/-- The layout of a channel of doubles. -/
def dbl (n : Nat) : RawDataMeta := { dataType := .doubleFloat, numberOfValues := n }

/-- An object of a metadata section. -/
def obj (path : String) (props : List (Text × PropertyValue)) (ix : RawDataIndex) : ObjectMetaData :=
  { path := txt path, properties := props, rawDataIndex := ix }

/-- A segment with metadata. -/
def seg (toc next raw : Nat) (objects : List ObjectMetaData) : Segment :=
  { toc := ToC.fromU32 toc, nextSegmentOffset := next, rawDataOffset := raw, metaData := some { objects } }

/-- `add_segment(..).unwrap()` for each segment of a list -/
def build : List Segment → Index → R Index
  | [], ix => .ok ix
  | s :: ss, ix =>
    match ix.addSegment s with
    | (.ok _, ix) => build ss ix
    | (.error e, _) => .error e

/-- An observation of the index of a list of segments, which must be accepted. -/
def observe {α : Type} (ss : List Segment) (f : Index → α) : Option α := (build ss Index.new).toOption.map f

/-- The bits of `x as f64` for small natural numbers. -/
def f64 (n : Nat) : BitVec 64 :=
  if n = 0 then 0
  else
    let k := Nat.log2 n
    BitVec.ofNat 64 ((1023 + k) * 2 ^ 52 + (n - 2 ^ k) * 2 ^ (52 - k))

example : f64 1 = 0x3FF0000000000000 ∧ f64 10 = 0x4024000000000000 ∧ f64 99 = 0x4058C00000000000 := by decide +kernel

/-- The storage type `f64`. -/
def F : Storage (BitVec 64) := numeric 8 .doubleFloat [.doubleFloat, .doubleFloatWithUnit]

/-- An allocator that never fails. -/
def al : Alloc := fun _ => true

/-! ## `src/index/building.rs` -/

/-- The segment that most tests of the index begin with. -/
def first (toc next : Nat) (group : String) : Segment :=
  seg toc next 20 [obj group [p32 "Prop" (-51)] .none, obj "/'group'/'ch1'" [p32 "Prop1" (-1)] (.rawData (dbl 1000)),
    obj "/'group'/'ch2'" [p32 "Prop2" (-2)] (.rawData (dbl 1000))]

/-- A segment that adds a channel of 1000 doubles. -/
def third (toc next : Nat) (path : String) : Segment :=
  seg toc next 20 [obj path [p32 "Prop3" (-3)] (.rawData (dbl 1000))]

/-- Data positions of a channel, as block, index of the channel, and number of samples. -/
def positions (ix : Index) (c : String) : Option (List (Nat × Nat × Nat)) :=
  (ix.getChannelDataPositions (ch "group" c)).map
    (·.map fun l => (l.dataBlock, l.channelIndex, l.numberOfSamples))

/-- `test_single_segment` -/
example : observe [first 0xE 20000 "/'group'"] (fun ix =>
    (ix.getObjectProperties (grp "group"), ix.getObjectProperties (ch "group" "ch1").inner,
     ix.getObjectProperties (ch "group" "ch2").inner)) =
    some (some [p32 "Prop" (-51)], some [p32 "Prop1" (-1)], some [p32 "Prop2" (-2)]) := by decide +kernel

example : observe [first 0xE 20000 "/'group'"] (fun ix =>
    (positions ix "ch1", positions ix "ch2",
     (ix.channelLength (ch "group" "ch1")).toOption, (ix.channelLength (ch "group" "ch2")).toOption)) =
    some (some [(0, 0, 1000)], some [(0, 1, 1000)], some (some 1000), some (some 1000)) := by decide +kernel

/-- `test_builds_correct_length_with_multiple_write_blocks` -/
example : observe [first 0xE 33000 "/'group'"] (fun ix =>
    (positions ix "ch1", positions ix "ch2",
     (ix.channelLength (ch "group" "ch1")).toOption, (ix.channelLength (ch "group" "ch2")).toOption)) =
    some (some [(0, 0, 2000)], some [(0, 1, 2000)], some (some 2000), some (some 2000)) := by decide +kernel

/-- `correctly_generates_the_data_block` -/
example : observe [first 0xE 500 "group"] (fun ix => ix.getDataBlock 0) =
    some (some { start := 48, length := 480, layout := .contigious, channels := [dbl 1000, dbl 1000]
                 byteOrder := .little }) := by decide +kernel

/-- A segment that lists both channels with the layout they had before. -/
def again (toc : Nat) : Segment :=
  seg toc 500 20 [obj "/'group'/'ch1'" [] .matchPrevious, obj "/'group'/'ch2'" [] .matchPrevious]

/-- `correctly_generates_the_data_block_same_as_previous` and `…_new_list` -/
example : ∀ toc ∈ [0xA, 0xE], observe [first 0xE 500 "group", again toc] (fun ix => ix.getDataBlock 1) =
    some (some { start := 576, length := 480, layout := .contigious, channels := [dbl 1000, dbl 1000]
                 byteOrder := .little }) := by decide +kernel

/-- `errors_if_no_previous_datatype_is_found` -/
example : (Index.new.addSegment (again 0xE)).1.isOk = false := by decide +kernel

/-- `does_not_generate_block_for_meta_only` -/
example : observe [seg 0x2 20 20 [obj "group" [p32 "Prop" (-51)] .none]] (fun ix => ix.getDataBlock 0) =
    some none := by decide +kernel

/-- `updates_existing_properties` -/
example : observe [first 0xE 500 "group",
      seg 0x2 500 20 [obj "/'group'" [p32 "Prop" (-52)] .none, obj "/'group'/'ch1'" [p32 "Prop1" (-2)] .none]]
    (fun ix => (ix.getObjectProperties (grp "group"), ix.getObjectProperties (ch "group" "ch1").inner)) =
    some (some [p32 "Prop" (-52)], some [p32 "Prop1" (-2)]) := by decide +kernel

/-- `can_update_properties_with_no_changes_to_data_layout` -/
example : observe [first 0xE 20000 "/'group'",
      seg 0xA 20000 20 [obj "/'group'/'ch1'" [p32 "Prop1" (-2)] .matchPrevious]]
    (fun ix => (ix.getObjectProperties (grp "group"), ix.getObjectProperties (ch "group" "ch1").inner,
      ix.getObjectProperties (ch "group" "ch2").inner, positions ix "ch1", positions ix "ch2")) =
    some (some [p32 "Prop" (-51)], some [p32 "Prop1" (-2)], some [p32 "Prop2" (-2)],
      some [(0, 0, 1000), (1, 0, 1000)], some [(0, 1, 1000), (1, 1, 1000)]) := by decide +kernel

/-- `can_keep_data_with_no_objects_listed` and `can_keep_data_with_no_metadata_in_toc` -/
example : ∀ toc ∈ [0xA, 0x8], observe [first 0xE 20000 "group", seg toc 20000 20 []]
    (fun ix => (positions ix "ch1", positions ix "ch2")) =
    some (some [(0, 0, 1000), (1, 0, 1000)], some [(0, 1, 1000), (1, 1, 1000)]) := by decide +kernel

/-- `can_add_channel_to_active_list` -/
example : observe [first 0xE 20000 "group", third 0xA 25000 "/'group'/'ch3'"]
    (fun ix => (ix.getObjectProperties (ch "group" "ch3").inner, positions ix "ch1", positions ix "ch2",
      positions ix "ch3")) =
    some (some [p32 "Prop3" (-3)], some [(0, 0, 1000), (1, 0, 1000)], some [(0, 1, 1000), (1, 1, 1000)],
      some [(1, 2, 1000)]) := by decide +kernel

/-- `can_replace_the_existing_list` -/
example : observe [first 0xE 20000 "group", third 0xE 9000 "/'group'/'ch3'"]
    (fun ix => (ix.getObjectProperties (ch "group" "ch3").inner, positions ix "ch1", positions ix "ch2",
      positions ix "ch3")) =
    some (some [p32 "Prop3" (-3)], some [(0, 0, 1000)], some [(0, 1, 1000)], some [(1, 0, 1000)]) := by
  decide +kernel

/-- `can_re_add_channel_to_active_list` -/
example : observe [first 0xE 17000 "group", third 0xE 9000 "/'group'/'ch3'", third 0xA 25000 "/'group'/'ch1'"]
    (fun ix => (positions ix "ch1", positions ix "ch2", positions ix "ch3")) =
    some (some [(0, 0, 1000), (2, 1, 1000)], some [(0, 1, 1000)], some [(1, 0, 1000), (2, 0, 1000)]) := by
  decide +kernel

/-- `test_toc_includes_data_but_no_active_channels` and `test_toc_includes_data_but_no_size` -/
example : ∀ next ∈ [20000, 20],
    (Index.new.addSegment (seg 0xE next 20 [obj "/'group'" [p32 "Prop" (-51)] .none])).1 =
      R.err .segmentTocDataBlockWithoutDataChannels := by decide +kernel

/-- `test_catches_next_segment_overflow` -/
example : (Index.new.addSegment (seg 0x2 0xFFFFFFFFFFFFFFE4 20 [obj "/'group'" [p32 "Prop" (-51)] .none])).1 =
    R.err .segmentAddressOverflow := by decide +kernel

/-! ## `src/index/querying.rs` -/

/-- `generate_test_index` -/
def testIndex : List Segment :=
  [seg 0x2 20000 20 [obj "/'group'" [p32 "Prop" (-51)] .none, obj "/'group'/'ch1'" [p32 "Prop1" (-1)] .none,
     obj "/'group'/'ch2'" [p32 "Prop2" (-2)] .none],
   seg 0x2 20000 20 [obj "/'group2'" [p32 "Prop" (-51)] .none, obj "/'group2'/'ch1'" [p32 "Prop1" (-1)] .none,
     obj "/'group2'/'ch2'" [p32 "Prop2" (-2)] .none],
   seg 0x2 20000 20 [obj "/'group3'" [p32 "Prop" (-51)] .none]]

/-- `test_all_paths`, `test_paths_starting_with`, `test_paths_starting_with_no_match` -/
example : observe testIndex (fun ix =>
    (ix.allPaths, ix.pathsStartingWith (txt "/'group2'"), ix.pathsStartingWith (txt "/'group4'"))) =
    some (["/'group'", "/'group'/'ch1'", "/'group'/'ch2'", "/'group2'", "/'group2'/'ch1'", "/'group2'/'ch2'",
        "/'group3'"].map txt,
      ["/'group2'", "/'group2'/'ch1'", "/'group2'/'ch2'"].map txt, []) := by decide +kernel

/-! ## `src/index/writing.rs` -/

/-- Two channels of doubles. -/
def two (a b : String) (n m : Nat) : List (Text × RawDataMeta) := [(txt a, dbl n), (txt b, dbl m)]

/-- `matches_live_empty_index` -/
example : Index.new.checkWriteValues (two "/'group'/'ch1'" "/'group'/'ch2'" 1000 1000) =
    (false, [(txt "/'group'/'ch1'", .rawData (dbl 1000)), (txt "/'group'/'ch2'", .rawData (dbl 1000))]) := by
  decide +kernel

/-- `matches_live_does_match` and `matches_live_repeated_same_format` -/
example : ∀ ss ∈ [[first 0xE 500 "group"], [first 0xE 500 "group", again 0xA]],
    observe ss (fun ix => ix.checkWriteValues (two "/'group'/'ch1'" "/'group'/'ch2'" 1000 1000)) =
    some (true, [(txt "/'group'/'ch1'", .matchPrevious), (txt "/'group'/'ch2'", .matchPrevious)]) := by
  decide +kernel

/-- `matches_live_new_format` -/
example : observe [first 0xE 500 "group"]
      (fun ix => ix.checkWriteValues (two "/'group'/'ch1'" "/'group'/'ch2'" 1000 2000)) =
    some (true, [(txt "/'group'/'ch1'", .matchPrevious), (txt "/'group'/'ch2'", .rawData (dbl 2000))]) := by
  decide +kernel

/-- `matches_live_no_match_different_channels` -/
example : observe [first 0xE 500 "group"] (fun ix => ix.checkWriteValues (two "group2/ch1" "group2/ch2" 1000 1000)) =
    some (false, [(txt "group2/ch1", .rawData (dbl 1000)), (txt "group2/ch2", .rawData (dbl 1000))]) := by
  decide +kernel

/-- `uses_previous_data_format_even_with_no_match` -/
example : observe [first 0xE 500 "group",
      seg 0xE 500 20 [obj "group2" [p32 "Prop" (-51)] .none, obj "group2/ch1" [p32 "Prop1" (-1)] (.rawData (dbl 1000)),
        obj "group2/ch2" [p32 "Prop2" (-2)] (.rawData (dbl 1000))]]
    (fun ix => ix.checkWriteValues (two "/'group'/'ch1'" "/'group'/'ch2'" 1000 1000)) =
    some (false, [(txt "/'group'/'ch1'", .matchPrevious), (txt "/'group'/'ch2'", .matchPrevious)]) := by
  decide +kernel

/-! ## `src/meta_data.rs` -/

/-- `test_toc_example_from_ni` and `test_toc_example_to_bytes` -/
example : ToC.fromU32 0xE = { containsMetaData := true, containsRawData := true, containsNewObjectList := true } ∧
    (ToC.fromU32 0xE).asBytes = [0xE, 0, 0, 0] := by decide +kernel

/-- `test_segment_size_calc` -/
example : (seg 0 500 20 []).totalSizeBytes = .ok 528 := by decide +kernel

/-- The string of the format description, with its length. -/
def niString : Bytes :=
  [0x23, 0, 0, 0, 0x2F, 0x27, 0x4D, 0x65, 0x61, 0x73, 0x75, 0x72, 0x65, 0x64, 0x20, 0x54, 0x68, 0x72, 0x6F, 0x75,
   0x67, 0x68, 0x70, 0x75, 0x74, 0x20, 0x44, 0x61, 0x74, 0x61, 0x20, 0x28, 0x56, 0x6F, 0x6C, 0x74, 0x73, 0x29, 0x27]

/-- `test_unknown_property_type` -/
example : PropertyValue.read al .little niString 0 = R.err (.unknownPropertyType 0x23) := by decide +kernel

/-- The metadata of the format description: the count, the group up to its number of properties, its properties,
    and the channel up to its raw data index. -/
def niHead (count : Bytes) : Bytes :=
  count ++ [0x08, 0x00, 0x00, 0x00, 0x2F, 0x27, 0x47, 0x72, 0x6F, 0x75, 0x70, 0x27, 0xFF, 0xFF, 0xFF, 0xFF]

def niProps : Bytes :=
  [0x04, 0x00, 0x00, 0x00, 0x70, 0x72, 0x6F, 0x70, 0x20, 0x00, 0x00, 0x00, 0x05, 0x00, 0x00, 0x00, 0x76, 0x61,
   0x6C, 0x75, 0x65, 0x03, 0x00, 0x00, 0x00, 0x6E, 0x75, 0x6D, 0x03, 0x00, 0x00, 0x00, 0x0A, 0x00, 0x00, 0x00]

def niChannel : Bytes :=
  [0x13, 0x00, 0x00, 0x00, 0x2F, 0x27, 0x47, 0x72, 0x6F, 0x75, 0x70, 0x27, 0x2F, 0x27, 0x43, 0x68, 0x61, 0x6E,
   0x6E, 0x65, 0x6C, 0x31, 0x27]

def niIndex : Bytes :=
  [0x14, 0x00, 0x00, 0x00, 0x03, 0x00, 0x00, 0x00, 0x01, 0x00, 0x00, 0x00, 0x02, 0x00, 0x00, 0x00, 0x00, 0x00,
   0x00, 0x00]

/-- The same metadata as objects. -/
def niObjects (ix : RawDataIndex) : MetaData :=
  { objects := [obj "/'Group'" [(txt "prop", .string (txt "value")), p32 "num" 10] .none,
      obj "/'Group'/'Channel1'" [] ix] }

/-- `test_properties_standard_data` and `test_properties_standard_data_write` -/
example :
    (MetaData.read al .little (niHead [2, 0, 0, 0] ++ [2, 0, 0, 0] ++ niProps ++ niChannel ++ niIndex ++ [0, 0, 0, 0]) 0).map
      (·.1) = .ok (niObjects (.rawData { dataType := .i32, numberOfValues := 2 })) ∧
    (niObjects (.rawData { dataType := .i32, numberOfValues := 2 })).write .little =
      niHead [2, 0, 0, 0] ++ [2, 0, 0, 0] ++ niProps ++ niChannel ++ niIndex ++ [0, 0, 0, 0] ∧
    (niObjects (.rawData { dataType := .i32, numberOfValues := 2 })).size =
      (niHead [2, 0, 0, 0] ++ [2, 0, 0, 0] ++ niProps ++ niChannel ++ niIndex ++ [0, 0, 0, 0]).length := by
  decide +kernel

/-- `test_properties_raw_data_matches` and `test_properties_raw_data_matches_write` -/
example :
    (MetaData.read al .little (niHead [2, 0, 0, 0] ++ [2, 0, 0, 0] ++ niProps ++ niChannel ++ [0, 0, 0, 0, 0, 0, 0, 0]) 0).map
      (·.1) = .ok (niObjects .matchPrevious) ∧
    (niObjects .matchPrevious).write .little =
      niHead [2, 0, 0, 0] ++ [2, 0, 0, 0] ++ niProps ++ niChannel ++ [0, 0, 0, 0, 0, 0, 0, 0] ∧
    (niObjects .matchPrevious).size =
      (niHead [2, 0, 0, 0] ++ [2, 0, 0, 0] ++ niProps ++ niChannel ++ [0, 0, 0, 0, 0, 0, 0, 0]).length := by
  decide +kernel

/-- An allocator that refuses tables of `2 ^ 32 - 1` entries, as in the tests on allocation failures. -/
def smallAlloc : Alloc
  | .props n => n < 2 ^ 31
  | .vec n => n < 2 ^ 31
  | _ => true

/-- `test_properties_count_overflow_error` -/
example :
    (MetaData.read smallAlloc .little
      (niHead [2, 0, 0, 0] ++ [0xFF, 0xFF, 0xFF, 0xFF] ++ niProps ++ niChannel ++ niIndex ++ [0, 0, 0, 0]) 0).map (·.1) =
      R.err .propertyTableAllocationFailed := by
  decide +kernel

/-- `test_metadata_errors_on_allocation_error` -/
example :
    (MetaData.read smallAlloc .little
      (niHead [0xFF, 0xFF, 0xFF, 0xFF] ++ [2, 0, 0, 0] ++ niProps ++ niChannel ++ niIndex ++ [0, 0, 0, 0]) 0).map (·.1) =
      R.err .vecAllocationFailed := by
  decide +kernel

/-! ## `src/properties.rs` -/

/-- The property values of `test_property_type!` (floats by their bits; the time is 100 seconds after 1970). -/
def sampleValues : List PropertyValue :=
  [.u8 51, .i8 (-51), .u16 51, .i16 (-51), .u32 51, .i32 (-51), .u64 51, .i64 (-51), .singleFloat 0x424C0000,
   .doubleFloat (f64 51), .boolean true, .timestamp (BitVec.ofNat 128 ((2082844800 + 100) * 2 ^ 64)),
   .complexSingleFloat ⟨0x3F800000, 0x40000000⟩, .complexDoubleFloat ⟨f64 1, f64 2⟩, .void]

/-- `…_read_write`, `…_size`, `test_void_roundtrip` -/
example : ∀ v ∈ sampleValues, (PropertyValue.read al .little (v.write .little) 0).map (·.1) = .ok v ∧
    (v.write .little).length = v.size := by decide +kernel

/-- `…_conversion` and `…_conversion_reference` -/
example : ∀ t ∈ [STy.u8, .i8, .u16, .i16, .u32, .i32, .u64, .i64, .f32, .f64, .bool, .timestamp, .complex32, .complex64],
    ∀ v ∈ sampleValues, v.datatype = (t.storage al).natural → ∃ x, PropertyValue.toVal t v = .ok x ∧
      PropertyValue.ofVal? t x = some v := by
  intro t ht v hv
  simp only [List.mem_cons, List.not_mem_nil, or_false] at ht
  simp only [sampleValues, List.mem_cons, List.not_mem_nil, or_false] at hv
  rcases ht with rfl | rfl | rfl | rfl | rfl | rfl | rfl | rfl | rfl | rfl | rfl | rfl | rfl | rfl <;>
  rcases hv with rfl | rfl | rfl | rfl | rfl | rfl | rfl | rfl | rfl | rfl | rfl | rfl | rfl | rfl | rfl <;>
  first
  | (intro h; exact absurd h (by decide +kernel))
  | exact fun _ => ⟨_, rfl, rfl⟩

/-- `test_float_with_units_treated_as_float`, `test_double_float_…`, `test_extended_float_…`, `test_void_read` -/
example :
    (PropertyValue.read al .little (writeDataType .little .singleFloatWithUnit ++ [0, 0, 0x4C, 0x42]) 0).map (·.1) =
      .ok (.singleFloat 0x424C0000) ∧
    (PropertyValue.read al .little (writeDataType .little .doubleFloatWithUnit ++ F.write .little (f64 51)) 0).map (·.1) =
      .ok (.doubleFloat (f64 51)) ∧
    (PropertyValue.read al .little
      (writeDataType .little .extendedFloatWithUnit ++ extendedStorage.write .little 0x0008000c) 0).map (·.1) =
      .ok (.extended 0x0008000c) ∧
    (PropertyValue.read al .little (writeDataType .little .void) 0).map (·.1) = .ok .void := by decide +kernel

/-- `test_string_conversion` -/
example : PropertyValue.ofVal? .string (txt "Hello World") = some (.string (txt "Hello World")) ∧
    PropertyValue.toVal .string (.string (txt "Hello World")) = .ok (txt "Hello World") := ⟨rfl, rfl⟩

/-! ## `src/io/data_types`, `src/io/reader.rs`, `src/io/writer.rs` -/

/-- A value of a storage type is read from the given bytes and written as the given bytes. -/
def Codes {α : Type} [DecidableEq α] (S : Storage α) (e : Endian) (v : α) (bs : Bytes) : Prop :=
  (S.read e bs 0).map (·.1) = .ok v ∧ S.write e v = bs

instance {α : Type} [DecidableEq α] (S : Storage α) (e : Endian) (v : α) (bs : Bytes) : Decidable (Codes S e v bs) :=
  inferInstanceAs (Decidable (_ ∧ _))

/-- `src/io/data_types/native_numerics.rs`: the expected bytes are those of `to_le_bytes` and `to_be_bytes`. -/
example :
    Codes (numeric 1 .i8 [.i8]) .little (-123 : BitVec 8) [0x85] ∧
    Codes (numeric 1 .u8 [.u8]) .big (123 : BitVec 8) [0x7B] ∧
    Codes (numeric 2 .i16 [.i16]) .little (-1234 : BitVec 16) [0x2E, 0xFB] ∧
    Codes (numeric 2 .i16 [.i16]) .big (-1234 : BitVec 16) [0xFB, 0x2E] ∧
    Codes (numeric 2 .u16 [.u16]) .big (1234 : BitVec 16) [0x04, 0xD2] ∧
    Codes (numeric 4 .i32 [.i32]) .little (-12345 : BitVec 32) [0xC7, 0xCF, 0xFF, 0xFF] ∧
    Codes (numeric 4 .u32 [.u32]) .big (12345 : BitVec 32) [0x00, 0x00, 0x30, 0x39] ∧
    Codes (numeric 8 .i64 [.i64]) .big (-21343543253 : BitVec 64) [0xFF, 0xFF, 0xFF, 0xFB, 0x07, 0xD3, 0x60, 0x2B] ∧
    Codes (numeric 8 .u64 [.u64]) .little (4325465436536 : BitVec 64) [0x78, 0xB1, 0xD4, 0x19, 0xEF, 0x03, 0x00, 0x00] := by
  decide +kernel

/-- `src/io/data_types/bool.rs` -/
example : ∀ e ∈ [Endian.little, .big], Codes boolStorage e true [1] ∧ Codes boolStorage e false [0] := by decide +kernel

/-- `src/io/data_types/complex.rs` and the round trips of `src/io/data_types/extended.rs` -/
example : ∀ e ∈ [Endian.little, .big],
    ((STy.complex32.storage al).read e ((STy.complex32.storage al).write e ⟨0x3F800000, 0x40000000⟩) 0).map (·.1) =
      .ok ⟨0x3F800000, 0x40000000⟩ ∧
    ((STy.complex64.storage al).read e ((STy.complex64.storage al).write e ⟨f64 1, f64 2⟩) 0).map (·.1) =
      .ok ⟨f64 1, f64 2⟩ ∧
    (extendedStorage.read e (extendedStorage.write e 0x0008000c) 0).map (·.1) = .ok 0x0008000c := by decide +kernel

/-- `test_extended_size` -/
example : extendedStorage.size 0 = 10 := by decide +kernel

/-- `test_read_string`; `src/io/reader.rs` and `src/io/writer.rs`: `test_string` -/
example :
    ((stringStorage al).read .little ([13, 0, 0, 0] ++ "Hello, world!".toUTF8.toList) 0).map (·.1) =
      .ok (txt "Hello, world!") ∧
    Codes (stringStorage al) .little (txt "/'Measured Throughput Data (Volts)'") niString ∧
    (stringStorage al).size (txt "/'Measured Throughput Data (Volts)'") = niString.length := by decide +kernel

/-- `test_read_string_obscene_length` (also if the memory can be had) -/
example :
    ((stringStorage al).read .little ([0xFF, 0xFF, 0xFF, 0xFF] ++ "Hello, world!".toUTF8.toList) 0).isOk = false := by
  decide +kernel

/-- `test_write_segment`, `…_data_only`, `…_meta_only` -/
example : ∀ md ∈ [some (niObjects .matchPrevious), none], ∀ data ∈ [some (TdmsFile.sliceData F .little (List.replicate 10 0)), none],
    ((writeSegment .little {} md data).2.take 4 = tdsmTag ∧
     (writeSegment .little {} md data).1.toc.containsMetaData = md.isSome ∧
     (writeSegment .little {} md data).1.toc.containsRawData = data.isSome ∧
     ToC.fromU32 (decNat .little (((writeSegment .little {} md data).2.drop 4).take 4)) =
       (writeSegment .little {} md data).1.toc ∧
     ((writeSegment .little {} md data).2.drop 8).take 4 = encNat .little 4 4713 ∧
     decNat .little (((writeSegment .little {} md data).2.drop 12).take 8) =
       (md.map MetaData.size).getD 0 + (if data.isSome then 80 else 0) ∧
     (writeSegment .little {} md data).1.nextSegmentOffset =
       (md.map MetaData.size).getD 0 + (if data.isSome then 80 else 0) ∧
     decNat .little (((writeSegment .little {} md data).2.drop 20).take 8) = (md.map MetaData.size).getD 0 ∧
     (writeSegment .little {} md data).1.rawDataOffset = (md.map MetaData.size).getD 0) := by
  intro md hmd data hdata
  simp only [List.mem_cons, List.not_mem_nil, or_false] at hmd hdata
  rcases hmd with rfl | rfl <;> rcases hdata with rfl | rfl <;> decide +kernel

/-! ## `src/paths.rs` -/

/-- `test_root_path`, `test_group_path`, `test_channel_path`, `test_channel_path_type`, and the tests on escapes -/
example :
    PropertyPath.file.path = txt "/" ∧ (grp "group").path = txt "/'group'" ∧
    (PropertyPath.channel (txt "group") (txt "channel")).path = txt "/'group'/'channel'" ∧
    (ch "group" "channel").path = txt "/'group'/'channel'" ∧
    (grp "group'with'quotes").path = txt "/'group\"with\"quotes'" ∧
    (PropertyPath.channel (txt "group'with'quotes") (txt "channel'with'quotes")).path =
      txt "/'group\"with\"quotes'/'channel\"with\"quotes'" ∧
    (ch "group'with'quotes" "channel'with'quotes").path =
      txt "/'group\"with\"quotes'/'channel\"with\"quotes'" := by decide +kernel

/-- `test_correctly_identifies_group` and `test_correctly_identifies_channel` -/
example : (grp "group").isChannel = false ∧ (PropertyPath.channel (txt "group") (txt "channel")).isChannel = true := by
  decide +kernel

/-- `test_property_path_try_from_object_path_…` -/
example : PropertyPath.tryFrom (txt "invalid") = R.err (.invalidObjectPath (txt "invalid")) ∧
    ∀ s ∈ ["/'group'/'channel'", "/'group'", "/"], (PropertyPath.tryFrom (txt s)).map (·.path) = .ok (txt s) := by
  decide +kernel

/-- `test_channel_path_try_from_object_path_…` -/
example : ChannelPath.tryFrom (txt "invalid") = R.err (.invalidObjectPath (txt "invalid")) ∧
    (ChannelPath.tryFrom (txt "/'group'/'channel'")).map (·.path) = .ok (txt "/'group'/'channel'") ∧
    ChannelPath.tryFrom (txt "/'group'") = R.err (.invalidChannelPath (txt "/'group'")) ∧
    ChannelPath.tryFrom (txt "/") = R.err (.invalidChannelPath (txt "/")) := by decide +kernel

/-- `test_path_group_name` -/
example : pathGroupName (txt "/'group'/'channel'") = .ok (some (txt "group")) ∧
    pathGroupName (txt "/'group'") = .ok (some (txt "group")) ∧
    pathGroupName (txt "/") = .ok none ∧ pathGroupName (txt "invalid") = .ok none := by decide +kernel

/-! ## `src/raw_data/mod.rs` -/

/-- `dummy_segment` -/
def dummy (toc next raw : Nat) : Segment :=
  seg toc next raw [obj "group" [p32 "Prop" (-51)] .none, obj "group/ch1" [p32 "Prop1" (-1)] (.rawData (dbl 1000)),
    obj "group/ch2" [p32 "Prop2" (-2)] (.rawData (dbl 1000))]

/-- A channel of strings. -/
def str (total : Nat) : RawDataMeta := { dataType := .tdmsString, numberOfValues := 1000, totalSizeBytes := some total }

/-- `datablock_captures_sizing_from_segment` -/
example : DataBlock.fromSegment (dummy 0xE 500 20) 10 [dbl 1000, dbl 1000] =
    .ok { start := 58, length := 480, layout := .contigious, channels := [dbl 1000, dbl 1000], byteOrder := .little } := by
  decide +kernel

/-- `data_block_errors_if_no_channels`, `…_length_is_zero`, `…_raw_offset_is_greater_than_length` -/
example : (DataBlock.fromSegment (dummy 0xE 500 20) 0 []).isOk = false ∧
    (DataBlock.fromSegment (dummy 0xE 500 500) 0 [dbl 1000]).isOk = false ∧
    (DataBlock.fromSegment (dummy 0xE 500 501) 0 [dbl 1000]).isOk = false := by decide +kernel

/-- `data_block_gets_layout_from_segment` and `data_block_gets_endianess_from_segment` (bits 5 and 6 of the flags) -/
example :
    (DataBlock.fromSegment (dummy 0x2E 500 20) 0 [dbl 1000]).map (·.layout) = .ok .interleaved ∧
    (DataBlock.fromSegment (dummy 0xE 500 20) 0 [dbl 1000]).map (·.layout) = .ok .contigious ∧
    (DataBlock.fromSegment (dummy 0x4E 500 20) 0 [dbl 1000]).map (·.byteOrder) = .ok .big ∧
    (DataBlock.fromSegment (dummy 0xE 500 20) 0 [dbl 1000]).map (·.byteOrder) = .ok .little := by decide +kernel

/-- `data_block_get_chunk_size_…` -/
example :
    (DataBlock.fromSegment (dummy 0xE 500 20) 0 [dbl 1000, dbl 1000]).bind (·.chunkSize) = .ok (.fixed 16000) ∧
    ((DataBlock.fromSegment (dummy 0xE 500 20) 0 [dbl (2 ^ 64 - 1), dbl 1000]).bind (·.chunkSize)).isOk = false ∧
    (DataBlock.fromSegment (dummy 0xE 500 20) 0 [{ dataType := .u32, numberOfValues := 1000 }, dbl 1000]).bind
      (·.chunkSize) = .ok (.fixed 12000) ∧
    (DataBlock.fromSegment (dummy 0xE 500 20) 0 [str 12000, dbl 1000]).bind (·.chunkSize) = .ok (.variable 20000) ∧
    ((DataBlock.fromSegment (dummy 0xE 500 20) 0 [str (2 ^ 64 - 1), dbl 1000]).bind (·.chunkSize)).isOk = false := by
  decide +kernel

/-- `data_block_chunk_count_…` -/
example :
    (DataBlock.fromSegment (dummy 0xE 16020 20) 0 [dbl 1000, dbl 1000]).bind (·.numberOfChunks) = .ok 1 ∧
    (DataBlock.fromSegment (dummy 0xE 16020 20) 0 [dbl 0, dbl 0]).bind (·.numberOfChunks) = .ok 0 ∧
    (DataBlock.fromSegment (dummy 0xE 48020 20) 0 [dbl 1000, dbl 1000]).bind (·.numberOfChunks) = .ok 3 ∧
    (DataBlock.fromSegment (dummy 0xE 48320 20) 0 [dbl 1000, dbl 1000]).bind (·.numberOfChunks) = .ok 3 ∧
    (DataBlock.fromSegment (dummy 0xE 50020 20) 0 [str 12000, dbl 1000]).bind (·.numberOfChunks) = .ok 1 := by
  decide +kernel

/-! ## `src/raw_data/records.rs` -/

/-- A request for a channel. -/
def req {α : Type} (index slot : Nat) (out : List α) : ChannelRequest α := { channelIndex := index, slot, output := out }

/-- What a record plan does with the channels: the number of values and, for channels that are skipped, the bytes. -/
def shape {α : Type} (plan : List (RecordEntry α)) : List (Nat × Option Nat) :=
  plan.map fun e => (e.length, match e.plan with | .skip b => some b | .read _ _ _ => none)

/-- `test_basic_record_structure_read_all` and `…_read_one` -/
example :
    (buildRecordPlan F [dbl 1000, dbl 1000] [req 0 0 [], req 1 1 []]).map shape = .ok [(1000, none), (1000, none)] ∧
    (buildRecordPlan F [dbl 1000, dbl 1000] [req 1 0 []]).map shape = .ok [(1000, some 8), (1000, none)] := by
  decide +kernel

/-- `test_error_on_type_mismatch` and `test_does_not_error_on_different_but_compatible_types` -/
example :
    (buildRecordPlan (STy.u32.storage al) [dbl 1000, dbl 1000] [req 1 0 []]).map shape =
      R.err (.dataTypeMismatch .doubleFloat .u32) ∧
    ((buildRecordPlan F [{ dataType := .doubleFloatWithUnit, numberOfValues := 1000 },
      { dataType := .doubleFloatWithUnit, numberOfValues := 1000 }] [req 1 0 []]).map shape).isOk = true := by
  decide +kernel

/-- `test_returns_length_of_single_records` and `test_returns_length_of_write_block` -/
example :
    (buildRecordPlan (STy.i32.storage al) [dbl 1000, { dataType := .i32, numberOfValues := 1000 }, dbl 1000]
      [req 1 0 []]).map (rowSize (STy.i32.storage al)) = .ok 20 ∧
    (buildRecordPlan (STy.i32.storage al) [dbl 1000, { dataType := .i32, numberOfValues := 1000 }, dbl 1000]
      [req 1 0 []]).bind (blockSize (STy.i32.storage al)) = .ok 20000 := by
  decide +kernel

/-! ## `src/raw_data/contigious_multi_channel_read.rs` and `src/raw_data/interleaved_multi_channel_read.rs` -/

/-- `create_test_buffer`: the numbers from 0 to 99 as big-endian doubles -/
def buffer : Bytes := (List.range 100).flatMap fun i => F.write .big (f64 i)

/-- The number of samples and the buffers after a read of a contiguous block over the buffer. -/
def contig (chs : List RawDataMeta) (reqs : List (ChannelRequest (BitVec 64))) (start : Nat) :
    R (Nat × List (Nat × List (BitVec 64))) := do
  let plan ← buildRecordPlan F chs reqs
  let r ← contigReadFrom F .big 0 800 plan start buffer 0
  return (r.1.1, planOutputs r.1.2)

/-- The number of rows and the buffers after a read of an interleaved block over the buffer. -/
def inter (chs : List RawDataMeta) (reqs : List (ChannelRequest (BitVec 64))) (start : Nat) :
    R (Nat × List (Nat × List (BitVec 64))) := do
  let plan ← buildRecordPlan F chs reqs
  let r ← interRead F .big 0 800 (mapSkips (fun _ => start) plan) buffer 0
  return (r.1.1, planOutputs r.1.2)

/-- A buffer of zeros. -/
def z (n : Nat) : List (BitVec 64) := List.replicate n 0

/-- Buffers with the given numbers, by slot. -/
def outs (l : List (List Nat)) : List (Nat × List (BitVec 64)) := l.mapIdx fun i xs => (i, xs.map f64)

/-- `read_data_contigious_single` -/
example : (contig [dbl 50, dbl 50] [req 0 0 (z 3)] 0).map (·.2) = .ok (outs [[0, 1, 2]]) := by decide +kernel

/-- `read_data_contigous_multi` and `read_data_contigious_multi_different_lengths` -/
example :
    (contig [dbl 25, dbl 25, dbl 25, dbl 25] [req 0 0 (z 3), req 2 1 (z 3)] 0).map (·.2) =
      .ok (outs [[0, 1, 2], [50, 51, 52]]) ∧
    (contig [dbl 25, dbl 25, dbl 25, dbl 25] [req 0 0 (z 3), req 2 1 (z 2)] 0).map (·.2) =
      .ok (outs [[0, 1, 2], [50, 51]]) := by decide +kernel

/-- `read_data_contigous_multi_with_repeated_writes` -/
example : (contig [dbl 2, dbl 2, dbl 2, dbl 2] [req 0 0 (z 3), req 2 1 (z 3)] 0).map (·.2) =
    .ok (outs [[0, 1, 8], [4, 5, 12]]) := by decide +kernel

/-- `read_data_contigious_with_skip` -/
example : (contig [dbl 25, dbl 25, dbl 25, dbl 25] [req 0 0 (z 3), req 2 1 (z 3)] 2).map (·.2) =
    .ok (outs [[2, 3, 4], [52, 53, 54]]) := by decide +kernel

/-- `read_data_contigious_with_skip_and_multiple_blocks` -/
example : contig [dbl 3, dbl 3] [req 0 0 (z 3), req 1 1 (z 3)] 1 = .ok (3, outs [[1, 2, 6], [4, 5, 9]]) := by
  decide +kernel

/-- `read_data_interleaved_single` -/
example : (inter [dbl 512, dbl 512] [req 0 0 (z 3)] 0).map (·.2) = .ok (outs [[0, 2, 4]]) := by decide +kernel

/-- `read_data_interleaved_multi` and `read_data_interleaved_multi_different_lengths` -/
example :
    (inter [dbl 256, dbl 256, dbl 256, dbl 256] [req 0 0 (z 3), req 2 1 (z 3)] 0).map (·.2) =
      .ok (outs [[0, 4, 8], [2, 6, 10]]) ∧
    (inter [dbl 256, dbl 256, dbl 256, dbl 256] [req 0 0 (z 3), req 2 1 (z 2)] 0).map (·.2) =
      .ok (outs [[0, 4, 8], [2, 6]]) := by decide +kernel

/-- `read_data_interleaved_with_skip` -/
example : inter [dbl 256, dbl 256, dbl 256, dbl 256] [req 0 0 (z 3), req 2 1 (z 3)] 2 =
    .ok (3, outs [[8, 12, 16], [10, 14, 18]]) := by decide +kernel

/-! ## `src/raw_data/write.rs` -/

/-- `single_channel_writer_…` and `multi_channel_writer_generates_meta_data` -/
example :
    TdmsFile.dataStructure (STy.u32.storage al) (List.replicate 20 (0 : BitVec 32)) 1 = [{ dataType := .u32, numberOfValues := 20 }] ∧
    (TdmsFile.sliceData (STy.u32.storage al) .little [(0 : BitVec 32), (1 : BitVec 32), (2 : BitVec 32), (3 : BitVec 32)]).bytes =
      [0, 0, 0, 0, 1, 0, 0, 0, 2, 0, 0, 0, 3, 0, 0, 0] ∧
    TdmsFile.dataStructure (STy.u32.storage al) (List.replicate 20 (0 : BitVec 32)) 4 =
      List.replicate 4 { dataType := .u32, numberOfValues := 5 } := by decide +kernel

/-- `multi_channel_writer_errors_bad_channel_length`; `write_with_no_channels_error` of `tests/write_structure.rs` -/
example :
    (TdmsFile.writeChannels (STy.u32.storage al) .little ⟨Index.new, []⟩ [ch "g" "a", ch "g" "b", ch "g" "c"]
      (List.replicate 20 (0 : BitVec 32)) .contigious).1 = R.err (.badDataBlockLength 20 3) ∧
    (TdmsFile.writeChannels (STy.u32.storage al) .little ⟨Index.new, []⟩ [] [] .contigious).1 = R.err .noChannels := by
  decide +kernel

/-! ## `src/file/channel_reader.rs` -/

/-- Data locations as block, index of the channel, number of samples. -/
def locs (l : List (Nat × Nat × Nat)) : List DataLocation := l.map fun x => ⟨x.1, x.2.1, x.2.2⟩

/-- A plan as blocks and, for each channel, index and samples to skip. -/
def planned (p : R (List BlockRead)) : R (List (Nat × List (Option (Nat × Nat)))) :=
  p.map (·.map fun b => (b.dataBlock, b.channelIndexes.map (·.map fun c => (c.index, c.samplesToSkip))))

/-- `test_read_plan_single_channel` and `…_with_skip` -/
example :
    planned (readPlan [locs [(20, 1, 1000), (21, 1, 1000)]] 0) = .ok [(20, [some (1, 0)]), (21, [some (1, 0)])] ∧
    planned (readPlan [locs [(20, 1, 1000), (21, 1, 1000), (22, 1, 1000)]] 1500) =
      .ok [(21, [some (1, 500)]), (22, [some (1, 0)])] := by decide +kernel

/-- `test_read_plan_multi_channel_simple`, `…_with_skip`, `…_skip_entire_block` -/
example :
    planned (readPlan [locs [(20, 1, 1000), (21, 1, 1000)], locs [(20, 2, 1000), (21, 0, 1000)]] 0) =
      .ok [(20, [some (1, 0), some (2, 0)]), (21, [some (1, 0), some (0, 0)])] ∧
    planned (readPlan [locs [(20, 1, 1000), (21, 1, 1000)], locs [(20, 2, 1000), (21, 0, 1000)]] 500) =
      .ok [(20, [some (1, 500), some (2, 500)]), (21, [some (1, 0), some (0, 0)])] ∧
    planned (readPlan [locs [(20, 1, 1000), (21, 1, 1000)], locs [(20, 2, 1000), (21, 0, 1000)]] 1000) =
      .ok [(21, [some (1, 0), some (0, 0)])] := by decide +kernel

/-- `test_read_plan_multi_channel_complex` -/
example :
    planned (readPlan [locs [(20, 1, 1000), (21, 1, 1000), (25, 0, 1000)],
      locs [(20, 2, 1000), (21, 0, 1000), (22, 1, 1000)]] 0) =
      .ok [(20, [some (1, 0), some (2, 0)]), (21, [some (1, 0), some (0, 0)]), (22, [none, some (1, 0)]),
        (25, [some (0, 0), none])] := by decide +kernel

/-- `test_progress_complete` and `test_progress_complete_over` -/
example : ∀ n ∈ [5, 6], ((addSamples n [some ⟨0, 0⟩] (addSamples 5 [some ⟨0, 0⟩] [⟨z 10, 0⟩])).map
    Progress.isComplete) = [true] := by decide +kernel

/-! ## `src/file/mod.rs` and the writing tests of `/repo/tests` -/

/-- A file after a list of calls, which must all succeed. -/
def run : List (TdmsFile → R Unit × TdmsFile) → TdmsFile → R TdmsFile
  | [], t => .ok t
  | c :: cs, t =>
    match c t with
    | (.ok (), t) => run cs t
    | (.error e, _) => .error e

/-- A call of `write_channels` with doubles. -/
def w (channels : List ChannelPath) (xs : List Nat) (layout : DataLayout) : TdmsFile → R Unit × TdmsFile :=
  fun t => TdmsFile.writeChannels F .little t channels (xs.map f64) layout

/-- An observation after the calls on an empty file. -/
def after {α : Type} (calls : List (TdmsFile → R Unit × TdmsFile)) (f : TdmsFile → R α) : R α := do
  let t ← TdmsFile.create al
  let t ← run calls t
  f t

/-- `test_can_load_empty_buffer` -/
example : (buildIndex al []).isOk = true := by decide +kernel

/-- `test_list_groups_with_properties_single`, `…_multiple`, `test_list_implicit_groups_from_channels` -/
example :
    after [fun t => t.writeProperties .little (grp "group") [(txt "name", .string (txt "my_channel"))]]
      TdmsFile.listGroups = .ok [txt "group"] ∧
    after [fun t => t.writeProperties .little (grp "group") [(txt "name", .string (txt "my_channel"))],
      fun t => t.writeProperties .little (grp "group2") [(txt "name", .string (txt "my_channel"))]]
      TdmsFile.listGroups = .ok [txt "group", txt "group2"] ∧
    after [w [ch "group" "channel"] [1, 2, 3, 4, 5, 6] .interleaved] TdmsFile.listGroups = .ok [txt "group"] := by
  decide +kernel

/-- `test_list_channels_in_group_single`, `…_multiple`, `…_none` -/
example :
    after [w [ch "group" "channel"] [1, 2, 3, 4, 5, 6] .interleaved] (·.listChannelsInGroup (grp "group")) =
      .ok [ch "group" "channel"] ∧
    after [w [ch "group" "channel"] [1, 2, 3, 4, 5, 6] .interleaved,
      w [ch "group" "channel2"] [1, 2, 3, 4, 5, 6] .interleaved] (·.listChannelsInGroup (grp "group")) =
      .ok [ch "group" "channel", ch "group" "channel2"] ∧
    after [w [ch "group" "channel"] [1, 2, 3, 4, 5, 6] .interleaved] (·.listChannelsInGroup (grp "group2")) =
      .ok [] := by decide +kernel

/-- Read a channel of doubles from the start. -/
def rd (c : ChannelPath) (n : Nat) (t : TdmsFile) : R (List (BitVec 64)) := t.readChannel F c (z n)

/-- `tests/memory_buffers.rs`: also after the file is opened again -/
example :
    after [w [ch "group" "channel"] [1, 2, 3] .interleaved] (rd (ch "group" "channel") 3) = .ok ([1, 2, 3].map f64) ∧
    after [w [ch "group" "channel"] [1, 2, 3] .interleaved]
      (fun t => do rd (ch "group" "channel") 3 (← TdmsFile.new al t.bytes)) = .ok ([1, 2, 3].map f64) := by
  decide +kernel

/-- `test_multi_channel_write_interleaved` and `test_multi_channel_write_contigious` -/
example :
    after [w [ch "structure" "ch1", ch "structure" "ch2"] [1, 2, 3, 4, 5, 6] .interleaved] (rd (ch "structure" "ch1") 3) =
      .ok ([1, 3, 5].map f64) ∧
    after [w [ch "structure" "ch1", ch "structure" "ch2"] [1, 2, 3, 4, 5, 6] .interleaved] (rd (ch "structure" "ch2") 3) =
      .ok ([2, 4, 6].map f64) ∧
    after [w [ch "structure" "ch1", ch "structure" "ch2"] [1, 2, 3, 4, 5, 6] .contigious] (rd (ch "structure" "ch1") 3) =
      .ok ([1, 2, 3].map f64) ∧
    after [w [ch "structure" "ch1", ch "structure" "ch2"] [1, 2, 3, 4, 5, 6] .contigious] (rd (ch "structure" "ch2") 3) =
      .ok ([4, 5, 6].map f64) := by decide +kernel

/-- `test_fragmented_write` -/
example :
    after [w [ch "structure" "ch1"] [1, 2, 3] .contigious, w [ch "structure" "ch2"] [6, 7, 8, 9, 10] .contigious,
      w [ch "structure" "ch1"] [4, 5] .contigious] (rd (ch "structure" "ch1") 5) = .ok ([1, 2, 3, 4, 5].map f64) := by
  decide +kernel

/-- `test_repeated_writes` -/
example :
    ∀ x ∈ [("ch1", [1, 2, 3, 7, 8, 9]), ("ch2", [4, 5, 6, 10, 11, 12])],
    after [w [ch "structure" "ch1", ch "structure" "ch2"] [1, 2, 3, 4, 5, 6] .contigious,
      w [ch "structure" "ch1", ch "structure" "ch2"] [7, 8, 9, 10, 11, 12] .contigious] (rd (ch "structure" x.1) 6) =
      .ok (x.2.map f64) := by decide +kernel

/-- `test_read_channels_from_separate_blocks` of `tests/read_with_offset.rs`, with blocks of 20 samples instead of
    1000, read from sample 10 instead of 500, and buffers of 5 cells instead of 100 -/
example :
    after [w [ch "test" "ch1"] (List.range 20) .contigious, w [ch "test" "ch2"] (List.range' 20 20) .contigious,
      w [ch "test" "ch1", ch "test" "ch2"] (List.range' 40 40) .contigious]
      (fun t => t.readChannelsFrom F [ch "test" "ch1", ch "test" "ch2"] 10 [z 5, z 5]) =
      .ok [[10, 11, 12, 13, 14].map f64, [30, 31, 32, 33, 34].map f64] := by decide +kernel

/-- `tests/write_properties.rs` -/
example : ∀ path ∈ [PropertyPath.file, grp "group", PropertyPath.channel (txt "group") (txt "channel")],
    ∀ v ∈ sampleValues, after [fun t => t.writeProperties .little path (sampleValues.mapIdx fun i v => ((toString i).toList, v)),
      fun t => t.writeProperties .little path [(txt "timestamp", v)]] (·.readProperty path (txt "timestamp")) =
      .ok (some v) := by
  decide +kernel

end Tedium.RepoTests
