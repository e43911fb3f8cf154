# Formal model of WiresmithTech/tedium in Lean 4

`/repo` is read as text and never built. The model is in `lean/Verif/Model`, the independent
specifications in `lean/Verif/Spec`, helper lemmas in `lean/Verif/Proofs` and the property theorems
in `lean/Verif/Props`. `properties.jsonl` lists the properties, `MANIFEST.json` the theorems for each,
`seeded/LOG.jsonl` the wrong programs the theorems were tested against.

## 1. What is modelled and how

| code | model | remarks |
|---|---|---|
| `io/data_types/*` | `Model/Basic`, `Model/DataType`, `Model/Storage`, `Model/Utf8` | a storage type is a record (natural type, supported types, `size_of`, read, write, size); integers and floats are bit vectors |
| `meta_data.rs`, `properties.rs` | `Model/MetaData`, `Model/Property`, `Model/Chrono` | byte-level readers and writers, both byte orders; conversions |
| `paths.rs` | `Model/Paths` | text is a list of characters |
| `io/reader.rs`, `io/writer.rs` | `Model/Basic`, `Model/MetaData`, `Model/BufW`, `Model/Stream`, `Model/Medium` | a reader is (file bytes, position); a writer appends bytes; `BufWriter` separately, over a perfect stream (`BufW`) and over one that can fail (`Stream`); what the stream's own `flush` does and what a power failure leaves (`Medium`) |
| `index/*` | `Model/SMap`, `Model/Index` | `BTreeMap` = sorted association list; mutation before an early `?` return is kept |
| `raw_data/*` | `Model/RawData`, `Model/BlockRead`, `Model/Stores` | seeks and reads on positions, output slices as lists that are filled; in `Model/Stores` as assignments to cells, which stay when a read fails |
| stream position, `BufReader`, short and failing reads and seeks | `Model/Act`, `Model/Device`, `Model/Handle` | the same readers over a stream with a position and a script of outcomes |
| a stream to which others append during a call | `Model/Growing` | the same programs and the same `BufReader` over a stream that can grow before each operation |
| any stream | `Model/Source` | opening and reading over any state type with any functions for `read` and `seek`, with the same `BufReader` and programs |
| any stream, writing | `Model/Duplex` | `TdmsFile::writer` and the calls of the writer over any functions for `write`, `flush` and `seek`, with the same `BufWriter` |
| memory | `Model/Memory` | opening and reading over any stream that gets the buffers themselves, byte by byte written or not; `std::io::BufReader` with its buffer; the `unsafe` block of `strings.rs` |
| messages | `Model/Messages` | the texts of `TdmsError`, `DataType` and the paths; number formats of `core::fmt` |
| arithmetic without overflow checks | `Model/Build` | the functions in which it matters, with the arithmetic as a parameter |
| `file/*` | `Model/File`, `Model/Disk` | open, create, list, properties, write, read plan, read execution; `load` and `create` in a file system with several open files |

A `Result` stays a `Result`. A Rust panic (slice out of range, `expect`, division by zero, arithmetic
overflow with overflow checks on) is an explicit third outcome `Fail.panic`, so "never panics" is a
statement about results. Loops without an obvious bound carry fuel and return `Fail.hang` when it runs
out; theorems show that this does not happen.

Every definition cites the lines it models and says where it simplifies.

## 2. Trusted base

* Lean 4.33.0 kernel. Axioms of the theorems: at most `propext`, `Quot.sound`, `Classical.choice`
  (checked with `#print axioms` for all theorems of the manifest). No axioms of our own, no `sorry`, no
  `native_decide`, no `bv_decide`.
* The transcription of the Rust code into `Model/*`. It was tested (this is no proof): `Tests/Repo` runs the unit tests
  of the repository, with their inputs and expected values, on the model, and `validation/ReadTestFile.lean.txt` runs
  its tests that read `tests/tdms-test-file.tdms`, a file from LabVIEW with 127 data blocks. All expectations hold.
* `std` behaviour: `Read::read_exact` and `BufReader` (its `read`, `read_exact` and `seek_relative`)
  as modelled in `Model/Device`, where they are shown to be transparent, `BufWriter` as modelled in `Model/BufW` (any capacity, any flush decisions)
  and `Model/Stream` (its `write_all`, `flush` and `drop`, any capacity; the stream's own `flush` is in `Model/Medium`, where it may fail or do nothing, as it does for `File`), `Vec`, `BTreeMap`,
  `BTreeSet`, `str::split/starts_with/ends_with/replace`, UTF-8 validation, `to_le_bytes`/`from_le_bytes`.
* `labview_interop::LVTime` is an opaque 128-bit value whose four byte conversions are the usual
  16-byte codecs and whose `size_of` is 16. Its conversions
  from and to `chrono::DateTime` are parameters (`Model/Chrono`).
* 64-bit `usize`. Overflow checks on (debug build, the configuration of the project's tests and fuzzer), except in
  `Model/Build`, which has the arithmetic as a parameter and covers optimised builds, too (C70-C72).
  `f32`/`f64` are bit patterns (NaN payloads included).
* Allocation (`try_reserve`) is an arbitrary oracle given to the readers. Theorems that promise success
  assume that it grants every request (`Generous`).

Not modelled: streams that panic or do not return (others are covered by `Model/Source` and `Model/Duplex`); `Debug` text (except that of `DataType`), drop order, running time (only the number of stream operations, `Spec/Work`),
code under `#[cfg(test)]`, calls on one file that overlap in time, except calls of a reader while others append (`Model/Growing`; `Model/Disk` interleaves whole calls).

## 3. Specifications

| file | contents |
|---|---|
| `Spec/Format` | type codes (published ones, and the library's), bytes of numbers |
| `Spec/Layout` | the bytes of a TDMS file, as relations, from the NI white paper |
| `Spec/WellFormed` | which values fit into their fields |
| `Spec/Objects`, `Spec/Segments`, `Spec/History` | objects, properties, active channels and lengths of a list of segments; last write of a history |
| `Spec/Open` | what a file made of segments is |
| `Spec/Samples`, `Spec/Plan`, `Spec/Tame` | where samples lie in a file, read plans, blocks whose samples are read |
| `Spec/Reads` | what a read of one or several channels stores in buffers; allocation errors |
| `Spec/Faults` | histories of calls on a stream that can fail |
| `Spec/Device` | which operations of a stream fail, and which fails first |
| `Spec/Meanwhile` | a later moment of a stream that grows |
| `Spec/Recording` | a program that writes a file, and a stream in which its bytes arrive |
| `Spec/OwnType` | implementations of the public trait for sample types, and histories that write values of such a type |
| `Spec/Life` | calls of a writer on any stream, reads and writers one after the other, which writes count, streams that keep what they are given |
| `Spec/Memory` | streams that are honest about the bytes they put into a buffer, streams that put there what they give, sequences of reads |
| `Spec/Messages` | errors that need not be told apart by their messages |
| `Spec/Library` | the library as a store: store, queries, replies, programs |
| `Spec/Plays` | the programs that play a history with any values |
| `Spec/Streamed` | programs over a stream, and what a store replies to them |
| `Spec/Existing` | what an existing file holds as a store, and the programs on it |
| `Spec/Crashes` | a store that falls back in a crash, and the programs with crashes |
| `Spec/Resumed` | the library as a store that survives crashes, on files that exist |
| `Spec/Watcher` | a program that watches a file while another writes it, and the stores it sees |
| `Spec/Several` | several handles on one file, and the store they share |
| `Spec/Copy` | a program that copies a file through the library |
| `Spec/Merge` | two files made into one |
| `Spec/Concat` | two files joined byte for byte |
| `Spec/Handle` | histories of reads and writer sessions on one open file |
| `Spec/Work` | the number of stream operations of opening and reading |
| `Spec/Kept` | how much an open file keeps in memory |
| `Spec/Writes`, `Spec/Order` | histories of calls, what they should give; swapping the byte order |
| `Spec/Rearrange` | cutting, putting together and exchanging calls |
| `Spec/Changing`, `Spec/Appending` | exact guards: histories that can be reopened, files that can be appended to |
| `Spec/Delivered` | the places from which a read takes values, for every layout and start; when a read can be served; files that differ in raw data only |
| `Spec/Jointly` | what a read of several channels stores in which cells; when it can be served |
| `Spec/JointOutcome` | how a read of several channels fails, and which bytes it needs |
| `Spec/Outcome` | how a read of one channel fails: the first fault among the segments that it needs |
| `Spec/Power` | sessions in which the system writes back by itself, until the power fails |
| `Spec/Builds` | sessions with a build with or without overflow checks |
| `Spec/Verdict`, `Spec/Grammar`, `Spec/Extends` | what the index complains about; path strings; what more a grown file has |

## 4. Where the code departs from its properties

Properties that are false of the code stay in full in `properties.jsonl`; the manifest marks them
`partial`, the theorem that is proved carries the suffix `_partial`, and a `…_counterexample` theorem
records the failing input. The defects found:

1. `Segment::read` always parses a metadata section, but the writer omits it when a channel list is
   repeated: such files are misread when opened again (C12, C32).
2. The comparison of a channel list with the last one stops at the shorter of both and ignores formats:
   data is lost or attributed to other channels (C31, C34, C46).
3. Writing no values writes a segment, then reports `ZeroLengthDataBlock`; the file cannot be opened any
   more (C29).
4. Sizes of strings and extended floats in memory (24, 16) are used as sizes in the file; the size of a
   timestamp is taken as 8 instead of 16 (C30, C36, C43, C44).
5. Joint reads share their progress between channels and stop with the first full buffer (C37); a joint read that has filled its buffers can change after a later write (C58). Samples to skip are handed out in the order of the channels in the block instead of the order of the buffers, so that samples before the start can be delivered; chunks that one buffer skips are lost for all; rows are read only until the first of which nothing is stored; and of a channel named twice only the last buffer gets values (C75). In interleaved data every channel is read in every row, and one row more than is stored, so that a joint read of a cut file can fail where the single reads succeed (C77).
6. A contiguous block whose first channel has no values makes reads divide by zero; crafted counts
   overflow (C40).
7. Crafted raw data offsets overflow the address of a data block; sums of lengths may overflow (C22, C24).
8. Names with `/`: not recovered, not listed, or panics; a path component `'` panics; a group `a/b` is
   accepted as a channel (C02–C05, C16, C17).
9. Appending to a file with trailing bytes corrupts it (C45); cuts inside lead-in or metadata make a file
   unreadable (C26).
10. Extended floats of 80 bits or more are truncated (C06); string channels do not have the layout of the
    format; the codes of doubles and extended floats with a unit are not the published ones (C47).
11. In contiguous blocks with channels of different lengths the skip is computed from the first channel;
    interleaved data that ends in a partial chunk gives more values than `channel_length` (C36).
12. A write that fails with an I/O error may leave a part of its segment in the file, of which the index
    does not know: later writes are misplaced and the file cannot be opened again. Errors while the writer
    is dropped are lost (C49).
13. A seek that fails while a file is being opened is taken as the end of the file: the file opens without the
    remaining segments and without an error. So is a stream that ends early where a segment begins (C54).
14. Quotes in stored names (other programs write `it''s` as `'it''s'` with the quote doubled) are replaced when a path is
    parsed: such objects are listed, also in the group `it`, but cannot be found under any path (C17, C61).
15. An open file does not notice what others append to the same file: what it writes afterwards goes to the end of the
    file, but it reads it back from the old end (C63). It also omits the channel list if that is the one it wrote last itself, even if
    another handle has written a different one since: the samples then belong to the channels of the other (C93).
16. Reading goes through all chunks of a block, up to its declared length, even if the buffer is full and the file ends long
    before: a file of 69 bytes keeps a read of one sample busy for 2^60 operations (C66).
17. Tables are reserved for the number of objects a segment declares, before any object is read: 32 bytes ask for 2^32-1
    entries (C66).
18. In an optimised build a write that fails because the data block would lie beyond 2^64 leaves that block in the index with
    a wrapped address: the channel has samples that nobody wrote, taken from the start of the file (C71). Sizes of chunks
    of timestamps or strings wrap around as well, and data is delivered from other places (C72).
19. `sync` "forces the file to sync to disk" according to its documentation, but it only calls `flush`, which does nothing
    for a file: no call of the library puts anything on the medium, so a power failure can undo a session all of whose
    syncs returned `Ok` (C78).
20. The plan of a read uses the `SIZE_BYTES` of the requested type, by default its size in memory, as the size of a value in
    the file, and does not check it: for a type of one's own that is larger in memory than in the file, reads return `Ok` and
    deliver nothing, and one of size zero makes them divide by zero (C84).
21. `read_string_with_length` passes memory that was never initialised to `read_exact`. For strings of 8192 bytes or more it
    reaches the stream, and a stream written without `unsafe` that claims bytes it did not write makes a `String` of that
    memory (C86). The comment in the code ("immediately filled by read_exact") is right only for streams that are honest.

## 5. Properties

For each: how it is modelled and proved, what is proved, and where it is false of the code. Names are in
namespace `Tedium`.

**C01 Paths of different objects never collide.** Texts are lists of characters. Injectivity of the three path shapes, by induction on the escaped names.
*proved*: `paths_never_collide`.

**C02 Names can be recovered from a path.** `split('/')` and the quote stripping are modelled with their panics; exact characterisation of when the names come back.
*partial*: `names_recovered_partial`, `group_name_iff`, `channel_name_iff`, `group_accessors_exactly`, `channel_accessors_exactly`, `channel_path_accessors_exactly`, `accessors_examples`, `names_recovered_counterexample`. False in full: names containing '/' are not recovered (or panic). Proved with the exact guard 'no slash'; group_accessors_exactly and channel_accessors_exactly give the result for all names, and say which make the accessors panic.

**C03 Parsing a path printed by the library gives the same path back.** Composition of printing and parsing; exact condition.
*partial*: `parse_print_partial`, `parse_print_iff`, `parse_print_counterexample`. False in full for names containing '/'. Proved with the exact guard.

**C04 Parsing an arbitrary path string never panics.** All cases of the parser; guard: no component is a lone quote.
*partial*: `parse_never_panics_partial`, `parse_never_panics_counterexample`, `parse_exactly`, `parse_exactly_cases`. False in full: a path component that is a lone quote panics. parse_exactly gives the outcome for every string.

**C05 A ChannelPath always denotes a channel.** Case analysis of both conversions.
*partial*: `channel_path_from_str`, `channel_path_from_property_path_partial`, `channel_path_counterexample`, `parse_channel_exactly`, `channel_path_iff`. Conversion from a string: full. Conversion from a PropertyPath is false for a group whose name contains one slash.

**C06 Stored values round-trip bit-exactly in both byte orders.** `Bytes at a position` predicate; round trip for all 16 storage types; independent statement of the bytes of numbers.
*proved*: `value_roundtrip`, `extended_roundtrip_iff`, `string_roundtrip_iff`, `number_bytes`, `other_bytes`.

**C07 Declared size equals bytes written.** Length of every encoder equals the `size` function, by induction on lists.
*proved*: `declared_size_is_written_size`, `segment_offsets`.

**C08 Type codes are a bijection.** Reader over all 32-bit codes against a table; writer; bijection.
*proved*: `type_code_reading`, `type_code_writing`, `type_codes_bijective`.

**C09 Table-of-contents flags round-trip.** The six bits; decoding of arbitrary words.
*proved*: `toc_bits`, `toc_roundtrip`, `toc_in_segment`.

**C10 Property values round-trip.** Per variant, composed from C06.
*proved*: `property_roundtrip`.

**C11 Metadata sections round-trip.** Induction on object and property lists.
*proved*: `metadata_roundtrip`.

**C12 A written segment reads back as the segment that was indexed.** Composition; guard: there is a metadata section. `segment_roundtrip_iff` states the limit as an equivalence.
*partial*: `segment_roundtrip_partial`, `segment_without_metadata_counterexample`, `segment_without_metadata_concrete_counterexample`, `segment_roundtrip_iff`. False in full: a segment written without metadata is not read back. segment_roundtrip_iff: the metadata section is exactly what it takes.

**C13 Unsupported content is rejected, never misread.** Each rejected input reaches its error, for all surrounding bytes.
*proved*: `daqmx_index_rejected`, `unknown_index_type_rejected`, `unsupported_property_rejected`, `non_utf8_text_rejected`, `utf8_text_accepted`.

**C14 Properties: last write wins.** The index refines `fold over all entries`; the last value of a name. Sessions: each object's property map stays sorted, also across failing calls.
*proved*: `properties_last_value`, `last_write_wins`, `all_properties_agree`, `all_properties_history`, `properties_example`. For files (index replayed from segments) and for all call histories, read_property and read_all_properties.

**C15 Missing objects and missing properties are distinguished.** Same refinement; all five API functions. Sessions: objects are never removed, and the objects a call adds are given.
*proved*: `missing_objects`, `missing_in_session`, `objects_stay`, `property_write_objects`, `data_write_objects`, `properties_example`. For files, for every state of a session, and which objects a call adds.

**C16 list_groups is exact.** Sorted map of objects, `list_groups` against the set of groups; UTF-8 order = byte order (`utf8_order`).
*partial*: `list_groups_partial`, `listing_example`, `listing_counterexample`, `listing_panics_counterexample`, `list_groups_exactly`, `listed_channels_example`. False in full: groups and channels with '/' in a name are not listed, a group called '/' makes list_groups panic. Proved for files whose object names have no slash; list_groups_exactly gives the outcome for every file.

**C17 list_channels_in_group is exact.** Prefix range of the sorted map.
*partial*: `list_channels_partial`, `listing_example`, `listing_counterexample`, `list_channels_exactly`, `list_all_channels`, `listed_channels_example`, `listed_channels_counterexample`. Same guard as C16; list_channels_exactly gives the outcome for every file and path. In files of other programs a channel of group it''s is listed in group it.

**C18 Indexing never panics.** Invariant of the index over all segment lists, also with failed segments in between.
*proved*: `indexing_never_panics`, `indexing_outcomes`.

**C19 Every recorded data location is valid.** Same invariant.
*proved*: `locations_valid`.

**C20 channel_length counts the samples of all blocks.** Sum over segments, checked against an independent description of activity.
*proved*: `channel_length_sum`, `channel_length_fits`, `channel_length_monotone`.

**C21 Active-channel rules of the format.** Independent specification `Spec/Segments` of the active list; refinement by induction over segments.
*proved*: `active_channel_rules`, `active_iff`, `same_as_previous`.

**C22 Inconsistent segment headers are rejected.** Decision table of `DataBlock::from_segment`.
*partial*: `inconsistent_headers_partial`, `inconsistent_headers_cases`, `address_overflow_counterexample`, `segment_verdict`, `segment_verdict_cases`. False in full: an overflowing data block address panics instead of returning SegmentAddressOverflow.

**C23 Opening terminates.** Loop with fuel; progress of 28 bytes per segment.
*proved*: `open_terminates`.

**C24 Opening never panics.** Panic freedom of all readers; guard on the address.
*partial*: `open_never_panics_partial`, `open_never_panics_counterexample`, `open_panics_iff`, `open_panics_example`. False in full: a crafted raw data offset makes the address of the data block overflow. open_panics_iff says exactly when.

**C25 Opening a file is the same as replaying its segments.** Replay theorem by induction over segments.
*proved*: `open_is_replay`, `open_segments`, `written_segment_is_file_segment`, `exampleFile_opens`.

**C26 Behaviour after a crash in the middle of a write.** All cut positions; classification; data of complete blocks is unchanged.
*partial*: `open_truncated_partial`, `open_truncated_example`, `truncated_data_partial`, `channelSamples_prefix`, `truncated_data_example`, `truncated_data_counterexample`, `cut_file_segments`, `growing_file_cut`, `cut_read_exact`, `cut_example`. What opening a cut file gives: for files whose segments carry a metadata section (the reader misreads segments without one, C12), and, through cut_file_segments and growing_file_cut, for every file that can be opened. The data: limits of C36. cut_read_exact settles every read of a cut file, for all layouts: it fails or delivers what was there before the cut.

**C27 Writing is append-only.** Every operation appends; induction over histories.
*proved*: `append_only`, `append_only_example`.

**C28 Rejected arguments leave file and index untouched.** Both directions: these errors exactly for these arguments.
*proved*: `rejected_arguments`, `rejected_arguments_only`, `rejected_arguments_example`.

**C29 A failed write leaves the file usable.** Failure by arguments changes nothing; the witness is a write of no values. `failed_write_iff` is the exact form, from the verdict of C60 and the parser on the 28 bytes of a header.
*partial*: `failed_write_harmless_partial`, `failed_write_reopen_partial`, `failed_write_read_partial`, `failed_write_example`, `failed_write_counterexample`, `empty_write_fails`, `empty_write_breaks`, `failed_write_iff`, `failed_write_iff_example`. False in full: a write of no values is reported as an error after its bytes were written, and makes the file unreadable. Proved for writes rejected for their arguments, in every history of accepted writes. failed_write_iff: a failing data write leaves the file as it was, and able to be opened, exactly if it was rejected for its arguments.

**C30 Index end equals file end.** Invariant over histories.
*partial*: `index_end_partial`, `index_end_example`, `index_end_counterexample`, `value_sizes`, `index_end_exact`, `index_end_iff`, `index_end_iff_example`. False for extended floats and strings, whose size in memory is not the number of bytes written. Proved for all other types. index_end_exact: for every history of successful calls the index is ahead of the end of the file by exactly the bytes the values take in memory less those they take in the file; index_end_iff: so the property holds if and only if both are equal.

**C31 What is written is what is read, in the same session.** Refinement of histories to `channel = list of samples`; block by block simulation. Exactness: the samples a misfitting call adds are counted, or traced to the wrong chunk.
*partial*: `write_then_read_partial`, `append_then_read_partial`, `reads_back_iff`, `not_reads_back`, `reads_back_iff_example`, `reads_back_iff_misfit`, `write_then_read_length_counterexample`, `write_then_read_added_counterexample`, `write_then_read_dropped_counterexample`, `write_then_read_rows_counterexample`, `write_then_read_type_counterexample`. False in full: the channel list is compared with the last one only up to the shorter of both, and lengths and types are not compared, so data is lost or misattributed. Proved for histories in which every list differs from the last one at a shared position or continues it with the same format (Compatible). reads_back_iff: this guard is exact, a history of tables is read back for all values in it if and only if it is compatible.

**C32 What is written is what is read, after reopening.** Bytes of a history are segments (C12), opening replays them (C25), reads agree. Exactness: values stored as the byte 1 in a segment without metadata cannot be parsed as metadata, so opening stops before them.
*partial*: `reopen_partial`, `reopen_appended_partial`, `reopenOps_reopens`, `reopen_repeated_counterexample`, `reopen_string_counterexample`, `reopens_iff`, `reopens_iff_example`, `reopens_iff_repeat`. False in full: a segment without metadata (written when a channel list is repeated) is misread when the file is opened again. Proved for histories in which every write carries metadata or whose data starts with four zero bytes. The guard is exact: reopens_iff shows that a history can be reopened after each of its calls, whatever the values, if and only if every data write changes the channel list.

**C33 Layout does not change meaning.** Corollary of C31 for both layouts; exactly: both histories read back (C31, `reads_back_iff`) iff the contents agree for all values.
*partial*: `layout_irrelevant_partial`, `layout_irrelevant_iff`, `layout_irrelevant_iff_example`, `layout_irrelevant_iff_misfit`, `layout_irrelevant_counterexample`. False in full: a contiguous table with more rows than the last one to the same channels is stored differently. Proved with the guard of C31. layout_irrelevant_iff: the guard is exact, among the histories that can be written row after row.

**C34 Writes do not disturb other objects.** Frame theorems for every call in every state. `data_write_frame_iff` is the exact form, from the segment that is written and C16.
*partial*: `data_write_frame_partial`, `data_write_properties`, `property_write_frame`, `data_write_frame_example`, `data_write_frame_counterexample`, `data_write_lengths_exact`, `data_write_frame_iff`, `data_write_frame_iff_example`. Property writes and the effect of data writes on properties: full. Data of other channels: false when the list is a prefix of the last one; proved otherwise. data_write_lengths_exact and data_write_frame_iff say exactly how many samples a data write adds to channels it does not name.

**C35 sync and drop bring everything into the file, a crash of the process keeps a prefix.** Model of `BufWriter` with arbitrary capacity, flushes and a crash at any point.
*proved*: `sync_and_crash`, `sync_and_crash_example`. The file as the operating system has it; what a power failure leaves is C78.

**C36 read_channel_from returns the right window.** Block readers against `Spec/Samples` (where each sample lies); induction over the plan.
*partial*: `read_window_partial`, `read_window_cells_partial`, `read_window_regular_partial`, `read_window_lengths_counterexample`, `read_window_timestamp_counterexample`, `read_window_partial_chunk_counterexample`, `read_right_iff`, `read_contiguous_right_iff`, `read_interleaved_right_iff`. False in full: in a contiguous block whose channels have different lengths the offset is computed from the first channel, a timestamp channel displaces the channels after it, and interleaved data ending in a partial chunk gives more values than the channel length. Proved with a guard on the blocks that hold wanted samples. read_right_iff: exactly when a read is right, for all layouts.

**C37 read_channels agrees with reading each channel alone.** Simulation of the joint read by single reads. Exactly when they agree: comparison of the cells of the file stored by the joint read (C75) with those delivered by single reads (C73); for the converse the raw data is changed at a cell where they differ.
*partial*: `read_channels_agree_partial`, `read_channels_agree_iff`, `read_channels_agree_example`, `read_channels_single`, `manyFile_agrees`, `read_channels_buffers_counterexample`, `read_channels_out_of_step_counterexample`, `read_channels_twice_counterexample`. False in full: buffers of different lengths, channels out of step and repeated channels give other results than single reads. read_channels_agree_iff says exactly when joint and single reads agree for all contents of the raw data.

**C38 Read planning visits exactly the blocks that are needed.** Recursion equations of the plan against an independent plan.
*proved*: `read_plan_exact`.

**C39 Reading with the wrong type is an error.** The type check precedes every read.
*proved*: `wrong_type_rejected`, `wrong_type_never_reinterprets`, `wrong_type_example`, `wrong_type_together`, `empty_buffer_any_type`, `wrong_type_together_example`. wrong_type_together: channels read together, with the error exactly if one of them has to give samples of another type. empty_buffer_any_type: nothing is checked and nothing fails because of the type if the buffer has no room.

**C40 Reading never panics.** No panic outcome for guarded files; witnesses for the rest.
*partial*: `read_never_panics_partial`, `read_regular_never_panics_partial`, `read_never_panics_first_counterexample`, `read_never_panics_overflow_counterexample`, `read_never_panics_example`, `read_panics_iff`, `headless_example`, `debug_read_panics`. False in full: a contiguous block whose first channel has no values panics (division by zero), and crafted counts overflow. Proved with a guard that excludes these. read_panics_iff: exactly when a read panics, for files with all their raw data.

**C41 Reads compose.** Corollary of C36. Exact form: the cells that both reads visit are compared with the cells of the long read; where they differ, the raw data is changed there (cells_agree_iff).
*partial*: `reads_compose_partial`, `reads_compose_example`, `reads_compose_counterexample`, `read_layout_exact`, `reads_compose_iff`, `reads_compose_iff_example`. False in full where C36 is. read_layout_exact gives the values of every read, for all layouts; reads_compose_iff says exactly when two reads give what one read gives, for all contents of the raw data.

**C42 Property conversions are exact.** All variants against all target types.
*proved*: `property_conversion_roundtrip`, `property_conversion_exact`, `property_conversion_total`.

**C43 Byte order of a file does not matter.** Two files with the same segments in different byte orders; equality of the index, relation of the data. For arbitrary layouts: the cells a read visits do not depend on byte orders, and the values in them agree if they are values of the file.
*partial*: `byte_order_structure`, `byte_order_data_partial`, `byte_order_read_partial`, `byte_order_read_example`, `byte_order_joint_read_partial`, `byte_order_joint_read_example`, `byte_order_example`, `byte_order_counterexample`. Objects, properties, lengths, listings and errors: full. Data: for regular segments of ordinary types, and for every read, of timestamps too, that gets values of the file (byte_order_read_partial, for several channels byte_order_joint_read_partial); false where a read gets bytes from the middle of other values, as behind a timestamp channel.

**C44 Every supported sample type can be stored in a channel.** Corollary of C31 for one channel.
*partial*: `storage_type_round_trip_partial`, `storage_type_round_trip_example`, `storage_type_timestamp_counterexample`, `storage_type_extended_counterexample`, `storage_type_string_counterexample`, `storage_type_exact`, `storage_type_iff`, `keptOf_eq_iff`, `storage_type_exact_example`. False for timestamps (length doubled), extended floats and strings. Proved for all other types. storage_type_exact: what the first write to a new file gives for every type (timestamps count twice, strings not at all and read back as nothing, extended floats keep 80 bits); storage_type_iff: for such a write the property holds exactly for types other than timestamps and strings whose values fit.

**C45 Appending to a reopened file works.** C25 for the old file, then C31 from that state.
*partial*: `append_after_open_partial`, `append_then_read_partial`, `reopen_appended_partial`, `appendedOps_read`, `append_after_trailing_counterexample`, `append_after_cut_counterexample`, `append_after_open_iff`, `append_iff_example`. False when the file has trailing bytes or ends inside a segment. Proved for files that end on a segment boundary; append_after_open_iff shows that this guard is exact.

**C46 Unchanged channel lists are written without metadata.** Exact number of bytes; metadata as read back. `metadata_omitted_iff` is the exact form.
*partial*: `repeated_list_no_metadata`, `changed_list_metadata_partial`, `repeated_list_no_metadata_example`, `changed_list_metadata_example`, `changed_list_metadata_counterexample`, `metadata_omitted_iff`, `metadata_omitted_example`. Repeated lists: full. Changed lists are false when the new list only adds or drops channels at the end or changes the format. metadata_omitted_iff: exactly the lists that differ at a shared position are written with metadata.

**C47 Files follow the published TDMS layout.** Relations between contents and bytes written from the white paper (`Spec/Layout`), equivalent to the encoders.
*partial*: `open_layout_partial`, `layout_unambiguous`, `property_write_layout`, `data_write_layout_partial`, `data_write_layout_iff`, `data_write_layout_iff_example`, `open_layout_example`, `write_layout_example`, `data_write_layout_counterexample`, `open_layout_counterexample`, `open_unit_types`, `open_unit_types_example`. False for string channels (the index lacks the total size, the data the offsets), for extended floats (wrong offsets in the lead-in) and for doubles and extended floats with a unit (other type codes). For the first data write to a file, exactly the types other than strings and extended floats follow the layout (`data_write_layout_iff`). A file with such a unit type is never opened (`open_unit_types`). Proved for everything else that has a metadata section; see C12 for segments without one.

**C48 A failing stream is reported and does no harm.** `BufWriter` and a stream with an arbitrary script of outcomes (`Model/Stream`); simulation by the writer over a perfect stream.
*proved*: `fault_free_writes`, `sound_stream`, `failing_write`, `faults_append_only`, `fault_free_writes_example`, `fault_free_writes_example_hypothesis`, `failing_write_example`.

**C49 Writing can go on after an I/O error.** Same model; witnesses for the full claim.
*partial*: `resume_after_error_partial`, `resume_after_error_example`, `resume_after_error_counterexample`, `dropped_writer_counterexample`, `resume_after_error_iff`, `resume_after_error_iff_example`. False in full: the part of the failed segment that was written is not known to the index, so data written later is looked for at the wrong place and the file cannot be opened again; an error while the writer is dropped is lost. Proved when nothing of the failed call stays behind; resume_after_error_iff shows that this guard is exact.

**C50 A read fills the front of the buffer and nothing else.** The read of one channel is rewritten as a function of the number of free cells only (`execOne`), for any index and file; equality with the model by induction over plan, chunks, rows.
*proved*: `read_fills_front`, `delivers_unique`, `read_fills_front_example`, `read_fails_example`.

**C51 A longer buffer only receives more values.** Two runs of `execOne` with different numbers of cells, by simultaneous induction.
*proved*: `longer_buffer`, `longer_buffer_example`. Both reads must succeed: a larger buffer can reach data that cannot be read.

**C52 Later writes never change samples already readable.** Calls append to bytes, data blocks and each channel's locations (any state); `execOne` over an extended file, by induction.
*proved*: `later_writes_keep_reads`, `later_writes_extend_reads`, `later_calls_extend`, `later_writes_example`.

**C53 A crash loses at most what was not synced.** Induction over the calls with the file-segment form of each call (`Holds`), the truncation lemma for the segment that is cut, and the growth lemma of C52 for the data; the buffer model of C35 for what is on disk.
*partial*: `crash_recovery_partial`, `crash_outcome_exact`, `crash_outcome_example`, `crash_keeps_reads_partial`, `synced_calls_on_disk`, `sync_is_durable`, `sync_is_durable_example`, `crash_example`, `crash_counterexample`. False in full (defect 9): a cut inside a segment header makes the whole file fail to open, proved as counterexample. Proved: what opening gives for every cut point (complete calls, or UnexpectedEof, or also the cut call, with the exact byte limits between the three), that every opened file delivers all samples of complete calls, and that synced calls are complete. Guards of C32.

**C54 Opening and reading do not depend on how the stream delivers its bytes.** A stream is contents, position and a script of outcomes of its operations; `BufReader` is modelled with its buffer (`Model/Device`). Readers become programs of read, skip and tell steps (`Act`) run either on a position or on the stream; a simulation shows both agree or the stream failed. Opening by induction over the segments.
*partial*: `read_through_stream`, `read_many_through_stream`, `open_through_stream_partial`, `open_any_chunking`, `handle_example`, `failing_read_example`, `early_end_example`, `open_seek_failure_counterexample`, `open_early_end_counterexample`. Reads: full; the first operation that fails ends the call with its error, none is swallowed. Opening: false in full, a failing seek between two segments, or a stream that ends early where a segment begins, is taken as the end of the file, so the file opens with segments missing and no error; proved with that outcome spelled out, and in full for streams that do not fail.

**C55 Reads and writer sessions on one open file can be interleaved.** The same simulation for reads, plus a lemma that a writer behind a prefix behaves as one on an empty file; induction over the events.
*proved*: `session_through_stream`, `handle_history`, `handle_example`.

**C56 Running out of memory is an error and nothing else.** The reads with two allocators are run side by side; a logical relation says they agree until the first refusal.
*proved*: `open_memory`, `open_memory_enough`, `read_channels_memory`, `read_channel_memory`, `memory_example`. The requests modelled are the ones the code makes with try_reserve; other allocations (which abort the process) are not modelled.

**C57 A joint read stores the same values whatever the buffers hold.** The same relation between a read of values and a read of marked values into empty marks.
*proved*: `joint_read_determined`, `stores_unique`, `joint_read_determined_example`.

**C58 Later writes never change what a joint read has filled.** Monotonicity of reads under appended bytes and blocks; induction over the segments for what further segments store (`goesOn`). Exactness: if a buffer has room left, a write to another channel and one to its channel of a value that is not in the cell give a different result.
*partial*: `later_writes_keep_joint_reads_partial`, `joint_read_stopped_partial`, `joint_read_continued`, `joint_read_kept_iff`, `later_writes_keep_joint_reads_example`, `joint_read_grows_example`, `joint_read_kept_example`, `joint_read_changes_counterexample`. False in full: progress is shared between the channels, so a read that has filled its buffers goes on and overwrites cells when more data follows. Proved when the further calls add no samples to the channels read, and for any further segments when all buffers have come to their end by the shared progress; joint_read_continued says what further segments change otherwise, and joint_read_kept_iff that the guard is exact: if the buffers have not come to their end, two further calls that succeed change what the read returns.

**C59 A file that is still growing never shows anything wrong.** Readers of metadata: errors other than end of file persist under appended bytes, by composition; segments of a prefix are a prefix of the segments; replay only adds.
*proved*: `growing_file_extends`, `growing_file_rejected`, `growing_file_opens`, `growing_file_cut`, `cut_file_segments`, `growing_file_example`.

**C60 Which files open, and which error is given otherwise.** The checks of add_segment in order against a specification of each complaint over the list of segments so far; induction over the segments.
*proved*: `segment_verdict`, `open_verdict`, `open_panics_iff`, `segment_verdict_cases`, `open_panics_example`.

**C61 Every channel that is listed can be used.** Exact grammar of path strings; listing theorems over arbitrary stored paths; objects after a call by the entries of its segment.
*partial*: `listed_channels_found_partial`, `listed_channels_found_created`, `call_objects`, `history_objects`, `nameable_iff`, `unnameable_object`, `listed_channels_example`, `listed_channels_counterexample`. False in full: a quote in a stored name (other programs double it) is replaced, so the object cannot be named and the listed path is not found. Proved, with that exact guard, and in full for files made by the library.

**C62 Loading never changes a file, creating empties it, other files are untouched.** A file system of names and contents with any number of open files; case analysis of each action, induction over the actions.
*proved*: `load_changes_nothing`, `create_empties`, `other_files_untouched`, `session_on_disk`, `sharedCalls_example`.

**C63 A reader is not disturbed by others that append to the file.** Files only grow under such actions; monotonicity of reads under appended bytes.
*partial*: `readers_beside_writers`, `files_only_grow`, `sharedCalls_example`, `two_writers_counterexample`, `created_anew_counterexample`, `writers_beside_writers_iff`, `writers_beside_writers_iff_example`. Reader: full (as long as nobody creates the file anew). Several writers: false, an open file does not notice what others append, and computes the addresses of its own later data from the old end; writers_beside_writers_iff shows that the open file can be appended to if and only if the others have not written anything.

**C64 Closing a file and opening it again makes no difference.** Induction over the actions: the open file always equals what opening its bytes gives. `reopening_iff` is the exact form, from that of C32.
*partial*: `reopening_makes_no_difference_partial`, `reopening_on_disk_partial`, `actions_on_disk`, `actions_history`, `reopening_on_disk_example`, `reopening_example`, `reopening_counterexample`, `reopening_iff`. False in full (defect 1). Proved with the guards of C32. reopening_iff: for all values, the guard is exact.

**C65 Typed values and dates survive as properties.** From last_write_wins, the conversions by cases on the type; the conversion of dates is a parameter.
*proved*: `property_read_back`, `typed_property`, `date_property`, `date_conversion`, `typed_property_example`. The conversion between LVTime and DateTime is in the crate labview-interop and is a parameter.

**C66 Work and memory are bounded by the size of the file.** Spec/Work counts the operations of the programs of Model/Act; bounds composed along bind; blocks lie one after the other in the declared length of the file. Memory: every entry of a table takes some bytes of the file, so a read that succeeds under any allocator has made only requests for which the file has room (relation closed under bind).
*partial*: `open_work`, `open_work_orderly`, `read_channels_work`, `read_channel_work`, `read_work_partial`, `work_example`, `read_work_counterexample`, `open_memory_counterexample`, `open_memory_bounded_partial`, `open_memory_error`, `read_memory_none`, `open_memory_bounded_example`. Opening: full (quadratic; linear when metadata does not reach into the next segment). Reading: false in full, the declared length of a data block counts, not what is there: a file of 69 bytes takes 2^60 operations to read one sample. Proved: bounded by the declared lengths, hence linear in the size of a file that is not cut off. Memory: false, a file of 32 bytes asks for a table of 2^32-1 entries. Proved for files that can be opened: they open where only requests are granted for which the file has room (a string of n bytes: n, a table of n objects: 12 n, of n properties: 8 n bytes), and other requests come only with files that cannot be opened. Reading values other than strings asks for none.

**C67 A read that fails leaves only correct data in the buffer.** Model/Stores has the readers of Model/Act with the assignments as instructions; erasing them gives the readers of Model/Act (same result), and running on a shorter buffer, on less data or on a failing stream gives a prefix of the assignments, by a relation between runs closed under bind.
*partial*: `read_into_agrees`, `read_many_into_agrees`, `stream_read_into_agrees`, `stream_read_many_into_agrees`, `read_into_sequence`, `stream_read_into_sequence`, `failed_read_delivers`, `failed_stream_read_delivers`, `failed_stream_read`, `failed_stream_read_many_partial`, `failed_read_of_part`, `failed_joint_read_counterexample`, `read_into_lengths`, `cut_file_example`, `whole_file_example`, `failing_stream_example`. Reads of one channel: full. Several channels: proved that a failing read makes the first of the assignments of the read that does not fail, in the same order; that each buffer gets a front part of its channel is false for them, proved as a counterexample: a cell can be assigned twice (defect 5).

**C68 How calls are cut and ordered does not matter.** A relation of cutting and exchanging calls; by induction over it both histories give every channel and object the same; C31 and C14 for both.
*partial*: `rearranged_read_property`, `rearranged_read_partial`, `cutOps_rearranged`, `rearranged_example`, `rearranged_counterexample`, `rearranged_contents_iff`, `rearranged_iff`, `rearranged_iff_misfit`. Properties: full, for all files and histories. Samples: false in full for the reasons of C31 (cutting three of five values off loses the others); proved when both histories are compatible. The guard is exact: rearranged_iff says that a history whose contents, for all values and at every point, are those of a compatible one with the same calls cut and ordered differently is compatible itself.

**C69 When an open file can be appended to, exactly.** If: C31 for one write to a new channel. Only if: the reader looks for the data where the index ends; written data with a suitable pattern is then read shifted, and what lies behind the end of the file decides what is read (monotonicity under appended bytes).
*proved*: `append_iff`, `append_after_open_iff`, `append_grown_iff`, `resume_after_error_iff`, `writers_beside_writers_iff`, `append_iff_example`, `resume_after_error_iff_example`, `writers_beside_writers_iff_example`. Room: sizes well below 2^63.

**C70 Builds with and without overflow checks agree.** The model with the arithmetic as a parameter; both instances are compared function by function (one panics with an overflow, or both agree).
*proved*: `debug_is_the_model`, `builds_agree_open`, `builds_agree_calls`, `builds_agree_reads`, `builds_agree_example`.

**C71 Opening and writing never panic in an optimised build.** A panic needs a data block address that overflows; then the end of the segment overflows as well, and that addition is checked by the code. Invariant of the index also for blocks with wrapped addresses.
*proved*: `release_open_answers`, `release_open_rejects`, `release_calls_answer`, `release_calls_reject`, `release_open_example`, `release_failed_write_counterexample`. The counterexample shows what is not claimed: the failing call leaves a data block with a wrapped address in the index.

**C72 Reading in an optimised build: no wrong data instead of a panic.** Panics by cases. For agreement: sizes of a chunk are below 2^64 (checked when the segment is added), so a wrapped product becomes a move behind the start of the file, or to a place at which nothing is read.
*partial*: `debug_read_panics`, `debug_read_panics_first`, `release_read_panics`, `release_read_never_panics_partial`, `release_read_agrees_partial`, `release_read_example`, `release_read_agrees_stamps_counterexample`, `release_read_agrees_rows_counterexample`, `release_read_never_panics_counterexample`, `release_length_counterexample`. Which panics there are: full, for all sessions. False in full: timestamps of one channel are delivered as values of another one when a size wraps around, and division by zero. Proved for types whose values take as many bytes in memory as in the file: no panic if the first channel of contiguous blocks has values, and never anything else than the other build returns, if interleaved channels have equally many values.

**C73 Exactly which values a read delivers, and exactly when they are the right ones.** The block readers are followed with an arbitrary skip, as functions from layouts to positions; induction over the blocks of the plan. For the converse: two different places of a value can be told apart by changing one byte of the raw data.
*proved*: `read_layout_exact`, `read_right_iff`, `read_contiguous_right_iff`, `read_interleaved_right_iff`, `uneven_example`, `stamps_example`, `half_chunk_example`. A read can be served when the segments it gets to have their raw data inside the file, a type that can be read as the wanted one, a first channel with values in contiguous data, and sizes within 64 bits. The corollaries for one segment are for segments whose channels have types with the same size in the index as in the file (no timestamps, extended floats, strings).

**C74 How every read of one channel ends.** The block readers are shown to have one result for every size of the file: the first position read that is not inside it is an end of file. The positions read are those of C73, plus one row in interleaved data. Induction over the blocks of the plan.
*proved*: `read_outcome`, `cut_read_exact`, `read_panics_iff`, `readFault_none_iff`, `cut_example`, `headless_example`. For files whose segments with samples of the channel declare addresses, row sizes and counts below 2^63 (Addressable); the raw data itself need not be there. Buffers without room are in C77 (empty_read_outcome).

**C75 Exactly what a read of several channels stores, and exactly when that is right.** The block readers are shown to feed lanes, one per channel of the block, each with its own skip, room and place; the result of a block is read off the lanes. Induction over the blocks of the plan. For the converse, a byte of a wrong cell is changed.
*proved*: `joint_read_exact`, `joint_right_iff`, `joint_right_example`, `joint_skip_order_counterexample`, `joint_skip_chunks_counterexample`, `joint_rows_stop_counterexample`, `joint_twice_counterexample`, `block_read_from`, `block_read_from_zero`, `block_read_from_example`. For reads that can be served: the blocks that they get to have readable types, their raw data is in the file, and the sums of the reader stay below 2^64. As many buffers as channels. The counterexamples show four ways in which joint reads are wrong, all of them described by the theorem.

**C76 A joint read never stores a value of another channel.** Every cell that C75 stores is a place of the channel. For the exact form the bytes of a stored place are set to a value that no other place of the file holds: all other raw data is cleared.
*partial*: `joint_read_own_samples_partial`, `joint_own_samples_example`, `joint_own_stamps_counterexample`, `joint_own_iff`, `joint_own_iff_example`. For segments with channels of ordinary types only (no timestamps, extended floats or strings), and whose interleaved rows are all samples. Next to a channel of timestamps that is not read it is false: joint_own_stamps_counterexample. joint_own_iff is exact for all layouts: the joint read stores own samples only, for all contents of the raw data, if and only if every stored place is the place of a sample of the right channel.

**C77 How every read of several channels ends.** The lanes of C75 once more, on a file that is continued with zeros up to the end of the block: the first position that is read and is not inside the file is an end of file. Induction over the blocks of the plan. A cut file is compared with the whole one by monotonicity of reads.
*proved*: `joint_read_outcome`, `cut_joint_read_exact`, `joint_read_fails_only`, `empty_read_outcome`, `joint_cut_example`, `empty_read_example`, `joint_read_needs_more_counterexample`. As many buffers as channels, all of them listed; files shorter than 2^63 bytes, whose segments with raw data declare addresses and numbers of samples below 2^63 and fewer than 2^59 channels (JointlyAddressable). joint_read_needs_more_counterexample shows that a joint read can fail where the reads of its channels succeed.

**C78 What a sync has confirmed survives a power failure.** The writer of C48 over a stream of which a prefix is on the medium (`Model/Medium`): the stream's own `flush` may do nothing, persist or fail, and the system writes back at any time. The prefix only grows; C48 says what it is a prefix of; C53 says what opening gives.
*partial*: `sync_survives_power_failure_partial`, `sync_survives_iff`, `power_failure_prefix`, `power_failure_recovery_partial`, `sync_result`, `file_session_lost`, `drop_keeps`, `sync_survives_example`, `sync_survives_example_hypothesis`, `power_failure_recovery_example`, `sync_power_counterexample`. False for files (defect 19): sync only calls flush, which does nothing for std::fs::File; file_session_lost shows that no call, sync included, puts anything on the medium, sync_power_counterexample is the smallest case. Proved: for streams whose flush is durable it holds; sync_survives_iff says exactly when. Bytes are taken to reach the medium in the order in which they were written.

**C79 What an open file keeps in memory is bounded by its size.** What a segment adds to the index is at most what reading it takes from the file; induction over the segments. Blocks of a channel are in increasing order, active objects are distinct and known.
*proved*: `kept_blocks`, `kept_objects`, `kept_objects_orderly`, `kept_entries`, `kept_tables`, `kept_example`, `kept_objects_linear_counterexample`. Counted are blocks, entries of tables, objects and properties, and the bytes of texts. The counterexample shows that the bound without the condition is not linear: metadata can lie inside the text of other metadata.

**C80 Channels and buffers are paired in order, also when there are not equally many.** Buffers from which a block has no request take no part in reading it; induction over the plan.
*proved*: `fewer_buffers`, `surplus_buffers`, `surplus_empty_buffers`, `pairing_example`, `surplus_buffers_fail_counterexample`. For every sample type, strings included. surplus_buffers_fail_counterexample shows that the statement cannot say more: a surplus buffer that is not empty keeps the read going, and a later block can then make it panic.

**C81 A file can be opened and read while another program appends to it.** Simulation: every call on a stream that grows does the same on a stream that has the final contents from the beginning and gives short reads; by induction over the programs of the readers. Then C54 and C67.
*proved*: `open_while_growing`, `open_while_growing_failing_partial`, `read_while_growing`, `read_many_while_growing`, `read_undisturbed`, `reads_while_growing`, `live_read_is_final`, `opening_while_growing_example`, `reading_while_growing_example`. For contents below 2^64 bytes. The others only append; contents that change otherwise are not modelled. When the stream fails during opening the index can cover the first segments only, as in C54 (open_while_growing_failing_partial); all the rest is for streams that may fail, too, except where the theorem says Reliable.

**C82 One program can watch a file that another is writing.** Composition of C81 (what a live call gives), C53 (what opening gives on a prefix of the bytes of a history), C32 (reopening) and C31 (what the history wrote).
*partial*: `watch_open_partial`, `watch_read_partial`, `watch_sees_partial`, `watch_exact_partial`, `reopenOps_recording`, `watch_example`, `watch_counterexample`. With the limits of C31 and C32 (Recording): no extended floats and strings, tables that fit the channel list, and a data write that repeats the list of channels, or only adds or drops channels at its end, must start with four zero bytes; false without them (watch_counterexample, and those of C31 and C32). The writer's bytes only arrive in order, as a stream that is written through a BufWriter gives them. watch_read_partial is for streams that may fail as well; the others are for streams that do not.

**C83 Any stream at all: opening and reading end, and buffers are filled from the front.** Predicates on programs (`Act.Sat`, `Prog.Sat`: every result of reading is allowed) by induction over the programs of the readers; for opening an invariant over the segments read so far, with addresses below 2^64 that rise by at least 28; a simulation for the streams of Model/Device.
*proved*: `any_stream_open`, `any_stream_read`, `any_stream_no_panic`, `any_stream_buffers`, `any_stream_sequence`, `any_stream_device`, `any_stream_example`, `any_stream_no_panic_example`. A stream is any type of states with any three functions for read, seek from the start and seek from the current position (Model/Source); read gives at most the number of bytes asked for, more are cut off.

**C84 Sample types of one's own.** Every value of the own type has the bytes of a value of the library's type, so a history with own values is a history of the library's calls (`own_write_native`), and the round trip follows from C31; reads are those of the library's type with another decoder.
*partial*: `own_write_native`, `own_read_partial`, `own_read_many_partial`, `own_round_trip_partial`, `own_round_trip_example`, `own_never_panics_partial`, `pair_stands`, `own_size_counterexample`, `own_no_size_counterexample`, `wrong_type_rejected`. An implementation of the trait is a `Storage`; a sound one is a `StandsFor` (Spec/OwnType). The limits are those of the properties for the library's types: C31 for the round trip, C08 and C09 for reads, C40 for panics. The counterexamples are of implementations whose SIZE_BYTES is not the size in the file (defect 20).

**C85 Any stream at all: writing, and the whole life of a file.** A simulation: for each operation of a stream there is an entry of the list that makes the stream of Model/Stream do the same, so each call on any stream is a call of Model/Stream; then induction over the calls and uses, with the index as the result of segments as invariant.
*proved*: `any_life`, `any_life_no_panic`, `any_writer_calls`, `any_writer_bytes`, `any_writer_sublist`, `any_writer_keeps`, `any_writer_seek`, `any_writer_scripted`, `any_life_example`, `any_writer_sublist_example`, `any_writer_keeps_example`, `cursor_keeps`. A stream is any type of states with any functions for the operations (Model/Source, Model/Duplex); a write counts as accepting at most what it was given.

**C86 Strings never contain memory that was not written.** Buffers are lists of cells that may be unwritten, and the BufReader is modelled with its whole buffer. An invariant over all programs: what the stream was passed, and that the filled front of the buffer is written. For streams that serve what they give, a simulation by the readers of C83.
*partial*: `memory_honest_partial`, `memory_handed`, `memory_short`, `memory_numbers`, `memory_serves`, `memory_counterexample`, `memory_short_example`, `memory_handed_example`, `memory_overclaim_example`. The vocabulary is Spec/Memory. In full, for every stream without unsafe, the claim is false (`memory_counterexample`, defect 21); `memory_honest_partial` has the exact premise under which the code is sound, `memory_short` the bound on strings under which it needs none.

**C87 The message of an error tells what is wrong.** The texts are modelled as functions to lists of characters. The fixed beginnings are no prefixes of each other (a finite table); the variable parts are injective: numbers are read back, separators do not occur in what they separate.
*proved*: `message_tells`, `type_name_tells`, `message_missing`, `message_example`. `TdmsError.Alike` in Spec/Messages says which errors need not be told apart. The number formats of the standard library are modelled by `printNat`.

**C88 The library is a store.** Refinement by induction over the commands: the state of the library is always that of the accepted calls so far (opening again is the identity by C32, rejected calls do nothing), and for each query the theorem about it is applied to the segments these calls wrote (`Holds`, proved by induction from the end of the history). Exactness: from the answers about one channel follows what `reads_back_iff` (C31) asks; a repeated list whose values are stored as ones is not in the file that is opened again, so that the length asked for afterwards is the old one.
*partial*: `library_is_store_partial`, `library_is_store_iff`, `library_reopened_is_store_iff`, `answer_unique`, `exampleProgram_proper`, `exampleProgram_replies`, `library_is_store_iff_example`, `playing_plays`, `library_reopened_unsafe`, `library_is_store_counterexample`. `Spec/Library` is the store, the programs (`Proper` lists the limits, which are those of the properties about single calls) and what the replies of a store are, to every query, including reads of missing channels and of other types; `answer_unique`: only the choice among several mismatching types is left open. For histories of tables the limits on the calls are exact: `library_is_store_iff`, and `library_reopened_is_store_iff` with opening again, over all programs that play the history with any values (`Spec/Plays`). False in full: `library_is_store_counterexample` is a program whose table of one channel is taken for a table of two (defect 2 of section 4).

**C89 The library is a store, over slow and failing streams too.** Refinement by induction over the steps on top of C88: the index and the contents of the stream are always those of the accepted calls so far. Sessions by induction over their calls (each write over a stream that does not fail is the write of the model without streams), reads by C54 (the right answer or the first failure), opening again by C55. Exactness: a program of one session, an opening and a question for a length, over a stream that does all it is asked, gives the lengths of the opened file; then as in C92.
*partial*: `stream_library_is_store_partial`, `streamProgram_proper`, `streamProgram_replies`, `stream_library_is_store_iff`, `existing_stream_is_store_iff_example`, `stream_library_is_store_counterexample`. `Spec/Streamed` is the programs and what a store replies over a stream. For histories of tables the limits on the calls are exact: `stream_library_is_store_iff`. False in full as C88 is, and because a seek that fails while the file is opened is taken for the end of the file (`stream_library_is_store_counterexample`, defect 13 of section 4). What failing writes leave is C48 and C49.

**C90 The library is a store, on files that exist too.** As C88, with the invariant (`Models`) stated for any store and any list of segments: it holds of the opened file by C25, C14, C20 and C36, and every call preserves it (`Models.step`). Each reply follows from the invariant alone. Over a stream, the proof of C89 is for every such course of states. Exactness: as in C88, with the segments of the file in front; opening forgets a data write that does not change the list if the bytes of its values are all 1.
*partial*: `existing_file_is_store_partial`, `existing_file_is_store_iff`, `existing_file_is_store_iff_example`, `existing_stream_is_store_partial`, `existing_stream_is_store_iff`, `existing_stream_is_store_iff_example`, `existing_new`, `made_file_exists_partial`, `windowFile_existing`, `windowProgram_proper`, `windowProgram_replies`, `windowSteps_proper`, `windowSteps_replies`, `existing_file_is_store_counterexample`. `Spec/Existing` says what a file holds (`storeIn`) and lists the limits (`Existing`, `ProperOn`). `existing_new`: a new file is the special case of C88; `made_file_exists_partial`: so are the files of the library. For histories of tables the limits on the calls are exact: `existing_file_is_store_iff`, and `existing_stream_is_store_iff` over a stream. False in full: `existing_file_is_store_counterexample` appends to one of the two channels of the last segment of a file (defect 2 of section 4).

**C91 The library is a store that survives crashes.** Induction over the steps with an invariant (`At`): the file has the bytes of some sound calls, less than a tag of a further one, and the index of these calls; `past` names the states since the last sync. A crash leads from `At` to `At` for a first part of the calls, by C53; a call by C32; a question is answered from the image of the store as in C88. For files that exist the same is done with the invariant of C90 (`Models`) and with `recover`, which is the lemma behind C53 for any file. Exactness: a call that is cut in its values is found by opening, and a read of its last channel that did not fail would give the same samples for every file that begins in the same way, so also for the one that differs in the last byte.
*partial*: `crash_store_partial`, `crash_existing_partial`, `crash_survived_iff`, `crash_existing_survived_iff`, `crash_histories_iff`, `crash_existing_histories_iff`, `crash_survived_example`, `crash_existing_survived_example`, `crashingProgram_endures`, `crashingProgram_replies`, `resumedProgram_endures`, `resumedProgram_replies`, `crash_store_counterexample`. `Spec/Crashes` has the store that falls back (`Survives`) and the limits (`Endures`). That a crash leaves a first part of the bytes, and at least the synced ones, is C35. The limit on where a crash may cut is exact: `crash_survived_iff`, and on files that exist `crash_existing_survived_iff`; so are the limits on the calls, for histories of tables: `crash_histories_iff`, `crash_existing_histories_iff` (`watcher_store_iff_example`, `watcher_existing_iff_example` have their hypotheses). False in full: after a crash in the header of a call the file cannot be opened (`crash_store_counterexample`, defect 9 of section 4).

**C92 A program that watches a file asks a store.** Induction over the steps with an invariant (`Seen`): the index is that of the first i calls, and these are complete or the last of them has its metadata in the file. Questions are answered from the contents at the end of the call (C81); with the index of i calls these answers are those of the store if the calls are complete (as in C91); if not, a read gives UnexpectedEof or what it gives on the complete file, because all readers are `Steady`: more bytes behind the end change no other result. Opening is decided by `crash_outcome_exact` (C53), from which i cannot fall. Exactness: a watcher of the complete file opens it and asks for lengths; at the first data write that does not change the list, values whose bytes are all 1 are chosen, and opening ends before them.
*partial*: `watcher_store_partial`, `watcher_existing_partial`, `watcher_store_iff`, `watcher_existing_iff`, `watcher_store_iff_example`, `watcher_existing_iff_example`, `read_outcome_final`, `spectator_askable`, `spectator_replies`, `watchingProgram_askable`, `watchingProgram_replies`, `found_example`, `watcher_store_counterexample`. `Spec/Watcher` has the program that watches (`Glance`), and what it sees (`Views`, `found`), and `Spec/WatcherOn` has the same for a file that had content before (`watcher_existing_partial`). `read_outcome_final` is for any file and index. For histories of tables the limits on the calls are exact: `watcher_store_iff`, `watcher_existing_iff`. False in full, for the calls that C32 excludes (`watcher_store_counterexample`). A stream that fails is in C81 and C82.

**C93 Several handles on one file share a store.** Induction over the steps with an invariant (`Shares`): the bytes are those of the history of all accepted calls, made with one handle; a handle that sees n calls has the index of the first n; a fresh handle has the same channel list in force and the same formats as the index of the whole history (`Alike`). From such an index a call writes the same bytes and succeeds if it does from the other (simulation through `add_segment`, piece by piece), and the two stay alike; what a property write writes does not depend on the index at all. Questions are answered as in C91, on a file that has grown.
*partial*: `several_handles_partial`, `several_existing_partial`, `several_existing_iff`, `several_handles_iff`, `severalOnFile_orderly`, `severalOnFile_replies`, `several_existing_iff_example`, `severalHandles_orderly`, `severalHandles_replies`, `several_handles_counterexample`. `Spec/Several` has the handles (`Shared`, `Deed`), the store they share (`Agrees`) and the programs (`Orderly`). Each call is one step: how the bytes of calls that overlap in time mix is not in the model (for one writer and one reader see C92). Without the condition on samples it is false: `several_handles_counterexample`. The limits of C88 are limits here too. `several_existing_partial` is for files that exist, as in C90. `several_handles_iff` and `several_existing_iff` show that for tables the limit on the lists of channels is exact.

**C94 A file can be copied through the library.** What the program reads is computed from what the store answers, so that the calls it makes are known: one property write for each object of the store and one single-channel table for each channel with samples (`Represents.copy`, `IsCopy`). The store of these calls is shown to be the same store, field by field (`IsCopy.store`). They follow one another as C31 and C32 want, because no two neighbours have the same channel, so that C88 and C32 apply to the copy whatever the file was like. That histories (C88) and files of others (C90) are answered as by a store is known. Exactness: names found by parsing a path have no slash in them (C02), so that no call of the copy names an object with a slash, and a call brings only objects it names into a file.
*partial*: `copy_partial`, `copy_history_partial`, `copy_existing_partial`, `rescueOps_hypotheses`, `rescueOps_copied`, `windowFile_plain`, `windowFile_copied`, `copy_history_iff`, `copy_existing_iff`, `copy_iff_example`, `copy_iff_slash_example`, `copy_counterexample`. `Spec/Copy` has the program that copies (`copyOf`), what is asked of the file (`Represents`, `Store.Plain`) and of the questions (`Query.Apart`). The program has to know the types of the channels, since no call of the library tells them. A name with a slash is not listed, so its object is not copied, and no call fails: `copy_counterexample`. Within the other limits this one is exact: `copy_history_iff`, `copy_existing_iff`. The limits of C88 and C90 are limits here too; the copy has to stay below 2^63 bytes.

**C95 One file can be appended to another through the library.** A law of stores: what calls make of a store is what they make of the empty one, put after what the store holds (`foldl_plus`, by induction over the calls, with `plus_after` for one call). The store of the calls of the copy is that of the file which is copied (C94), so that the result is the sum of both stores. The calls of the copy follow what was written before because of their first channel (`IsCopy.follow_on`), so that C90 applies to the whole. Exactness: the calls of the copy write one channel each, and for such a call the proof of C31 that a call which does not fit is not read back holds for the very values that are written.
*partial*: `merge_partial`, `merge_existing_partial`, `merge_history_partial`, `windowFile_doubled`, `parts_hypotheses`, `parts_merged`, `merge_compatible_partial`, `merge_history_iff`, `merge_samples_iff`, `merge_samples_iff_example`, `merge_exact_example`, `merge_counterexample`. `Spec/Merge` says what there is in a file to which another has been appended (`Store.plus`), and when their channels have the same types (`Store.Agrees`). The program is that of C94. The first channel it writes must not be the first of the channels last written to the other file: with the same channel and another number of samples, samples are lost although all calls succeed (`merge_counterexample`, the defect of C31 and C32). `merge_compatible_partial` has the limit as it is in C31, which allows the same single channel if it gets a multiple of the samples, and `merge_history_iff` shows that this is exact. Reading several channels together is left out. The limits of C94, C88 and C90 are limits here too.

**C96 Two files joined byte for byte are one file with the content of both.** What the last segment of a list of segments means does not depend on the segments before the last new list of objects (`Apart`), so that each data block of the second file is the same behind the first one, moved by its length, and has the same samples (`channelSamples_join`, `regular_join`). The verdict of C62 on each segment is the same, by induction over the segments of the second file (`refusal_join`), so that the joined file opens. For files of the library: the bytes are whole segments (C32), of which the first with raw data starts a new list (`Fresh`, by induction over the calls); two lists of segments with the same index are regular together and have the same samples (`Proofs/SameIndex`), so that what is known from C88 about the calls holds of the segments in the bytes. Exactness: behind a file with one sample in a new channel, a data segment that goes on with the list either gives that channel a sample or has no samples at all.
*partial*: `join_partial`, `join_answers_partial`, `join_history_partial`, `join_iff`, `join_iff_example`, `windowFile_standalone`, `windowFile_joined`, `parts_joined`, `join_counterexample`. `Spec/Concat` has the condition on the second file (`Standalone`), `Spec/Merge` what both files hold together. The condition is exact: `join_iff`. Without it the property is false: `join_counterexample`. Unlike in C95, nothing is lost when both files have the same channel. The limits of C90 are limits here too; for files of the library those of C88 with opening again.

**C97 Exactly which tables can be written one after the other.** The exactness theorems of C31 and C88: the first table that does not fit is found, and the lengths after it, or the samples of a twin of the history with other values, contradict that all is read back (`not_reads_back`).
*proved*: `reads_back_iff`, `reads_back_iff_example`, `reads_back_iff_misfit`, `library_is_store_iff`, `library_is_store_iff_example`. `Compatible` (`Spec/Writes`) is that all tables fit, `ReadsBack` that what was written is read; `SameShape` ranges over the values. `library_is_store_iff` is the same for all questions about one object at a time.

**C98 Exactly which files can be closed and opened again.** The exactness theorems of C32, C88, C89 and C90: the first table that repeats a list is written with values whose bytes are all 1, and opening takes them for an empty index, so that it is forgotten (`ones_forgotten`).
*proved*: `library_reopened_is_store_iff`, `library_is_store_iff_example`, `reopens_iff`, `reopens_iff_example`, `existing_file_is_store_iff`, `existing_file_is_store_iff_example`, `stream_library_is_store_iff`, `existing_stream_is_store_iff`, `existing_stream_is_store_iff_example`. `Changing` (`Spec/Changing`) is the rule, `Plays` (`Spec/Plays`) the programs. (`library_reopened_is_store_iff` has `Compatible` beside `Changing`; for tables it follows from it.) `reopens_iff` is for the bytes alone, and all calls that succeed.

**C99 Exactly which crashes a file survives.** The exactness theorems of C91: what is left of a call that has been cut either cannot be opened or has a data block beyond the end of the file, and then a read fails that a store would answer.
*proved*: `crash_survived_iff`, `crash_survived_example`, `crash_histories_iff`, `crash_existing_survived_iff`, `crash_existing_survived_example`, `crash_existing_histories_iff`, `watcher_existing_iff_example`. Questions for several channels at once are included where C88 allows them (`Askable`), but not in the theorems on histories of tables.

**C100 Exactly which recordings can be watched while they are written.** The exactness theorems of C92, from C98: a watcher may look when all has arrived.
*proved*: `watcher_store_iff`, `watcher_store_iff_example`, `watcher_existing_iff`, `watcher_existing_iff_example`. `Views` and `ViewsOn` (`Spec/Watcher`, `Spec/WatcherOn`) say what is answered.

**C101 Exactly which files can be copied and appended through the library.** The exactness theorems of C94 and C95.
*proved*: `copy_history_iff`, `copy_existing_iff`, `copy_iff_example`, `copy_iff_slash_example`, `merge_samples_iff`, `merge_history_iff`, `merge_samples_iff_example`, `merge_exact_example`. `copyOf` (`Spec/Copy`) is the program, `FirstFits` (`Spec/Merge`) the rule for appending. That the types of the channels are known to the program is a hypothesis (the library does not tell them).

**C102 Exactly which values a channel gives back.** The exactness theorems of C06 and C44, by computing what a first write and the read after it do, type by type.
*proved*: `storage_type_iff`, `storage_type_exact`, `storage_type_exact_example`, `extended_roundtrip_iff`, `string_roundtrip_iff`. `storage_type_exact` says what is read back otherwise.

**C103 Exactly to which files data can be appended.** The exactness theorem of C45: two writes with different values are read as the same bytes if the index and the file end at different places.
*proved*: `append_iff`, `append_after_open_iff`, `append_iff_example`. `AppendsWell` (`Spec/Appending`) is what a user expects of the write, `Room` bounds the sizes, `Healthy` is the history of the open file.

**C104 Exactly which histories several handles can share.** As C98: one handle makes the calls up to the first repeated list, with values whose bytes are all 1, and another one opens the file (`changing_of_lengths_on`); the other direction is C93.
*proved*: `several_handles_iff`, `several_existing_iff`, `several_existing_iff_example`, `severalOnFile_replies`. `Careful` (`Spec/SeveralOn`) is the condition on the handles, `deedCalls` are the calls they make, `Agrees` and `AgreesOn` say what is answered. Each call is one step, as in C93.

**C105 A file with unsupported content is never opened.** Relations for the bytes up to the unsupported item (`Spec/Unsupported`); the reader fails on them wherever they stand, by induction over the items before.
*proved*: `open_unsupported`, `open_unsupported_example`, `unsupported_objects`. With memory for what the counts in the file ask for (otherwise the error is about the allocation). If the segments before cannot be indexed, opening fails with their error.

**C106 Opening does not depend on sample values.** The programs for the metadata (`Model/Act`) never move the position, so their result depends only on the bytes they pass (induction over programs); then induction over the segments of the file. For calls: induction over the history, since the index gets lengths and types only.
*partial*: `open_same_heads_partial`, `open_same_heads_example`, `open_replaced_partial`, `open_replaced_example`, `calls_ignore_samples`, `calls_ignore_samples_example`, `reopen_ignores_samples_partial`, `reopen_ignores_samples_example`, `open_samples_counterexample`, `reopens_iff`. False in full: the library reads a metadata section also where a segment has none, so there the sample values decide whether the file opens (`open_samples_counterexample`, the defect of C12). Proved for any two files that agree in everything that is read as a header or metadata, for files whose segments all have a metadata section, and for the calls themselves. For histories of calls `reopens_iff` has the exact condition.

**C107 Which bytes of a file a read depends on.** From the exact places of C73 and C75: the values there are all that is stored; and decoding a value of fixed size is injective (for booleans: zero or not), so changing any one byte of a place changes the value.
*proved*: `read_depends_iff`, `joint_read_depends_iff`, `read_ignores_other_samples`, `read_depends_example`, `joint_read_depends_example`. For types of fixed size (not strings and extended floats), files below 2^63 bytes, and reads that can be served in the sense of C73 and C75 (the others fail, C74 and C77).

**C108 Each call returns only errors of its kind.** Spec/Errors.lean lists the errors of each call with what must be true when they occur. Each function of the model is shown to fail only with a given set of errors, from the decoders up through building the index, looking up positions and writing; sets compose along the monads. Each listed error is then shown to occur on a concrete file or session.
*proved*: `open_errors`, `read_errors`, `write_errors`, `write_argument_errors`, `write_properties_errors`, `open_errors_occur`, `read_write_errors_occur`. Errors of the streams themselves are not part of these theorems: the streams here are byte strings (faulty streams are in their own properties).
