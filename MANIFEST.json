{
 "claims": [
  {
   "property": "C01",
   "status": "proved",
   "theorems": [
    "Tedium.paths_never_collide"
   ],
   "note": ""
  },
  {
   "property": "C02",
   "status": "partial",
   "theorems": [
    "Tedium.names_recovered_partial",
    "Tedium.group_name_iff",
    "Tedium.channel_name_iff",
    "Tedium.group_accessors_exactly",
    "Tedium.channel_accessors_exactly",
    "Tedium.channel_path_accessors_exactly",
    "Tedium.accessors_examples",
    "Tedium.names_recovered_counterexample"
   ],
   "note": "False in full: names containing '/' are not recovered (or panic). Proved with the exact guard 'no slash'; group_accessors_exactly and channel_accessors_exactly give the result for all names, and say which make the accessors panic."
  },
  {
   "property": "C03",
   "status": "partial",
   "theorems": [
    "Tedium.parse_print_partial",
    "Tedium.parse_print_iff",
    "Tedium.parse_print_counterexample"
   ],
   "note": "False in full for names containing '/'. Proved with the exact guard."
  },
  {
   "property": "C04",
   "status": "partial",
   "theorems": [
    "Tedium.parse_never_panics_partial",
    "Tedium.parse_never_panics_counterexample",
    "Tedium.parse_exactly",
    "Tedium.parse_exactly_cases"
   ],
   "note": "False in full: a path component that is a lone quote panics. parse_exactly gives the outcome for every string."
  },
  {
   "property": "C05",
   "status": "partial",
   "theorems": [
    "Tedium.channel_path_from_str",
    "Tedium.channel_path_from_property_path_partial",
    "Tedium.channel_path_counterexample",
    "Tedium.parse_channel_exactly",
    "Tedium.channel_path_iff"
   ],
   "note": "Conversion from a string: full. Conversion from a PropertyPath is false for a group whose name contains one slash."
  },
  {
   "property": "C06",
   "status": "proved",
   "theorems": [
    "Tedium.value_roundtrip",
    "Tedium.extended_roundtrip_iff",
    "Tedium.string_roundtrip_iff",
    "Tedium.number_bytes",
    "Tedium.other_bytes"
   ],
   "note": ""
  },
  {
   "property": "C07",
   "status": "proved",
   "theorems": [
    "Tedium.declared_size_is_written_size",
    "Tedium.segment_offsets"
   ],
   "note": ""
  },
  {
   "property": "C08",
   "status": "proved",
   "theorems": [
    "Tedium.type_code_reading",
    "Tedium.type_code_writing",
    "Tedium.type_codes_bijective"
   ],
   "note": ""
  },
  {
   "property": "C09",
   "status": "proved",
   "theorems": [
    "Tedium.toc_bits",
    "Tedium.toc_roundtrip",
    "Tedium.toc_in_segment"
   ],
   "note": ""
  },
  {
   "property": "C10",
   "status": "proved",
   "theorems": [
    "Tedium.property_roundtrip"
   ],
   "note": ""
  },
  {
   "property": "C11",
   "status": "proved",
   "theorems": [
    "Tedium.metadata_roundtrip"
   ],
   "note": ""
  },
  {
   "property": "C12",
   "status": "partial",
   "theorems": [
    "Tedium.segment_roundtrip_partial",
    "Tedium.segment_without_metadata_counterexample",
    "Tedium.segment_without_metadata_concrete_counterexample",
    "Tedium.segment_roundtrip_iff"
   ],
   "note": "False in full: a segment written without metadata is not read back. segment_roundtrip_iff: the metadata section is exactly what it takes."
  },
  {
   "property": "C13",
   "status": "proved",
   "theorems": [
    "Tedium.daqmx_index_rejected",
    "Tedium.unknown_index_type_rejected",
    "Tedium.unsupported_property_rejected",
    "Tedium.non_utf8_text_rejected",
    "Tedium.utf8_text_accepted"
   ],
   "note": ""
  },
  {
   "property": "C14",
   "status": "proved",
   "theorems": [
    "Tedium.properties_last_value",
    "Tedium.last_write_wins",
    "Tedium.all_properties_agree",
    "Tedium.all_properties_history",
    "Tedium.properties_example"
   ],
   "note": "For files (index replayed from segments) and for all call histories, read_property and read_all_properties."
  },
  {
   "property": "C15",
   "status": "proved",
   "theorems": [
    "Tedium.missing_objects",
    "Tedium.missing_in_session",
    "Tedium.objects_stay",
    "Tedium.property_write_objects",
    "Tedium.data_write_objects",
    "Tedium.properties_example"
   ],
   "note": "For files, for every state of a session, and which objects a call adds."
  },
  {
   "property": "C16",
   "status": "partial",
   "theorems": [
    "Tedium.list_groups_partial",
    "Tedium.listing_example",
    "Tedium.listing_counterexample",
    "Tedium.listing_panics_counterexample",
    "Tedium.list_groups_exactly",
    "Tedium.listed_channels_example"
   ],
   "note": "False in full: groups and channels with '/' in a name are not listed, a group called '/' makes list_groups panic. Proved for files whose object names have no slash; list_groups_exactly gives the outcome for every file."
  },
  {
   "property": "C17",
   "status": "partial",
   "theorems": [
    "Tedium.list_channels_partial",
    "Tedium.listing_example",
    "Tedium.listing_counterexample",
    "Tedium.list_channels_exactly",
    "Tedium.list_all_channels",
    "Tedium.listed_channels_example",
    "Tedium.listed_channels_counterexample"
   ],
   "note": "Same guard as C16; list_channels_exactly gives the outcome for every file and path. In files of other programs a channel of group it''s is listed in group it."
  },
  {
   "property": "C18",
   "status": "proved",
   "theorems": [
    "Tedium.indexing_never_panics",
    "Tedium.indexing_outcomes"
   ],
   "note": ""
  },
  {
   "property": "C19",
   "status": "proved",
   "theorems": [
    "Tedium.locations_valid"
   ],
   "note": ""
  },
  {
   "property": "C20",
   "status": "proved",
   "theorems": [
    "Tedium.channel_length_sum",
    "Tedium.channel_length_fits",
    "Tedium.channel_length_monotone"
   ],
   "note": ""
  },
  {
   "property": "C21",
   "status": "proved",
   "theorems": [
    "Tedium.active_channel_rules",
    "Tedium.active_iff",
    "Tedium.same_as_previous"
   ],
   "note": ""
  },
  {
   "property": "C22",
   "status": "partial",
   "theorems": [
    "Tedium.inconsistent_headers_partial",
    "Tedium.inconsistent_headers_cases",
    "Tedium.address_overflow_counterexample",
    "Tedium.segment_verdict",
    "Tedium.segment_verdict_cases"
   ],
   "note": "False in full: an overflowing data block address panics instead of returning SegmentAddressOverflow."
  },
  {
   "property": "C23",
   "status": "proved",
   "theorems": [
    "Tedium.open_terminates"
   ],
   "note": ""
  },
  {
   "property": "C24",
   "status": "partial",
   "theorems": [
    "Tedium.open_never_panics_partial",
    "Tedium.open_never_panics_counterexample",
    "Tedium.open_panics_iff",
    "Tedium.open_panics_example"
   ],
   "note": "False in full: a crafted raw data offset makes the address of the data block overflow. open_panics_iff says exactly when."
  },
  {
   "property": "C25",
   "status": "proved",
   "theorems": [
    "Tedium.open_is_replay",
    "Tedium.open_segments",
    "Tedium.written_segment_is_file_segment",
    "Tedium.exampleFile_opens"
   ],
   "note": ""
  },
  {
   "property": "C26",
   "status": "partial",
   "theorems": [
    "Tedium.open_truncated_partial",
    "Tedium.open_truncated_example",
    "Tedium.truncated_data_partial",
    "Tedium.channelSamples_prefix",
    "Tedium.truncated_data_example",
    "Tedium.truncated_data_counterexample",
    "Tedium.cut_file_segments",
    "Tedium.growing_file_cut",
    "Tedium.cut_read_exact",
    "Tedium.cut_example"
   ],
   "note": "What opening a cut file gives: for files whose segments carry a metadata section (the reader misreads segments without one, C12), and, through cut_file_segments and growing_file_cut, for every file that can be opened. The data: limits of C36. cut_read_exact settles every read of a cut file, for all layouts: it fails or delivers what was there before the cut."
  },
  {
   "property": "C27",
   "status": "proved",
   "theorems": [
    "Tedium.append_only",
    "Tedium.append_only_example"
   ],
   "note": ""
  },
  {
   "property": "C28",
   "status": "proved",
   "theorems": [
    "Tedium.rejected_arguments",
    "Tedium.rejected_arguments_only",
    "Tedium.rejected_arguments_example"
   ],
   "note": ""
  },
  {
   "property": "C29",
   "status": "partial",
   "theorems": [
    "Tedium.failed_write_harmless_partial",
    "Tedium.failed_write_reopen_partial",
    "Tedium.failed_write_read_partial",
    "Tedium.failed_write_example",
    "Tedium.failed_write_counterexample",
    "Tedium.empty_write_fails",
    "Tedium.empty_write_breaks",
    "Tedium.failed_write_iff",
    "Tedium.failed_write_iff_example"
   ],
   "note": "False in full: a write of no values is reported as an error after its bytes were written, and makes the file unreadable. Proved for writes rejected for their arguments, in every history of accepted writes. failed_write_iff: a failing data write leaves the file as it was, and able to be opened, exactly if it was rejected for its arguments."
  },
  {
   "property": "C30",
   "status": "partial",
   "theorems": [
    "Tedium.index_end_partial",
    "Tedium.index_end_example",
    "Tedium.index_end_counterexample",
    "Tedium.value_sizes",
    "Tedium.index_end_exact",
    "Tedium.index_end_iff",
    "Tedium.index_end_iff_example"
   ],
   "note": "False for extended floats and strings, whose size in memory is not the number of bytes written. Proved for all other types. index_end_exact: for every history of successful calls the index is ahead of the end of the file by exactly the bytes the values take in memory less those they take in the file; index_end_iff: so the property holds if and only if both are equal."
  },
  {
   "property": "C31",
   "status": "partial",
   "theorems": [
    "Tedium.write_then_read_partial",
    "Tedium.append_then_read_partial",
    "Tedium.reads_back_iff",
    "Tedium.not_reads_back",
    "Tedium.reads_back_iff_example",
    "Tedium.reads_back_iff_misfit",
    "Tedium.write_then_read_length_counterexample",
    "Tedium.write_then_read_added_counterexample",
    "Tedium.write_then_read_dropped_counterexample",
    "Tedium.write_then_read_rows_counterexample",
    "Tedium.write_then_read_type_counterexample"
   ],
   "note": "False in full: the channel list is compared with the last one only up to the shorter of both, and lengths and types are not compared, so data is lost or misattributed. Proved for histories in which every list differs from the last one at a shared position or continues it with the same format (Compatible). reads_back_iff: this guard is exact, a history of tables is read back for all values in it if and only if it is compatible."
  },
  {
   "property": "C32",
   "status": "partial",
   "theorems": [
    "Tedium.reopen_partial",
    "Tedium.reopen_appended_partial",
    "Tedium.reopenOps_reopens",
    "Tedium.reopen_repeated_counterexample",
    "Tedium.reopen_string_counterexample",
    "Tedium.reopens_iff",
    "Tedium.reopens_iff_example",
    "Tedium.reopens_iff_repeat"
   ],
   "note": "False in full: a segment without metadata (written when a channel list is repeated) is misread when the file is opened again. Proved for histories in which every write carries metadata or whose data starts with four zero bytes. The guard is exact: reopens_iff shows that a history can be reopened after each of its calls, whatever the values, if and only if every data write changes the channel list."
  },
  {
   "property": "C33",
   "status": "partial",
   "theorems": [
    "Tedium.layout_irrelevant_partial",
    "Tedium.layout_irrelevant_iff",
    "Tedium.layout_irrelevant_iff_example",
    "Tedium.layout_irrelevant_iff_misfit",
    "Tedium.layout_irrelevant_counterexample"
   ],
   "note": "False in full: a contiguous table with more rows than the last one to the same channels is stored differently. Proved with the guard of C31. layout_irrelevant_iff: the guard is exact, among the histories that can be written row after row."
  },
  {
   "property": "C34",
   "status": "partial",
   "theorems": [
    "Tedium.data_write_frame_partial",
    "Tedium.data_write_properties",
    "Tedium.property_write_frame",
    "Tedium.data_write_frame_example",
    "Tedium.data_write_frame_counterexample",
    "Tedium.data_write_lengths_exact",
    "Tedium.data_write_frame_iff",
    "Tedium.data_write_frame_iff_example"
   ],
   "note": "Property writes and the effect of data writes on properties: full. Data of other channels: false when the list is a prefix of the last one; proved otherwise. data_write_lengths_exact and data_write_frame_iff say exactly how many samples a data write adds to channels it does not name."
  },
  {
   "property": "C35",
   "status": "proved",
   "theorems": [
    "Tedium.sync_and_crash",
    "Tedium.sync_and_crash_example"
   ],
   "note": "The file as the operating system has it; what a power failure leaves is C78."
  },
  {
   "property": "C36",
   "status": "partial",
   "theorems": [
    "Tedium.read_window_partial",
    "Tedium.read_window_cells_partial",
    "Tedium.read_window_regular_partial",
    "Tedium.read_window_lengths_counterexample",
    "Tedium.read_window_timestamp_counterexample",
    "Tedium.read_window_partial_chunk_counterexample",
    "Tedium.read_right_iff",
    "Tedium.read_contiguous_right_iff",
    "Tedium.read_interleaved_right_iff"
   ],
   "note": "False in full: in a contiguous block whose channels have different lengths the offset is computed from the first channel, a timestamp channel displaces the channels after it, and interleaved data ending in a partial chunk gives more values than the channel length. Proved with a guard on the blocks that hold wanted samples. read_right_iff: exactly when a read is right, for all layouts."
  },
  {
   "property": "C37",
   "status": "partial",
   "theorems": [
    "Tedium.read_channels_agree_partial",
    "Tedium.read_channels_agree_iff",
    "Tedium.read_channels_agree_example",
    "Tedium.read_channels_single",
    "Tedium.manyFile_agrees",
    "Tedium.read_channels_buffers_counterexample",
    "Tedium.read_channels_out_of_step_counterexample",
    "Tedium.read_channels_twice_counterexample"
   ],
   "note": "False in full: buffers of different lengths, channels out of step and repeated channels give other results than single reads. read_channels_agree_iff says exactly when joint and single reads agree for all contents of the raw data."
  },
  {
   "property": "C38",
   "status": "proved",
   "theorems": [
    "Tedium.read_plan_exact"
   ],
   "note": ""
  },
  {
   "property": "C39",
   "status": "proved",
   "theorems": [
    "Tedium.wrong_type_rejected",
    "Tedium.wrong_type_never_reinterprets",
    "Tedium.wrong_type_example",
    "Tedium.wrong_type_together",
    "Tedium.empty_buffer_any_type",
    "Tedium.wrong_type_together_example"
   ],
   "note": "wrong_type_together: channels read together, with the error exactly if one of them has to give samples of another type. empty_buffer_any_type: nothing is checked and nothing fails because of the type if the buffer has no room."
  },
  {
   "property": "C40",
   "status": "partial",
   "theorems": [
    "Tedium.read_never_panics_partial",
    "Tedium.read_regular_never_panics_partial",
    "Tedium.read_never_panics_first_counterexample",
    "Tedium.read_never_panics_overflow_counterexample",
    "Tedium.read_never_panics_example",
    "Tedium.read_panics_iff",
    "Tedium.headless_example",
    "Tedium.debug_read_panics"
   ],
   "note": "False in full: a contiguous block whose first channel has no values panics (division by zero), and crafted counts overflow. Proved with a guard that excludes these. read_panics_iff: exactly when a read panics, for files with all their raw data."
  },
  {
   "property": "C41",
   "status": "partial",
   "theorems": [
    "Tedium.reads_compose_partial",
    "Tedium.reads_compose_example",
    "Tedium.reads_compose_counterexample",
    "Tedium.read_layout_exact",
    "Tedium.reads_compose_iff",
    "Tedium.reads_compose_iff_example"
   ],
   "note": "False in full where C36 is. read_layout_exact gives the values of every read, for all layouts; reads_compose_iff says exactly when two reads give what one read gives, for all contents of the raw data."
  },
  {
   "property": "C42",
   "status": "proved",
   "theorems": [
    "Tedium.property_conversion_roundtrip",
    "Tedium.property_conversion_exact",
    "Tedium.property_conversion_total"
   ],
   "note": ""
  },
  {
   "property": "C43",
   "status": "partial",
   "theorems": [
    "Tedium.byte_order_structure",
    "Tedium.byte_order_data_partial",
    "Tedium.byte_order_read_partial",
    "Tedium.byte_order_read_example",
    "Tedium.byte_order_joint_read_partial",
    "Tedium.byte_order_joint_read_example",
    "Tedium.byte_order_example",
    "Tedium.byte_order_counterexample"
   ],
   "note": "Objects, properties, lengths, listings and errors: full. Data: for regular segments of ordinary types, and for every read, of timestamps too, that gets values of the file (byte_order_read_partial, for several channels byte_order_joint_read_partial); false where a read gets bytes from the middle of other values, as behind a timestamp channel."
  },
  {
   "property": "C44",
   "status": "partial",
   "theorems": [
    "Tedium.storage_type_round_trip_partial",
    "Tedium.storage_type_round_trip_example",
    "Tedium.storage_type_timestamp_counterexample",
    "Tedium.storage_type_extended_counterexample",
    "Tedium.storage_type_string_counterexample",
    "Tedium.storage_type_exact",
    "Tedium.storage_type_iff",
    "Tedium.keptOf_eq_iff",
    "Tedium.storage_type_exact_example"
   ],
   "note": "False for timestamps (length doubled), extended floats and strings. Proved for all other types. storage_type_exact: what the first write to a new file gives for every type (timestamps count twice, strings not at all and read back as nothing, extended floats keep 80 bits); storage_type_iff: for such a write the property holds exactly for types other than timestamps and strings whose values fit."
  },
  {
   "property": "C45",
   "status": "partial",
   "theorems": [
    "Tedium.append_after_open_partial",
    "Tedium.append_then_read_partial",
    "Tedium.reopen_appended_partial",
    "Tedium.appendedOps_read",
    "Tedium.append_after_trailing_counterexample",
    "Tedium.append_after_cut_counterexample",
    "Tedium.append_after_open_iff",
    "Tedium.append_iff_example"
   ],
   "note": "False when the file has trailing bytes or ends inside a segment. Proved for files that end on a segment boundary; append_after_open_iff shows that this guard is exact."
  },
  {
   "property": "C46",
   "status": "partial",
   "theorems": [
    "Tedium.repeated_list_no_metadata",
    "Tedium.changed_list_metadata_partial",
    "Tedium.repeated_list_no_metadata_example",
    "Tedium.changed_list_metadata_example",
    "Tedium.changed_list_metadata_counterexample",
    "Tedium.metadata_omitted_iff",
    "Tedium.metadata_omitted_example"
   ],
   "note": "Repeated lists: full. Changed lists are false when the new list only adds or drops channels at the end or changes the format. metadata_omitted_iff: exactly the lists that differ at a shared position are written with metadata."
  },
  {
   "property": "C47",
   "status": "partial",
   "theorems": [
    "Tedium.open_layout_partial",
    "Tedium.layout_unambiguous",
    "Tedium.property_write_layout",
    "Tedium.data_write_layout_partial",
    "Tedium.data_write_layout_iff",
    "Tedium.data_write_layout_iff_example",
    "Tedium.open_layout_example",
    "Tedium.write_layout_example",
    "Tedium.data_write_layout_counterexample",
    "Tedium.open_layout_counterexample",
    "Tedium.open_unit_types",
    "Tedium.open_unit_types_example"
   ],
   "note": "False for string channels (the index lacks the total size, the data the offsets), for extended floats (wrong offsets in the lead-in) and for doubles and extended floats with a unit (other type codes). For the first data write to a file, exactly the types other than strings and extended floats follow the layout (`data_write_layout_iff`). A file with such a unit type is never opened (`open_unit_types`). Proved for everything else that has a metadata section; see C12 for segments without one."
  },
  {
   "property": "C48",
   "status": "proved",
   "theorems": [
    "Tedium.fault_free_writes",
    "Tedium.sound_stream",
    "Tedium.failing_write",
    "Tedium.faults_append_only",
    "Tedium.fault_free_writes_example",
    "Tedium.fault_free_writes_example_hypothesis",
    "Tedium.failing_write_example"
   ],
   "note": ""
  },
  {
   "property": "C49",
   "status": "partial",
   "theorems": [
    "Tedium.resume_after_error_partial",
    "Tedium.resume_after_error_example",
    "Tedium.resume_after_error_counterexample",
    "Tedium.dropped_writer_counterexample",
    "Tedium.resume_after_error_iff",
    "Tedium.resume_after_error_iff_example"
   ],
   "note": "False in full: the part of the failed segment that was written is not known to the index, so data written later is looked for at the wrong place and the file cannot be opened again; an error while the writer is dropped is lost. Proved when nothing of the failed call stays behind; resume_after_error_iff shows that this guard is exact."
  },
  {
   "property": "C50",
   "status": "proved",
   "theorems": [
    "Tedium.read_fills_front",
    "Tedium.delivers_unique",
    "Tedium.read_fills_front_example",
    "Tedium.read_fails_example"
   ],
   "note": ""
  },
  {
   "property": "C51",
   "status": "proved",
   "theorems": [
    "Tedium.longer_buffer",
    "Tedium.longer_buffer_example"
   ],
   "note": "Both reads must succeed: a larger buffer can reach data that cannot be read."
  },
  {
   "property": "C52",
   "status": "proved",
   "theorems": [
    "Tedium.later_writes_keep_reads",
    "Tedium.later_writes_extend_reads",
    "Tedium.later_calls_extend",
    "Tedium.later_writes_example"
   ],
   "note": ""
  },
  {
   "property": "C53",
   "status": "partial",
   "theorems": [
    "Tedium.crash_recovery_partial",
    "Tedium.crash_outcome_exact",
    "Tedium.crash_outcome_example",
    "Tedium.crash_keeps_reads_partial",
    "Tedium.synced_calls_on_disk",
    "Tedium.sync_is_durable",
    "Tedium.sync_is_durable_example",
    "Tedium.crash_example",
    "Tedium.crash_counterexample"
   ],
   "note": "False in full (defect 9): a cut inside a segment header makes the whole file fail to open, proved as counterexample. Proved: what opening gives for every cut point (complete calls, or UnexpectedEof, or also the cut call, with the exact byte limits between the three), that every opened file delivers all samples of complete calls, and that synced calls are complete. Guards of C32."
  },
  {
   "property": "C54",
   "status": "partial",
   "theorems": [
    "Tedium.read_through_stream",
    "Tedium.read_many_through_stream",
    "Tedium.open_through_stream_partial",
    "Tedium.open_any_chunking",
    "Tedium.handle_example",
    "Tedium.failing_read_example",
    "Tedium.early_end_example",
    "Tedium.open_seek_failure_counterexample",
    "Tedium.open_early_end_counterexample"
   ],
   "note": "Reads: full; the first operation that fails ends the call with its error, none is swallowed. Opening: false in full, a failing seek between two segments, or a stream that ends early where a segment begins, is taken as the end of the file, so the file opens with segments missing and no error; proved with that outcome spelled out, and in full for streams that do not fail."
  },
  {
   "property": "C55",
   "status": "proved",
   "theorems": [
    "Tedium.session_through_stream",
    "Tedium.handle_history",
    "Tedium.handle_example"
   ],
   "note": ""
  },
  {
   "property": "C56",
   "status": "proved",
   "theorems": [
    "Tedium.open_memory",
    "Tedium.open_memory_enough",
    "Tedium.read_channels_memory",
    "Tedium.read_channel_memory",
    "Tedium.memory_example"
   ],
   "note": "The requests modelled are the ones the code makes with try_reserve; other allocations (which abort the process) are not modelled."
  },
  {
   "property": "C57",
   "status": "proved",
   "theorems": [
    "Tedium.joint_read_determined",
    "Tedium.stores_unique",
    "Tedium.joint_read_determined_example"
   ],
   "note": ""
  },
  {
   "property": "C58",
   "status": "partial",
   "theorems": [
    "Tedium.later_writes_keep_joint_reads_partial",
    "Tedium.joint_read_stopped_partial",
    "Tedium.joint_read_continued",
    "Tedium.joint_read_kept_iff",
    "Tedium.later_writes_keep_joint_reads_example",
    "Tedium.joint_read_grows_example",
    "Tedium.joint_read_kept_example",
    "Tedium.joint_read_changes_counterexample"
   ],
   "note": "False in full: progress is shared between the channels, so a read that has filled its buffers goes on and overwrites cells when more data follows. Proved when the further calls add no samples to the channels read, and for any further segments when all buffers have come to their end by the shared progress; joint_read_continued says what further segments change otherwise, and joint_read_kept_iff that the guard is exact: if the buffers have not come to their end, two further calls that succeed change what the read returns."
  },
  {
   "property": "C59",
   "status": "proved",
   "theorems": [
    "Tedium.growing_file_extends",
    "Tedium.growing_file_rejected",
    "Tedium.growing_file_opens",
    "Tedium.growing_file_cut",
    "Tedium.cut_file_segments",
    "Tedium.growing_file_example"
   ],
   "note": ""
  },
  {
   "property": "C60",
   "status": "proved",
   "theorems": [
    "Tedium.segment_verdict",
    "Tedium.open_verdict",
    "Tedium.open_panics_iff",
    "Tedium.segment_verdict_cases",
    "Tedium.open_panics_example"
   ],
   "note": ""
  },
  {
   "property": "C61",
   "status": "partial",
   "theorems": [
    "Tedium.listed_channels_found_partial",
    "Tedium.listed_channels_found_created",
    "Tedium.call_objects",
    "Tedium.history_objects",
    "Tedium.nameable_iff",
    "Tedium.unnameable_object",
    "Tedium.listed_channels_example",
    "Tedium.listed_channels_counterexample"
   ],
   "note": "False in full: a quote in a stored name (other programs double it) is replaced, so the object cannot be named and the listed path is not found. Proved, with that exact guard, and in full for files made by the library."
  },
  {
   "property": "C62",
   "status": "proved",
   "theorems": [
    "Tedium.load_changes_nothing",
    "Tedium.create_empties",
    "Tedium.other_files_untouched",
    "Tedium.session_on_disk",
    "Tedium.sharedCalls_example"
   ],
   "note": ""
  },
  {
   "property": "C63",
   "status": "partial",
   "theorems": [
    "Tedium.readers_beside_writers",
    "Tedium.files_only_grow",
    "Tedium.sharedCalls_example",
    "Tedium.two_writers_counterexample",
    "Tedium.created_anew_counterexample",
    "Tedium.writers_beside_writers_iff",
    "Tedium.writers_beside_writers_iff_example"
   ],
   "note": "Reader: full (as long as nobody creates the file anew). Several writers: false, an open file does not notice what others append, and computes the addresses of its own later data from the old end; writers_beside_writers_iff shows that the open file can be appended to if and only if the others have not written anything."
  },
  {
   "property": "C64",
   "status": "partial",
   "theorems": [
    "Tedium.reopening_makes_no_difference_partial",
    "Tedium.reopening_on_disk_partial",
    "Tedium.actions_on_disk",
    "Tedium.actions_history",
    "Tedium.reopening_on_disk_example",
    "Tedium.reopening_example",
    "Tedium.reopening_counterexample",
    "Tedium.reopening_iff"
   ],
   "note": "False in full (defect 1). Proved with the guards of C32. reopening_iff: for all values, the guard is exact."
  },
  {
   "property": "C65",
   "status": "proved",
   "theorems": [
    "Tedium.property_read_back",
    "Tedium.typed_property",
    "Tedium.date_property",
    "Tedium.date_conversion",
    "Tedium.typed_property_example"
   ],
   "note": "The conversion between LVTime and DateTime is in the crate labview-interop and is a parameter."
  },
  {
   "property": "C66",
   "status": "partial",
   "theorems": [
    "Tedium.open_work",
    "Tedium.open_work_orderly",
    "Tedium.read_channels_work",
    "Tedium.read_channel_work",
    "Tedium.read_work_partial",
    "Tedium.work_example",
    "Tedium.read_work_counterexample",
    "Tedium.open_memory_counterexample",
    "Tedium.open_memory_bounded_partial",
    "Tedium.open_memory_error",
    "Tedium.read_memory_none",
    "Tedium.open_memory_bounded_example"
   ],
   "note": "Opening: full (quadratic; linear when metadata does not reach into the next segment). Reading: false in full, the declared length of a data block counts, not what is there: a file of 69 bytes takes 2^60 operations to read one sample. Proved: bounded by the declared lengths, hence linear in the size of a file that is not cut off. Memory: false, a file of 32 bytes asks for a table of 2^32-1 entries. Proved for files that can be opened: they open where only requests are granted for which the file has room (a string of n bytes: n, a table of n objects: 12 n, of n properties: 8 n bytes), and other requests come only with files that cannot be opened. Reading values other than strings asks for none."
  },
  {
   "property": "C67",
   "status": "partial",
   "theorems": [
    "Tedium.read_into_agrees",
    "Tedium.read_many_into_agrees",
    "Tedium.stream_read_into_agrees",
    "Tedium.stream_read_many_into_agrees",
    "Tedium.read_into_sequence",
    "Tedium.stream_read_into_sequence",
    "Tedium.failed_read_delivers",
    "Tedium.failed_stream_read_delivers",
    "Tedium.failed_stream_read",
    "Tedium.failed_stream_read_many_partial",
    "Tedium.failed_read_of_part",
    "Tedium.failed_joint_read_counterexample",
    "Tedium.read_into_lengths",
    "Tedium.cut_file_example",
    "Tedium.whole_file_example",
    "Tedium.failing_stream_example"
   ],
   "note": "Reads of one channel: full. Several channels: proved that a failing read makes the first of the assignments of the read that does not fail, in the same order; that each buffer gets a front part of its channel is false for them, proved as a counterexample: a cell can be assigned twice (defect 5)."
  },
  {
   "property": "C68",
   "status": "partial",
   "theorems": [
    "Tedium.rearranged_read_property",
    "Tedium.rearranged_read_partial",
    "Tedium.cutOps_rearranged",
    "Tedium.rearranged_example",
    "Tedium.rearranged_counterexample",
    "Tedium.rearranged_contents_iff",
    "Tedium.rearranged_iff",
    "Tedium.rearranged_iff_misfit"
   ],
   "note": "Properties: full, for all files and histories. Samples: false in full for the reasons of C31 (cutting three of five values off loses the others); proved when both histories are compatible. The guard is exact: rearranged_iff says that a history whose contents, for all values and at every point, are those of a compatible one with the same calls cut and ordered differently is compatible itself."
  },
  {
   "property": "C69",
   "status": "proved",
   "theorems": [
    "Tedium.append_iff",
    "Tedium.append_after_open_iff",
    "Tedium.append_grown_iff",
    "Tedium.resume_after_error_iff",
    "Tedium.writers_beside_writers_iff",
    "Tedium.append_iff_example",
    "Tedium.resume_after_error_iff_example",
    "Tedium.writers_beside_writers_iff_example"
   ],
   "note": "Room: sizes well below 2^63."
  },
  {
   "property": "C70",
   "status": "proved",
   "theorems": [
    "Tedium.debug_is_the_model",
    "Tedium.builds_agree_open",
    "Tedium.builds_agree_calls",
    "Tedium.builds_agree_reads",
    "Tedium.builds_agree_example"
   ],
   "note": ""
  },
  {
   "property": "C71",
   "status": "proved",
   "theorems": [
    "Tedium.release_open_answers",
    "Tedium.release_open_rejects",
    "Tedium.release_calls_answer",
    "Tedium.release_calls_reject",
    "Tedium.release_open_example",
    "Tedium.release_failed_write_counterexample"
   ],
   "note": "The counterexample shows what is not claimed: the failing call leaves a data block with a wrapped address in the index."
  },
  {
   "property": "C72",
   "status": "partial",
   "theorems": [
    "Tedium.debug_read_panics",
    "Tedium.debug_read_panics_first",
    "Tedium.release_read_panics",
    "Tedium.release_read_never_panics_partial",
    "Tedium.release_read_agrees_partial",
    "Tedium.release_read_example",
    "Tedium.release_read_agrees_stamps_counterexample",
    "Tedium.release_read_agrees_rows_counterexample",
    "Tedium.release_read_never_panics_counterexample",
    "Tedium.release_length_counterexample"
   ],
   "note": "Which panics there are: full, for all sessions. False in full: timestamps of one channel are delivered as values of another one when a size wraps around, and division by zero. Proved for types whose values take as many bytes in memory as in the file: no panic if the first channel of contiguous blocks has values, and never anything else than the other build returns, if interleaved channels have equally many values."
  },
  {
   "property": "C73",
   "status": "proved",
   "theorems": [
    "Tedium.read_layout_exact",
    "Tedium.read_right_iff",
    "Tedium.read_contiguous_right_iff",
    "Tedium.read_interleaved_right_iff",
    "Tedium.uneven_example",
    "Tedium.stamps_example",
    "Tedium.half_chunk_example"
   ],
   "note": "A read can be served when the segments it gets to have their raw data inside the file, a type that can be read as the wanted one, a first channel with values in contiguous data, and sizes within 64 bits. The corollaries for one segment are for segments whose channels have types with the same size in the index as in the file (no timestamps, extended floats, strings)."
  },
  {
   "property": "C74",
   "status": "proved",
   "theorems": [
    "Tedium.read_outcome",
    "Tedium.cut_read_exact",
    "Tedium.read_panics_iff",
    "Tedium.readFault_none_iff",
    "Tedium.cut_example",
    "Tedium.headless_example"
   ],
   "note": "For files whose segments with samples of the channel declare addresses, row sizes and counts below 2^63 (Addressable); the raw data itself need not be there. Buffers without room are in C77 (empty_read_outcome)."
  },
  {
   "property": "C75",
   "status": "proved",
   "theorems": [
    "Tedium.joint_read_exact",
    "Tedium.joint_right_iff",
    "Tedium.joint_right_example",
    "Tedium.joint_skip_order_counterexample",
    "Tedium.joint_skip_chunks_counterexample",
    "Tedium.joint_rows_stop_counterexample",
    "Tedium.joint_twice_counterexample",
    "Tedium.block_read_from",
    "Tedium.block_read_from_zero",
    "Tedium.block_read_from_example"
   ],
   "note": "For reads that can be served: the blocks that they get to have readable types, their raw data is in the file, and the sums of the reader stay below 2^64. As many buffers as channels. The counterexamples show four ways in which joint reads are wrong, all of them described by the theorem."
  },
  {
   "property": "C76",
   "status": "partial",
   "theorems": [
    "Tedium.joint_read_own_samples_partial",
    "Tedium.joint_own_samples_example",
    "Tedium.joint_own_stamps_counterexample",
    "Tedium.joint_own_iff",
    "Tedium.joint_own_iff_example"
   ],
   "note": "For segments with channels of ordinary types only (no timestamps, extended floats or strings), and whose interleaved rows are all samples. Next to a channel of timestamps that is not read it is false: joint_own_stamps_counterexample. joint_own_iff is exact for all layouts: the joint read stores own samples only, for all contents of the raw data, if and only if every stored place is the place of a sample of the right channel."
  },
  {
   "property": "C77",
   "status": "proved",
   "theorems": [
    "Tedium.joint_read_outcome",
    "Tedium.cut_joint_read_exact",
    "Tedium.joint_read_fails_only",
    "Tedium.empty_read_outcome",
    "Tedium.joint_cut_example",
    "Tedium.empty_read_example",
    "Tedium.joint_read_needs_more_counterexample"
   ],
   "note": "As many buffers as channels, all of them listed; files shorter than 2^63 bytes, whose segments with raw data declare addresses and numbers of samples below 2^63 and fewer than 2^59 channels (JointlyAddressable). joint_read_needs_more_counterexample shows that a joint read can fail where the reads of its channels succeed."
  },
  {
   "property": "C78",
   "status": "partial",
   "theorems": [
    "Tedium.sync_survives_power_failure_partial",
    "Tedium.sync_survives_iff",
    "Tedium.power_failure_prefix",
    "Tedium.power_failure_recovery_partial",
    "Tedium.sync_result",
    "Tedium.file_session_lost",
    "Tedium.drop_keeps",
    "Tedium.sync_survives_example",
    "Tedium.sync_survives_example_hypothesis",
    "Tedium.power_failure_recovery_example",
    "Tedium.sync_power_counterexample"
   ],
   "note": "False for files (defect 19): sync only calls flush, which does nothing for std::fs::File; file_session_lost shows that no call, sync included, puts anything on the medium, sync_power_counterexample is the smallest case. Proved: for streams whose flush is durable it holds; sync_survives_iff says exactly when. Bytes are taken to reach the medium in the order in which they were written."
  },
  {
   "property": "C79",
   "status": "proved",
   "theorems": [
    "Tedium.kept_blocks",
    "Tedium.kept_objects",
    "Tedium.kept_objects_orderly",
    "Tedium.kept_entries",
    "Tedium.kept_tables",
    "Tedium.kept_example",
    "Tedium.kept_objects_linear_counterexample"
   ],
   "note": "Counted are blocks, entries of tables, objects and properties, and the bytes of texts. The counterexample shows that the bound without the condition is not linear: metadata can lie inside the text of other metadata."
  },
  {
   "property": "C80",
   "status": "proved",
   "theorems": [
    "Tedium.fewer_buffers",
    "Tedium.surplus_buffers",
    "Tedium.surplus_empty_buffers",
    "Tedium.pairing_example",
    "Tedium.surplus_buffers_fail_counterexample"
   ],
   "note": "For every sample type, strings included. surplus_buffers_fail_counterexample shows that the statement cannot say more: a surplus buffer that is not empty keeps the read going, and a later block can then make it panic."
  },
  {
   "property": "C81",
   "status": "proved",
   "theorems": [
    "Tedium.open_while_growing",
    "Tedium.open_while_growing_failing_partial",
    "Tedium.read_while_growing",
    "Tedium.read_many_while_growing",
    "Tedium.read_undisturbed",
    "Tedium.reads_while_growing",
    "Tedium.live_read_is_final",
    "Tedium.opening_while_growing_example",
    "Tedium.reading_while_growing_example"
   ],
   "note": "For contents below 2^64 bytes. The others only append; contents that change otherwise are not modelled. When the stream fails during opening the index can cover the first segments only, as in C54 (open_while_growing_failing_partial); all the rest is for streams that may fail, too, except where the theorem says Reliable."
  },
  {
   "property": "C82",
   "status": "partial",
   "theorems": [
    "Tedium.watch_open_partial",
    "Tedium.watch_read_partial",
    "Tedium.watch_sees_partial",
    "Tedium.watch_exact_partial",
    "Tedium.reopenOps_recording",
    "Tedium.watch_example",
    "Tedium.watch_counterexample"
   ],
   "note": "With the limits of C31 and C32 (Recording): no extended floats and strings, tables that fit the channel list, and a data write that repeats the list of channels, or only adds or drops channels at its end, must start with four zero bytes; false without them (watch_counterexample, and those of C31 and C32). The writer's bytes only arrive in order, as a stream that is written through a BufWriter gives them. watch_read_partial is for streams that may fail as well; the others are for streams that do not."
  },
  {
   "property": "C83",
   "status": "proved",
   "theorems": [
    "Tedium.any_stream_open",
    "Tedium.any_stream_read",
    "Tedium.any_stream_no_panic",
    "Tedium.any_stream_buffers",
    "Tedium.any_stream_sequence",
    "Tedium.any_stream_device",
    "Tedium.any_stream_example",
    "Tedium.any_stream_no_panic_example"
   ],
   "note": "A stream is any type of states with any three functions for read, seek from the start and seek from the current position (Model/Source); read gives at most the number of bytes asked for, more are cut off."
  },
  {
   "property": "C84",
   "status": "partial",
   "theorems": [
    "Tedium.own_write_native",
    "Tedium.own_read_partial",
    "Tedium.own_read_many_partial",
    "Tedium.own_round_trip_partial",
    "Tedium.own_round_trip_example",
    "Tedium.own_never_panics_partial",
    "Tedium.pair_stands",
    "Tedium.own_size_counterexample",
    "Tedium.own_no_size_counterexample",
    "Tedium.wrong_type_rejected"
   ],
   "note": "An implementation of the trait is a `Storage`; a sound one is a `StandsFor` (Spec/OwnType). The limits are those of the properties for the library's types: C31 for the round trip, C08 and C09 for reads, C40 for panics. The counterexamples are of implementations whose SIZE_BYTES is not the size in the file (defect 20)."
  },
  {
   "property": "C85",
   "status": "proved",
   "theorems": [
    "Tedium.any_life",
    "Tedium.any_life_no_panic",
    "Tedium.any_writer_calls",
    "Tedium.any_writer_bytes",
    "Tedium.any_writer_sublist",
    "Tedium.any_writer_keeps",
    "Tedium.any_writer_seek",
    "Tedium.any_writer_scripted",
    "Tedium.any_life_example",
    "Tedium.any_writer_sublist_example",
    "Tedium.any_writer_keeps_example",
    "Tedium.cursor_keeps"
   ],
   "note": "A stream is any type of states with any functions for the operations (Model/Source, Model/Duplex); a write counts as accepting at most what it was given."
  },
  {
   "property": "C86",
   "status": "partial",
   "theorems": [
    "Tedium.memory_honest_partial",
    "Tedium.memory_handed",
    "Tedium.memory_short",
    "Tedium.memory_numbers",
    "Tedium.memory_serves",
    "Tedium.memory_counterexample",
    "Tedium.memory_short_example",
    "Tedium.memory_handed_example",
    "Tedium.memory_overclaim_example"
   ],
   "note": "The vocabulary is Spec/Memory. In full, for every stream without unsafe, the claim is false (`memory_counterexample`, defect 21); `memory_honest_partial` has the exact premise under which the code is sound, `memory_short` the bound on strings under which it needs none."
  },
  {
   "property": "C87",
   "status": "proved",
   "theorems": [
    "Tedium.message_tells",
    "Tedium.type_name_tells",
    "Tedium.message_missing",
    "Tedium.message_example"
   ],
   "note": "`TdmsError.Alike` in Spec/Messages says which errors need not be told apart. The number formats of the standard library are modelled by `printNat`."
  },
  {
   "property": "C88",
   "status": "partial",
   "theorems": [
    "Tedium.library_is_store_partial",
    "Tedium.library_is_store_iff",
    "Tedium.library_reopened_is_store_iff",
    "Tedium.answer_unique",
    "Tedium.exampleProgram_proper",
    "Tedium.exampleProgram_replies",
    "Tedium.library_is_store_iff_example",
    "Tedium.playing_plays",
    "Tedium.library_reopened_unsafe",
    "Tedium.library_is_store_counterexample"
   ],
   "note": "`Spec/Library` is the store, the programs (`Proper` lists the limits, which are those of the properties about single calls) and what the replies of a store are, to every query, including reads of missing channels and of other types; `answer_unique`: only the choice among several mismatching types is left open. For histories of tables the limits on the calls are exact: `library_is_store_iff`, and `library_reopened_is_store_iff` with opening again, over all programs that play the history with any values (`Spec/Plays`). False in full: `library_is_store_counterexample` is a program whose table of one channel is taken for a table of two (defect 2 of section 4)."
  },
  {
   "property": "C89",
   "status": "partial",
   "theorems": [
    "Tedium.stream_library_is_store_partial",
    "Tedium.streamProgram_proper",
    "Tedium.streamProgram_replies",
    "Tedium.stream_library_is_store_iff",
    "Tedium.existing_stream_is_store_iff_example",
    "Tedium.stream_library_is_store_counterexample"
   ],
   "note": "`Spec/Streamed` is the programs and what a store replies over a stream. For histories of tables the limits on the calls are exact: `stream_library_is_store_iff`. False in full as C88 is, and because a seek that fails while the file is opened is taken for the end of the file (`stream_library_is_store_counterexample`, defect 13 of section 4). What failing writes leave is C48 and C49."
  },
  {
   "property": "C90",
   "status": "partial",
   "theorems": [
    "Tedium.existing_file_is_store_partial",
    "Tedium.existing_file_is_store_iff",
    "Tedium.existing_file_is_store_iff_example",
    "Tedium.existing_stream_is_store_partial",
    "Tedium.existing_stream_is_store_iff",
    "Tedium.existing_stream_is_store_iff_example",
    "Tedium.existing_new",
    "Tedium.made_file_exists_partial",
    "Tedium.windowFile_existing",
    "Tedium.windowProgram_proper",
    "Tedium.windowProgram_replies",
    "Tedium.windowSteps_proper",
    "Tedium.windowSteps_replies",
    "Tedium.existing_file_is_store_counterexample"
   ],
   "note": "`Spec/Existing` says what a file holds (`storeIn`) and lists the limits (`Existing`, `ProperOn`). `existing_new`: a new file is the special case of C88; `made_file_exists_partial`: so are the files of the library. For histories of tables the limits on the calls are exact: `existing_file_is_store_iff`, and `existing_stream_is_store_iff` over a stream. False in full: `existing_file_is_store_counterexample` appends to one of the two channels of the last segment of a file (defect 2 of section 4)."
  },
  {
   "property": "C91",
   "status": "partial",
   "theorems": [
    "Tedium.crash_store_partial",
    "Tedium.crash_existing_partial",
    "Tedium.crash_survived_iff",
    "Tedium.crash_existing_survived_iff",
    "Tedium.crash_histories_iff",
    "Tedium.crash_existing_histories_iff",
    "Tedium.crash_survived_example",
    "Tedium.crash_existing_survived_example",
    "Tedium.crashingProgram_endures",
    "Tedium.crashingProgram_replies",
    "Tedium.resumedProgram_endures",
    "Tedium.resumedProgram_replies",
    "Tedium.crash_store_counterexample"
   ],
   "note": "`Spec/Crashes` has the store that falls back (`Survives`) and the limits (`Endures`). That a crash leaves a first part of the bytes, and at least the synced ones, is C35. The limit on where a crash may cut is exact: `crash_survived_iff`, and on files that exist `crash_existing_survived_iff`; so are the limits on the calls, for histories of tables: `crash_histories_iff`, `crash_existing_histories_iff` (`watcher_store_iff_example`, `watcher_existing_iff_example` have their hypotheses). False in full: after a crash in the header of a call the file cannot be opened (`crash_store_counterexample`, defect 9 of section 4)."
  },
  {
   "property": "C92",
   "status": "partial",
   "theorems": [
    "Tedium.watcher_store_partial",
    "Tedium.watcher_existing_partial",
    "Tedium.watcher_store_iff",
    "Tedium.watcher_existing_iff",
    "Tedium.watcher_store_iff_example",
    "Tedium.watcher_existing_iff_example",
    "Tedium.read_outcome_final",
    "Tedium.spectator_askable",
    "Tedium.spectator_replies",
    "Tedium.watchingProgram_askable",
    "Tedium.watchingProgram_replies",
    "Tedium.found_example",
    "Tedium.watcher_store_counterexample"
   ],
   "note": "`Spec/Watcher` has the program that watches (`Glance`), and what it sees (`Views`, `found`), and `Spec/WatcherOn` has the same for a file that had content before (`watcher_existing_partial`). `read_outcome_final` is for any file and index. For histories of tables the limits on the calls are exact: `watcher_store_iff`, `watcher_existing_iff`. False in full, for the calls that C32 excludes (`watcher_store_counterexample`). A stream that fails is in C81 and C82."
  },
  {
   "property": "C93",
   "status": "partial",
   "theorems": [
    "Tedium.several_handles_partial",
    "Tedium.several_existing_partial",
    "Tedium.several_existing_iff",
    "Tedium.several_handles_iff",
    "Tedium.severalOnFile_orderly",
    "Tedium.severalOnFile_replies",
    "Tedium.several_existing_iff_example",
    "Tedium.severalHandles_orderly",
    "Tedium.severalHandles_replies",
    "Tedium.several_handles_counterexample"
   ],
   "note": "`Spec/Several` has the handles (`Shared`, `Deed`), the store they share (`Agrees`) and the programs (`Orderly`). Each call is one step: how the bytes of calls that overlap in time mix is not in the model (for one writer and one reader see C92). Without the condition on samples it is false: `several_handles_counterexample`. The limits of C88 are limits here too. `several_existing_partial` is for files that exist, as in C90. `several_handles_iff` and `several_existing_iff` show that for tables the limit on the lists of channels is exact."
  },
  {
   "property": "C94",
   "status": "partial",
   "theorems": [
    "Tedium.copy_partial",
    "Tedium.copy_history_partial",
    "Tedium.copy_existing_partial",
    "Tedium.rescueOps_hypotheses",
    "Tedium.rescueOps_copied",
    "Tedium.windowFile_plain",
    "Tedium.windowFile_copied",
    "Tedium.copy_history_iff",
    "Tedium.copy_existing_iff",
    "Tedium.copy_iff_example",
    "Tedium.copy_iff_slash_example",
    "Tedium.copy_counterexample"
   ],
   "note": "`Spec/Copy` has the program that copies (`copyOf`), what is asked of the file (`Represents`, `Store.Plain`) and of the questions (`Query.Apart`). The program has to know the types of the channels, since no call of the library tells them. A name with a slash is not listed, so its object is not copied, and no call fails: `copy_counterexample`. Within the other limits this one is exact: `copy_history_iff`, `copy_existing_iff`. The limits of C88 and C90 are limits here too; the copy has to stay below 2^63 bytes."
  },
  {
   "property": "C95",
   "status": "partial",
   "theorems": [
    "Tedium.merge_partial",
    "Tedium.merge_existing_partial",
    "Tedium.merge_history_partial",
    "Tedium.windowFile_doubled",
    "Tedium.parts_hypotheses",
    "Tedium.parts_merged",
    "Tedium.merge_compatible_partial",
    "Tedium.merge_history_iff",
    "Tedium.merge_samples_iff",
    "Tedium.merge_samples_iff_example",
    "Tedium.merge_exact_example",
    "Tedium.merge_counterexample"
   ],
   "note": "`Spec/Merge` says what there is in a file to which another has been appended (`Store.plus`), and when their channels have the same types (`Store.Agrees`). The program is that of C94. The first channel it writes must not be the first of the channels last written to the other file: with the same channel and another number of samples, samples are lost although all calls succeed (`merge_counterexample`, the defect of C31 and C32). `merge_compatible_partial` has the limit as it is in C31, which allows the same single channel if it gets a multiple of the samples, and `merge_history_iff` shows that this is exact. Reading several channels together is left out. The limits of C94, C88 and C90 are limits here too."
  },
  {
   "property": "C96",
   "status": "partial",
   "theorems": [
    "Tedium.join_partial",
    "Tedium.join_answers_partial",
    "Tedium.join_history_partial",
    "Tedium.join_iff",
    "Tedium.join_iff_example",
    "Tedium.windowFile_standalone",
    "Tedium.windowFile_joined",
    "Tedium.parts_joined",
    "Tedium.join_counterexample"
   ],
   "note": "`Spec/Concat` has the condition on the second file (`Standalone`), `Spec/Merge` what both files hold together. The condition is exact: `join_iff`. Without it the property is false: `join_counterexample`. Unlike in C95, nothing is lost when both files have the same channel. The limits of C90 are limits here too; for files of the library those of C88 with opening again."
  },
  {
   "property": "C97",
   "status": "proved",
   "theorems": [
    "Tedium.reads_back_iff",
    "Tedium.reads_back_iff_example",
    "Tedium.reads_back_iff_misfit",
    "Tedium.library_is_store_iff",
    "Tedium.library_is_store_iff_example"
   ],
   "note": "`Compatible` (`Spec/Writes`) is that all tables fit, `ReadsBack` that what was written is read; `SameShape` ranges over the values. `library_is_store_iff` is the same for all questions about one object at a time."
  },
  {
   "property": "C98",
   "status": "proved",
   "theorems": [
    "Tedium.library_reopened_is_store_iff",
    "Tedium.library_is_store_iff_example",
    "Tedium.reopens_iff",
    "Tedium.reopens_iff_example",
    "Tedium.existing_file_is_store_iff",
    "Tedium.existing_file_is_store_iff_example",
    "Tedium.stream_library_is_store_iff",
    "Tedium.existing_stream_is_store_iff",
    "Tedium.existing_stream_is_store_iff_example"
   ],
   "note": "`Changing` (`Spec/Changing`) is the rule, `Plays` (`Spec/Plays`) the programs. (`library_reopened_is_store_iff` has `Compatible` beside `Changing`; for tables it follows from it.) `reopens_iff` is for the bytes alone, and all calls that succeed."
  },
  {
   "property": "C99",
   "status": "proved",
   "theorems": [
    "Tedium.crash_survived_iff",
    "Tedium.crash_survived_example",
    "Tedium.crash_histories_iff",
    "Tedium.crash_existing_survived_iff",
    "Tedium.crash_existing_survived_example",
    "Tedium.crash_existing_histories_iff",
    "Tedium.watcher_existing_iff_example"
   ],
   "note": "Questions for several channels at once are included where C88 allows them (`Askable`), but not in the theorems on histories of tables."
  },
  {
   "property": "C100",
   "status": "proved",
   "theorems": [
    "Tedium.watcher_store_iff",
    "Tedium.watcher_store_iff_example",
    "Tedium.watcher_existing_iff",
    "Tedium.watcher_existing_iff_example"
   ],
   "note": "`Views` and `ViewsOn` (`Spec/Watcher`, `Spec/WatcherOn`) say what is answered."
  },
  {
   "property": "C101",
   "status": "proved",
   "theorems": [
    "Tedium.copy_history_iff",
    "Tedium.copy_existing_iff",
    "Tedium.copy_iff_example",
    "Tedium.copy_iff_slash_example",
    "Tedium.merge_samples_iff",
    "Tedium.merge_history_iff",
    "Tedium.merge_samples_iff_example",
    "Tedium.merge_exact_example"
   ],
   "note": "`copyOf` (`Spec/Copy`) is the program, `FirstFits` (`Spec/Merge`) the rule for appending. That the types of the channels are known to the program is a hypothesis (the library does not tell them)."
  },
  {
   "property": "C102",
   "status": "proved",
   "theorems": [
    "Tedium.storage_type_iff",
    "Tedium.storage_type_exact",
    "Tedium.storage_type_exact_example",
    "Tedium.extended_roundtrip_iff",
    "Tedium.string_roundtrip_iff"
   ],
   "note": "`storage_type_exact` says what is read back otherwise."
  },
  {
   "property": "C103",
   "status": "proved",
   "theorems": [
    "Tedium.append_iff",
    "Tedium.append_after_open_iff",
    "Tedium.append_iff_example"
   ],
   "note": "`AppendsWell` (`Spec/Appending`) is what a user expects of the write, `Room` bounds the sizes, `Healthy` is the history of the open file."
  },
  {
   "property": "C104",
   "status": "proved",
   "theorems": [
    "Tedium.several_handles_iff",
    "Tedium.several_existing_iff",
    "Tedium.several_existing_iff_example",
    "Tedium.severalOnFile_replies"
   ],
   "note": "`Careful` (`Spec/SeveralOn`) is the condition on the handles, `deedCalls` are the calls they make, `Agrees` and `AgreesOn` say what is answered. Each call is one step, as in C93."
  },
  {
   "property": "C105",
   "status": "proved",
   "theorems": [
    "Tedium.open_unsupported",
    "Tedium.open_unsupported_example",
    "Tedium.unsupported_objects"
   ],
   "note": "With memory for what the counts in the file ask for (otherwise the error is about the allocation). If the segments before cannot be indexed, opening fails with their error."
  },
  {
   "property": "C106",
   "status": "partial",
   "theorems": [
    "Tedium.open_same_heads_partial",
    "Tedium.open_same_heads_example",
    "Tedium.open_replaced_partial",
    "Tedium.open_replaced_example",
    "Tedium.calls_ignore_samples",
    "Tedium.calls_ignore_samples_example",
    "Tedium.reopen_ignores_samples_partial",
    "Tedium.reopen_ignores_samples_example",
    "Tedium.open_samples_counterexample",
    "Tedium.reopens_iff"
   ],
   "note": "False in full: the library reads a metadata section also where a segment has none, so there the sample values decide whether the file opens (`open_samples_counterexample`, the defect of C12). Proved for any two files that agree in everything that is read as a header or metadata, for files whose segments all have a metadata section, and for the calls themselves. For histories of calls `reopens_iff` has the exact condition."
  },
  {
   "property": "C107",
   "status": "proved",
   "theorems": [
    "Tedium.read_depends_iff",
    "Tedium.joint_read_depends_iff",
    "Tedium.read_ignores_other_samples",
    "Tedium.read_depends_example",
    "Tedium.joint_read_depends_example"
   ],
   "note": "For types of fixed size (not strings and extended floats), files below 2^63 bytes, and reads that can be served in the sense of C73 and C75 (the others fail, C74 and C77)."
  },
  {
   "property": "C108",
   "status": "proved",
   "theorems": [
    "Tedium.open_errors",
    "Tedium.read_errors",
    "Tedium.write_errors",
    "Tedium.write_argument_errors",
    "Tedium.write_properties_errors",
    "Tedium.open_errors_occur",
    "Tedium.read_write_errors_occur"
   ],
   "note": "Errors of the streams themselves are not part of these theorems: the streams here are byte strings (faulty streams are in their own properties)."
  }
 ]
}