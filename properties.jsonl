{"id": "C01", "title": "Paths of different objects never collide", "statement": "Two objects (file root, group, channel) get the same path string exactly when they are the same kind of object and their names agree after every single quote in a name is turned into a double quote. In particular a group is never confused with a channel, whatever characters the names contain.", "quantifier": "all pairs of objects and all group/channel name strings", "why_tests_cant": "the set of names is infinite and a collision needs an adversarial pair of names (quotes, slashes), which no finite sample covers", "anchors": ["src/paths.rs: escape_name, PropertyPath::file, PropertyPath::group, PropertyPath::channel, ChannelPath::new"]}
{"id": "C02", "title": "Names can be recovered from a path", "statement": "group_name and channel_name of a path built from names return those names (quote-escaped): None/None for the root, Some/None for a group, Some/Some for a channel; ChannelPath::group_name and channel_name never panic.", "quantifier": "all group and channel name strings", "why_tests_cant": "depends on every position at which '/' or a quote can occur in a name", "anchors": ["src/paths.rs: PropertyPath::path_levels, group_name, channel_name, ChannelPath::group_name, ChannelPath::channel_name"]}
{"id": "C03", "title": "Parsing a path printed by the library gives the same path back", "statement": "PropertyPath::try_from(p.path()) succeeds and equals p, and ChannelPath::try_from does the same for channel paths and rejects group and root paths.", "quantifier": "all group and channel name strings", "why_tests_cant": "infinite name space; the failing names contain '/'", "anchors": ["src/paths.rs: parse_path, parse_name, TryFrom<&str> for PropertyPath, TryFrom<&str> for ChannelPath"]}
{"id": "C04", "title": "Parsing an arbitrary path string never panics", "statement": "PropertyPath::try_from and ChannelPath::try_from return Ok or Err for every string, never panic.", "quantifier": "all strings", "why_tests_cant": "panic-freedom over all strings; one bad string in an infinite set", "anchors": ["src/paths.rs: parse_path, parse_name"]}
{"id": "C05", "title": "A ChannelPath always denotes a channel", "statement": "Whenever a conversion to ChannelPath succeeds, the result is the path of some group and channel, and group_name and channel_name return them.", "quantifier": "all strings and all PropertyPath values", "why_tests_cant": "universally quantified over inputs of the conversion", "anchors": ["src/paths.rs: TryFrom<&str> for ChannelPath, TryFrom<PropertyPath> for ChannelPath, is_channel, path_depth"]}
{"id": "C06", "title": "Stored values round-trip bit-exactly in both byte orders", "statement": "For every numeric, boolean, complex, timestamp and string type, writing a value and reading it back in the same byte order gives the identical value and consumes exactly the bytes written; ExtendedRaw round-trips exactly when the value fits in 80 bits.", "quantifier": "all values of all storage types (strings of fewer than 2^32 bytes), both byte orders, any surrounding bytes", "why_tests_cant": "value spaces up to 2^128 and all strings", "anchors": ["src/io/data_types/native_numerics.rs", "src/io/data_types/bool.rs", "src/io/data_types/extended.rs", "src/io/data_types/complex.rs", "src/io/data_types/timestamp.rs", "src/io/data_types/strings.rs"]}
{"id": "C07", "title": "Declared size equals bytes written", "statement": "For every storage value, property value, object entry and metadata section, the size used to plan the segment offsets equals the number of bytes the writer emits.", "quantifier": "all values, property lists and object lists, both byte orders", "why_tests_cant": "a mismatch on any one value shifts every later byte of the file; the value space is infinite", "anchors": ["src/io/data_types/mod.rs: TdmsStorageType::size", "src/properties.rs: PropertyValue::size", "src/meta_data.rs: MetaData::size, ObjectMetaData::size, RawDataIndex::size"]}
{"id": "C08", "title": "Type codes are a bijection", "statement": "Every data type written to a file is recovered from its code, different types have different codes, and any code that is not assigned is rejected with UnknownPropertyType carrying that code.", "quantifier": "all data types and all 32-bit codes", "why_tests_cant": "2^32 codes", "anchors": ["src/io/data_types/mod.rs: DataType", "src/meta_data.rs: TdmsMetaData for DataType"]}
{"id": "C09", "title": "Table-of-contents flags round-trip", "statement": "The six flags survive encoding and decoding, decoding depends only on the six documented bits, and the flag word is little-endian in files of either byte order.", "quantifier": "all flag combinations and all 32-bit words", "why_tests_cant": "2^32 words", "anchors": ["src/meta_data.rs: ToC::from_u32, ToC::as_bytes, mask_bit_set, set_bits"]}
{"id": "C10", "title": "Property values round-trip", "statement": "Writing a property value and reading it back gives the same value for every variant, in both byte orders.", "quantifier": "all property values (strings shorter than 2^32 bytes, extended values below 2^80), both byte orders", "why_tests_cant": "infinite value space", "anchors": ["src/properties.rs: PropertyValue, TdmsMetaData for PropertyValue"]}
{"id": "C11", "title": "Metadata sections round-trip", "statement": "Writing a metadata section (any number of objects, each with path, raw-data index and properties) and reading it back gives the same section.", "quantifier": "all metadata sections within the format's 32-bit counts, both byte orders", "why_tests_cant": "unbounded nesting of lists and strings", "anchors": ["src/meta_data.rs: MetaData, ObjectMetaData, RawDataIndex"]}
{"id": "C12", "title": "A written segment reads back as the segment that was indexed", "statement": "Reading the bytes of a segment that write_segment produced returns the same flags, offsets and metadata that write_segment handed to the index, and the segment occupies exactly the number of bytes its header declares.", "quantifier": "all flag sets, metadata sections and data blocks, both byte orders", "why_tests_cant": "unbounded data; fails for segments written without metadata", "anchors": ["src/io/writer.rs: write_segment", "src/meta_data.rs: Segment::read, Segment::total_size_bytes", "src/io/reader.rs: read_segment"]}
{"id": "C13", "title": "Unsupported content is rejected, never misread", "statement": "Metadata with a DAQmx raw-data index, an unknown type code, a fixed-point or DAQmx property, or text that is not UTF-8 makes the read fail with the corresponding error.", "quantifier": "all byte strings at each position", "why_tests_cant": "all 2^32 index codes and all invalid byte strings", "anchors": ["src/meta_data.rs: RawDataIndex::read, DataType::read", "src/properties.rs: PropertyValue::read", "src/io/data_types/strings.rs: read_string_with_length"]}
{"id": "C14", "title": "Properties: last write wins", "statement": "After any history of writes, read_property(object, name) returns the value of the last write of that name to that object, and read_all_properties returns each name once, in order, with that last value.", "quantifier": "all histories of property and channel writes, all objects and names", "why_tests_cant": "unbounded histories with interleaved objects", "anchors": ["src/file/file_writer.rs: write_properties", "src/index/mod.rs: ObjectData::update, get_object_property, get_object_properties", "src/file/mod.rs: read_property, read_all_properties"]}
{"id": "C15", "title": "Missing objects and missing properties are distinguished", "statement": "read_property fails with MissingObject exactly when the object never appeared in the file, and returns None exactly when the object exists but never received that property; read_all_properties returns None, channel_length None and read_channel MissingObject in the same case.", "quantifier": "all files, objects and names", "why_tests_cant": "quantifies over all files", "anchors": ["src/index/mod.rs: get_object_property, get_object_properties, get_channel_data_positions, channel_length", "src/file/channel_reader.rs: read_channel_from"]}
{"id": "C16", "title": "list_groups is exact", "statement": "list_groups returns, sorted and without duplicates, exactly the groups that occur as a group or as the parent of a channel among the objects of the file.", "quantifier": "all files with well-formed object paths", "why_tests_cant": "arbitrary sets of paths; ordering and de-duplication over all of them", "anchors": ["src/file/mod.rs: list_groups", "src/paths.rs: path_group_name", "src/index/querying.rs: all_paths"]}
{"id": "C17", "title": "list_channels_in_group is exact", "statement": "list_channels_in_group(g) returns, in path order and once each, exactly the channels of the file whose group is g; groups whose name starts with g's name do not leak in.", "quantifier": "all files with well-formed object paths and all groups", "why_tests_cant": "needs the ordering argument that a range scan stopped at the first non-match misses nothing, for all key sets", "anchors": ["src/file/mod.rs: list_channels_in_group", "src/index/querying.rs: paths_starting_with"]}
{"id": "C18", "title": "Indexing never panics", "statement": "Adding any sequence of segments to the index, whatever their content and whether earlier ones failed, never trips an internal assertion; the only possible arithmetic overflow is the address of a data block that lies beyond 2^64.", "quantifier": "all sequences of segments", "why_tests_cant": "invariant over unbounded histories including failed steps", "anchors": ["src/index/building.rs: add_segment, get_active_raw_data_meta, insert_data_block, update_or_activate_data_object, update_meta_object"]}
{"id": "C19", "title": "Every recorded data location is valid", "statement": "After any sequence of segments every channel's locations point at existing data blocks, at an existing channel slot in the block, in strictly increasing block order.", "quantifier": "all sequences of segments", "why_tests_cant": "invariant over unbounded histories", "anchors": ["src/index/building.rs: insert_data_block", "src/index/mod.rs: DataLocation"]}
{"id": "C20", "title": "channel_length counts the samples of all blocks", "statement": "channel_length is the sum over the segments in which the channel is active of (number of values per chunk) x (number of whole chunks in the raw data), as long as that sum fits into 64 bits, and never decreases.", "quantifier": "all sequences of segments", "why_tests_cant": "unbounded histories, repeated chunks, inherited formats", "anchors": ["src/index/mod.rs: channel_length", "src/raw_data/mod.rs: chunk_size, number_of_chunks"]}
{"id": "C21", "title": "Active-channel rules of the format", "statement": "Raw data of a segment belongs to the channels listed since the last new-object-list flag, in first-listing order, each with the most recently declared layout; 'same as previous' reuses the channel's last layout and is rejected with NoPreviousType when there is none; entries without raw data never become active.", "quantifier": "all sequences of segments", "why_tests_cant": "history-dependent rule", "anchors": ["src/index/building.rs: add_segment, update_or_activate_data_object, update_meta_object, deactivate_all_objects"]}
{"id": "C22", "title": "Inconsistent segment headers are rejected", "statement": "A segment flagged as containing raw data is rejected with the specific error when there is no active channel, the raw offset is beyond the segment end, or the raw data is empty; address arithmetic that leaves 64 bits is reported as SegmentAddressOverflow.", "quantifier": "all segments and index states", "why_tests_cant": "all 64-bit offsets", "anchors": ["src/raw_data/mod.rs: DataBlock::from_segment", "src/index/building.rs: add_segment", "src/meta_data.rs: total_size_bytes"]}
{"id": "C23", "title": "Opening terminates", "statement": "TdmsFile::new finishes on every byte sequence, reading at most one segment per 28 bytes of file.", "quantifier": "all byte strings", "why_tests_cant": "termination over all inputs", "anchors": ["src/file/mod.rs: build_index"]}
{"id": "C24", "title": "Opening never panics", "statement": "TdmsFile::new returns Ok or Err on every byte sequence.", "quantifier": "all byte strings", "why_tests_cant": "panic-freedom over all inputs (the project fuzzes this)", "anchors": ["src/file/mod.rs: build_index, TdmsFile::new", "src/raw_data/mod.rs: DataBlock::from_segment", "fuzz/"]}
{"id": "C25", "title": "Opening a file is the same as replaying its segments", "statement": "Opening the concatenation of well-formed segments gives exactly the index obtained by adding those segments one after the other; a trailing fragment shorter than the 4-byte tag is ignored and anything else that is not a segment is rejected with HeaderPatternNotMatched.", "quantifier": "all sequences of segments with metadata, both byte orders", "why_tests_cant": "unbounded sequences", "anchors": ["src/file/mod.rs: build_index", "src/meta_data.rs: Segment::read"]}
{"id": "C26", "title": "Behaviour after a crash in the middle of a write", "statement": "If a file is cut at any byte, opening it succeeds and shows exactly the segments whose metadata is complete when the cut is at a segment boundary, inside the 4-byte tag, or inside raw data; fully contained data reads back unchanged.", "quantifier": "all write histories and all cut positions", "why_tests_cant": "every crash point of every history", "anchors": ["src/file/mod.rs: build_index", "src/meta_data.rs: Segment::read", "src/io/writer.rs: sync"]}
{"id": "C27", "title": "Writing is append-only", "statement": "No write operation changes or removes any byte already in the file.", "quantifier": "all histories and operations, including failing ones", "why_tests_cant": "all histories", "anchors": ["src/file/mod.rs: writer", "src/file/file_writer.rs: write_channels, write_properties"]}
{"id": "C28", "title": "Rejected arguments leave file and index untouched", "statement": "write_channels with no channels fails with NoChannels, and with a value count that is not a multiple of the channel count fails with BadDataBlockLength carrying both numbers; in both cases nothing is written and nothing observable changes.", "quantifier": "all file states and arguments", "why_tests_cant": "all states and argument sizes", "anchors": ["src/file/file_writer.rs: DataStreamWriter::new", "src/raw_data/write.rs: MultiChannelSlice::from_slice"]}
{"id": "C29", "title": "A failed write leaves the file usable", "statement": "If write_channels returns an error, the file can still be reopened and later writes are still readable.", "quantifier": "all file states and arguments", "why_tests_cant": "all states; fails for empty data", "anchors": ["src/file/file_writer.rs: DataStreamWriter::new, end_stream", "src/index/building.rs: add_segment"]}
{"id": "C30", "title": "Index end equals file end", "statement": "After any history of successful writes the position at which the index expects the next segment is the length of the file.", "quantifier": "all histories", "why_tests_cant": "invariant over histories; depends on size reporting of every type", "anchors": ["src/index/building.rs: add_segment", "src/io/writer.rs: write_segment", "src/raw_data/write.rs: size"]}
{"id": "C31", "title": "What is written is what is read, in the same session", "statement": "For every history of channel and property writes, read_channel returns the concatenation, in order, of all values written to that channel, and channel_length is their number.", "quantifier": "all histories of writes (any channels, lengths, types, layouts), all channels", "why_tests_cant": "unbounded histories; the failing histories need a particular relation between consecutive writes", "anchors": ["src/file/file_writer.rs: write_channels", "src/index/writing.rs: check_write_values", "src/file/channel_reader.rs: read_channel"]}
{"id": "C32", "title": "What is written is what is read, after reopening", "statement": "Opening the bytes produced by any history of writes succeeds and gives the same objects, properties, lengths and data as the session that wrote them.", "quantifier": "all histories of writes", "why_tests_cant": "unbounded histories", "anchors": ["src/io/reader.rs: read_segment", "src/file/mod.rs: build_index", "src/index/writing.rs: check_write_values"]}
{"id": "C33", "title": "Layout does not change meaning", "statement": "Writing a table of samples interleaved or contiguous gives the same channel contents.", "quantifier": "all tables, channel lists and types", "why_tests_cant": "all shapes", "anchors": ["src/raw_data/interleaved_multi_channel_read.rs", "src/raw_data/contigious_multi_channel_read.rs", "src/file/file_writer.rs"]}
{"id": "C34", "title": "Writes do not disturb other objects", "statement": "Writing data changes neither the data of channels not named in the call nor any property; writing properties changes no channel data and no other object's properties.", "quantifier": "all states, operations and objects", "why_tests_cant": "frame property over all states", "anchors": ["src/file/file_writer.rs", "src/index/building.rs"]}
{"id": "C35", "title": "sync and drop bring everything into the file, a crash of the process keeps a prefix", "statement": "After sync, or after the writer is dropped, the file holds every byte written; if the process dies earlier the file holds a prefix of them.", "quantifier": "all histories and all points at which the buffer may have been flushed", "why_tests_cant": "all schedules of buffer flushes", "anchors": ["src/io/writer.rs: LittleEndianWriter, sync", "src/file/file_writer.rs: sync"]}
{"id": "C36", "title": "read_channel_from returns the right window", "statement": "read_channel_from(ch, start, out) fills out with samples start, start+1, ... of the channel and leaves the rest of out as it was when the channel is shorter, for files with any mix of layouts, byte orders, repeated chunks and channel sets in which the channels of a block have equal length.", "quantifier": "all files meeting the format's equal-length rule, channels, offsets, buffer lengths", "why_tests_cant": "all combinations of block boundaries, offsets and buffer sizes", "anchors": ["src/file/channel_reader.rs: read_channel_from, read_plan, execute_read_plan", "src/raw_data/mod.rs: DataBlock::read, read_with_per_channel_skip"]}
{"id": "C37", "title": "read_channels agrees with reading each channel alone", "statement": "read_channels(_from) fills every buffer exactly as read_channel(_from) would for that channel.", "quantifier": "all files, channel lists, offsets and buffer lengths", "why_tests_cant": "the failing cases need particular combinations of block structure, order and buffer sizes", "anchors": ["src/file/channel_reader.rs: read_channels, read_channels_from, execute_read_plan"]}
{"id": "C38", "title": "Read planning visits exactly the blocks that are needed", "statement": "The read plan lists blocks in strictly increasing order, each at most once, skips a channel's block exactly when the start offset is beyond it, and gives the first block that is read the remaining offset.", "quantifier": "all location lists and offsets", "why_tests_cant": "all location lists", "anchors": ["src/file/channel_reader.rs: read_plan"]}
{"id": "C39", "title": "Reading with the wrong type is an error", "statement": "Reading a channel as a type that does not support the channel's stored type fails with DataTypeMismatch(stored, requested) and never returns reinterpreted bytes.", "quantifier": "all files, channels and requested types", "why_tests_cant": "all type pairs in all positions of a block", "anchors": ["src/raw_data/records.rs: validate_types_match", "src/io/data_types: SUPPORTED_TYPES"]}
{"id": "C40", "title": "Reading never panics", "statement": "read_channel and read_channels return Ok or Err for every opened file, offset and buffer.", "quantifier": "all byte strings accepted by TdmsFile::new, all requests", "why_tests_cant": "all inputs", "anchors": ["src/raw_data/contigious_multi_channel_read.rs", "src/raw_data/interleaved_multi_channel_read.rs", "src/raw_data/records.rs"]}
{"id": "C41", "title": "Reads compose", "statement": "Reading n samples at s and then m samples at s+n gives the same values as reading n+m samples at s.", "quantifier": "all files, channels, s, n, m", "why_tests_cant": "all split points", "anchors": ["src/file/channel_reader.rs"]}
{"id": "C42", "title": "Property conversions are exact", "statement": "Converting a value into a PropertyValue and back returns it; converting a PropertyValue to a type it does not hold fails with DataTypeMismatch naming both types.", "quantifier": "all values and all variant/type pairs", "why_tests_cant": "all values of each type", "anchors": ["src/properties.rs: From/TryFrom implementations"]}
{"id": "C43", "title": "Byte order of a file does not matter", "statement": "The same segments written big-endian or little-endian give the same objects, properties, lengths and channel data when opened.", "quantifier": "all sequences of segments", "why_tests_cant": "unbounded", "anchors": ["src/meta_data.rs: Segment::read", "src/raw_data/mod.rs: DataBlock::read"]}
{"id": "C44", "title": "Every supported sample type can be stored in a channel", "statement": "Writing n values of any storage type to a channel makes channel_length grow by n and the values read back unchanged, for every type that implements TdmsStorageType.", "quantifier": "all storage types, all values", "why_tests_cant": "all values of all types; fails for some types", "anchors": ["src/raw_data/write.rs: size", "src/io/data_types/mod.rs: DataType::size, SIZE_BYTES"]}
{"id": "C45", "title": "Appending to a reopened file works", "statement": "Opening a file, appending, and reading gives old data followed by new data, whatever state the file was in when it was opened successfully.", "quantifier": "all openable byte strings, all appended histories", "why_tests_cant": "all files; fails when the file does not end on a segment boundary", "anchors": ["src/file/mod.rs: writer", "src/index/building.rs: add_segment"]}
{"id": "C46", "title": "Unchanged channel lists are written without metadata", "statement": "A write whose channels and layout equal the previous write's adds exactly 28 bytes of header plus the data; any other write carries metadata for all its channels.", "quantifier": "all histories", "why_tests_cant": "history-dependent", "anchors": ["src/index/writing.rs: check_write_values", "src/file/file_writer.rs: DataStreamWriter::new"]}
{"id": "C47", "title": "Files follow the published TDMS layout", "statement": "Bytes laid out as the NI white paper describes (lead-in, flags, object lists, raw data indexes, properties, in both byte orders) open as what they describe, and every write adds one segment with that layout: correct tag, flags, version 4713, offsets and object list, and the values in order.", "quantifier": "all sequences of segments with that layout; all writes in all states", "why_tests_cant": "unbounded files; tests of a writer against its own reader cannot see errors that both share", "anchors": ["src/meta_data.rs: Segment::read, ObjectMetaData", "src/io/writer.rs: write_segment", "src/io/data_types/mod.rs: DataType"]}
{"id": "C48", "title": "A failing stream is reported and does no harm", "statement": "Whatever the stream does (accepts any portion of the bytes, is interrupted, fails): a write either returns what it returns on a perfect stream, or an I/O error. After an I/O error the listing, the properties and the lengths are those from before the call, the file has its old bytes and a prefix of the new ones, and everything that had reached the file reads as before. A sync that returns Ok has put all bytes of all writes so far into the file; a sync that failed can be repeated.", "quantifier": "all histories of writes and syncs, all behaviours of the stream, all buffer sizes and divisions into write calls", "why_tests_cant": "the point and kind of failure range over every byte of every history", "anchors": ["src/io/writer.rs: write_segment, sync", "src/file/file_writer.rs: write_channels, write_properties, sync", "src/file/mod.rs: writer"]}
{"id": "C49", "title": "Writing can go on after an I/O error", "statement": "After a write that failed with an I/O error, later calls that return Ok have the effect they would have without the failed call, and errors are not lost when the writer is dropped.", "quantifier": "all histories, all behaviours of the stream", "why_tests_cant": "the failure can happen at every byte; the effect shows only later", "anchors": ["src/file/file_writer.rs: write_channels, write_properties", "src/io/writer.rs: write_segment", "src/index/building.rs: add_segment"]}
{"id": "C50", "title": "A read fills the front of the buffer and nothing else", "statement": "read_channel(_from) either fails in a way that does not depend on what the buffer held, or stores values at the front of the buffer and leaves the remaining cells untouched; which values does not depend on what the buffer held.", "quantifier": "all files (well formed or not), all channels, types, start positions, buffer sizes and buffer contents", "why_tests_cant": "contents of the buffer and of the file range over infinite sets; a stale cell that is read back would show only for some contents", "anchors": ["src/file/channel_reader.rs: read_channel_from, execute_read_plan", "src/raw_data/mod.rs: read, read_with_per_channel_skip", "src/raw_data/contigious_multi_channel_read.rs", "src/raw_data/interleaved_multi_channel_read.rs"]}
{"id": "C51", "title": "A longer buffer only receives more values", "statement": "Reading a channel from the same start into a larger buffer gives the values the smaller buffer got, followed by further ones.", "quantifier": "all files (well formed or not), all channels, types, start positions, pairs of buffer sizes for which the reads succeed", "why_tests_cant": "pairs of sizes cross block and chunk boundaries in ways that depend on the file", "anchors": ["src/file/channel_reader.rs: read_channel_from, execute_read_plan", "src/raw_data/contigious_multi_channel_read.rs: read_sub_block", "src/raw_data/interleaved_multi_channel_read.rs: read"]}
{"id": "C52", "title": "Later writes never change samples already readable", "statement": "If a read fills its (non-empty) buffer, the same read gives the same values after any further calls, successful or not; what any read delivers later begins with what it delivered before.", "quantifier": "all files, all later histories of calls including failing ones, all channels, types, start positions and buffer sizes", "why_tests_cant": "the interference would come from an arbitrary later history", "anchors": ["src/file/channel_reader.rs: read_channel_from", "src/file/file_writer.rs: write_channels, write_properties", "src/index/building.rs: add_segment"]}
{"id": "C53", "title": "A crash loses at most what was not synced", "statement": "Wherever a crash of the process cuts off the bytes that a session has written, the file opens, and has all objects, properties and samples of the calls that are complete on disk; among them are all calls made before the last successful sync.", "quantifier": "all files, all histories of successful calls, all cut points, all schedules of the write buffer", "why_tests_cant": "the cut can fall on every byte of every history", "anchors": ["src/index/building.rs: build_index", "src/file/mod.rs: new, load, writer", "src/io/writer.rs: write_segment, sync", "src/meta_data.rs: Segment::read"]}
{"id": "C54", "title": "Opening and reading do not depend on how the stream delivers its bytes", "statement": "Whatever the stream does (short reads, interrupted reads, any position when the file is handed over) opening a file and reading channels gives what the contents determine; if an operation of the stream fails, or the stream ends early, the call returns that error, and the open file stays usable: later reads are right again.", "quantifier": "all contents, all behaviours of the stream's read and seek, all buffer sizes, all handles reached by any history of calls", "why_tests_cant": "every read of every size can be split, interrupted or failed by the stream in unboundedly many ways", "anchors": ["src/index/building.rs: build_index", "src/file/mod.rs: new", "src/file/channel_reader.rs: read_channel_from, read_channels_from, execute_read_plan", "src/io/reader.rs", "src/raw_data/mod.rs: read, read_with_per_channel_skip", "src/meta_data.rs: Segment::read"]}
{"id": "C55", "title": "Reads and writer sessions on one open file can be interleaved", "statement": "On one open file, any sequence of reads and writer sessions gives the answers, and leaves the contents, that the calls give one by one: reads do not move where the next session writes, and sessions do not disturb later reads.", "quantifier": "all contents, all sequences of reads and writer sessions, all stream positions, short reads and writes, all buffer sizes", "why_tests_cant": "the shared stream position depends on the whole history of calls", "anchors": ["src/file/mod.rs: writer", "src/file/file_writer.rs: FileWriter::new, write_channels, write_properties", "src/file/channel_reader.rs: execute_read_plan"]}
{"id": "C56", "title": "Running out of memory is an error and nothing else", "statement": "If the allocator refuses a request while a file is opened or channels are read, the call returns an allocation error; otherwise it does exactly what it would do with unlimited memory. Opening a file reports no allocation error when nothing was refused.", "quantifier": "all byte strings, all sets of refused requests, all states, channels, types, start positions and buffers", "why_tests_cant": "which request is refused depends on the machine and on lengths found in the file", "anchors": ["src/io/data_types/strings.rs: read_string_with_length", "src/io/reader.rs: read_vec", "src/meta_data.rs: ObjectMetaData::read", "src/file/mod.rs: new, build_index", "src/file/channel_reader.rs"]}
{"id": "C57", "title": "A joint read stores the same values whatever the buffers hold", "statement": "Reading several channels into buffers of given sizes either fails with the same error whatever the buffers hold, or stores the same values in the same cells and leaves all other cells untouched.", "quantifier": "all files (well formed or not), all lists of channels, types, start positions, buffer sizes and buffer contents", "why_tests_cant": "buffer contents and files are unbounded, and stale cells look like data", "anchors": ["src/file/channel_reader.rs: read_channels_from, execute_read_plan", "src/raw_data/mod.rs: read, read_with_per_channel_skip", "src/raw_data/contigious_multi_channel_read.rs", "src/raw_data/interleaved_multi_channel_read.rs"]}
{"id": "C58", "title": "Later writes never change what a joint read has filled", "statement": "If a read of several channels fills all its buffers, the same read returns the same values after any further calls, successful or not.", "quantifier": "all files, all later histories of calls, all lists of channels, types, start positions and buffer sizes", "why_tests_cant": "the interference would come from an arbitrary later history", "anchors": ["src/file/channel_reader.rs: read_channels_from, execute_read_plan", "src/file/file_writer.rs: write_channels, write_properties"]}
{"id": "C59", "title": "A file that is still growing never shows anything wrong", "statement": "Open what is there of a file, and again when more has been appended. If both succeed, the second has all objects, property names, groups and channels of the first, channels at least as long, and the same samples. If the first fails, and not with UnexpectedEof, the second fails in the same way. A part of a file that opens either opens or gives UnexpectedEof, the latter exactly when the cut is inside a header after its tag.", "quantifier": "all byte strings (written by anyone), all appended bytes, all memory limits", "why_tests_cant": "every prefix of every file, including malformed ones", "anchors": ["src/file/mod.rs: new", "src/index/building.rs: build_index, add_segment", "src/meta_data.rs: Segment::read", "src/file/channel_reader.rs: read_channel_from"]}
{"id": "C60", "title": "Which files open, and which error is given otherwise", "statement": "Opening a file looks at its segments in order and gives the complaint about the first segment that deserves one: an entry that refers to a previous layout that does not exist, raw data without channels, a raw data offset behind or at the end of the segment, sizes that do not fit 64 bits. If no segment deserves one, it gives the error met by the parser, if any; otherwise the file opens. It panics exactly when the address of a data block exceeds 64 bits.", "quantifier": "all byte strings, all memory limits", "why_tests_cant": "the outcome must be right for every malformed file, including combinations of several defects", "anchors": ["src/file/mod.rs: new", "src/index/building.rs: build_index, add_segment, update_meta_object, insert_data_block", "src/meta_data.rs: Segment::read", "src/raw_data/mod.rs: number_of_chunks, chunk_size"]}
{"id": "C61", "title": "Every channel that is listed can be used", "statement": "A channel path returned by a listing is the path of an object of the file: channel_length and the reads find it. Every object of a file can be named by some path that the API builds. A call adds no objects but those it writes to.", "quantifier": "all files (written by anyone), all histories of calls, all names", "why_tests_cant": "names are arbitrary strings and files come from other programs", "anchors": ["src/paths.rs: PropertyPath::channel, TryFrom, escape_name", "src/file/mod.rs: list_channels_in_group, list_groups", "src/file/channel_reader.rs: channel_length"]}
{"id": "C62", "title": "Loading never changes a file, creating empties it, other files are untouched", "statement": "load changes no file and no other open file, whatever its outcome; a missing file is reported as not found and is not created. create succeeds unless the file system refuses, and the file is then empty. No action changes another file, or what is seen through a file opened under another name: what an open file shows is the result of the calls made through it, however they are mixed with loads and with work on other files.", "quantifier": "all contents of the file system, all sequences of creates, loads and calls through any number of open files, all refusals of the file system", "why_tests_cant": "interleavings of work on several files are unbounded", "anchors": ["src/file/mod.rs: load, create, new", "src/file/file_writer.rs"]}
{"id": "C63", "title": "A reader is not disturbed by others that append to the file", "statement": "While a file is open for reading, others may load it and write to it: all answers given through the open file stay the same (objects, properties, listings, lengths, every successful read), and a later load shows an extension of an earlier one. Several programs may write, and each reads back what it wrote.", "quantifier": "all files, all sequences of loads and calls through other open files, with any results", "why_tests_cant": "the interleavings of several programs are unbounded", "anchors": ["src/file/mod.rs: load, writer", "src/index/building.rs: add_segment, insert_data_block", "src/file/channel_reader.rs"]}
{"id": "C64", "title": "Closing a file and opening it again makes no difference", "statement": "A program that closes the file and loads it again between any of its calls gets the same results and the same file as one that keeps it open.", "quantifier": "all histories of calls, all sets of points at which the file is reopened", "why_tests_cant": "the points at which the file is reopened and the histories are unbounded", "anchors": ["src/file/mod.rs: load, new", "src/index/building.rs: build_index", "src/file/file_writer.rs: write_channels, write_properties"]}
{"id": "C65", "title": "Typed values and dates survive as properties", "statement": "A value of any Rust type with a conversion to a property, written under a name, is found again under that name after any further calls that do not set it, on any file, and converts back to the same value; converting it to another type is refused with an error naming both types. A date (feature chrono) comes back as what the timestamp conversion makes of it, conversion errors are passed on, and no other property is taken for a date.", "quantifier": "all types and values, all files, all histories of calls before and after", "why_tests_cant": "values, files and histories are unbounded", "anchors": ["src/properties.rs: PropertyValue, From, TryFrom, DateTime conversions", "src/error.rs: chrono conversion error", "src/file/mod.rs: read_property", "src/file/file_writer.rs: write_properties"]}
{"id": "C66", "title": "Work and memory are bounded by the size of the file", "statement": "Opening a file and reading from it takes a number of operations on the stream, and asks for an amount of memory, bounded by a function of the size of the file, whatever bytes the file has.", "quantifier": "all byte strings, all channels, start samples and buffers", "why_tests_cant": "the inputs are unbounded, and a test cannot see how long something would go on", "anchors": ["src/file/mod.rs: build_index", "src/io/reader.rs: read_vec", "src/raw_data/contigious_multi_channel_read.rs: read_from, read_with_per_channel_skip", "src/raw_data/interleaved_multi_channel_read.rs: read", "src/file/channel_reader.rs: execute_read_plan"]}
{"id": "C67", "title": "A read that fails leaves only correct data in the buffer", "statement": "A read assigns the caller's cells one at a time. If it fails, because the file is cut off or the stream reports an error, the front of the buffer holds samples of the channel that are right, at the right places, all those that a shorter read could have read are there, and all cells behind them are as they were.", "quantifier": "all files, channels, start samples, buffers, element types, streams and points of failure", "why_tests_cant": "the failure can come at every operation of a read of any length, and the buffer after an error is seldom looked at", "anchors": ["src/raw_data/contigious_multi_channel_read.rs: read_sequential_samples, read_sub_block", "src/raw_data/interleaved_multi_channel_read.rs: read", "src/file/channel_reader.rs: read_channel_from, read_channels_from, execute_read_plan"]}
{"id": "C68", "title": "How calls are cut and ordered does not matter", "statement": "Exchanging two calls that concern different objects, writing a table in several calls instead of one (row by row, or a single channel in pieces), or writing properties in several calls instead of one, changes neither the samples and lengths of any channel nor the value of any property.", "quantifier": "all histories, and all ways to exchange, cut and put together their calls", "why_tests_cant": "there are exponentially many ways to cut and order the calls of a history, and what matters is the state each call finds", "anchors": ["src/file/file_writer.rs: write_channels, write_properties", "src/index/writing.rs: check_write_values", "src/index/building.rs: add_segment"]}
{"id": "C69", "title": "When an open file can be appended to, exactly", "statement": "Through an open file on which all calls so far returned Ok, whatever is written to a channel that the file does not have yet (any ordinary type, any number of values) is accepted and read back unchanged, if and only if the file ends exactly where the last segment known to the open file ends. In particular it holds after opening a file that ends with its last segment, and never when the file has bytes behind it or is cut inside it, when a failed write left some of its bytes behind, or when another program has appended to the file.", "quantifier": "all files, all histories of calls that returned Ok, all failing writes, all actions of other programs, all values written next", "why_tests_cant": "the claim is about every possible later write, and for the converse about every way in which the end of the file can be somewhere else", "anchors": ["src/file/mod.rs: TdmsFile::writer", "src/file/file_writer.rs: write_channels", "src/index/building.rs: add_segment", "src/file/channel_reader.rs: read_channel_from"]}
{"id": "C70", "title": "Builds with and without overflow checks agree", "statement": "Where a build with overflow checks does not report an overflow, the optimised build does the same: opening any byte string, any history of calls of the writer (results, file and index), channel_length and reads of any type, offset and buffers. A byte string opens in one build exactly when it opens in the other, and as the same file.", "quantifier": "all byte strings, files, histories of calls, types, channels, offsets and buffers", "why_tests_cant": "the tests run with overflow checks, users run without: a difference shows only for sizes that no test file has", "anchors": ["Cargo.toml", "src/raw_data/mod.rs: from_segment", "src/raw_data/records.rs: block_size", "src/raw_data/contigious_multi_channel_read.rs", "src/raw_data/interleaved_multi_channel_read.rs", "src/index/mod.rs: channel_length", "src/file/mod.rs: build_index"]}
{"id": "C71", "title": "Opening and writing never panic in an optimised build", "statement": "In an optimised build opening any byte string, and every call of the writer after any other calls (successful or not), returns Ok or an error. Where the build with overflow checks panics, the error says that a size or an address is too large, and the bytes written to the file are the same.", "quantifier": "all byte strings, all histories of calls with any results", "why_tests_cant": "an overflow needs headers close to 2^64, and all combinations of offsets and earlier segments", "anchors": ["src/file/mod.rs: build_index", "src/index/building.rs: add_segment, insert_data_block", "src/raw_data/mod.rs: from_segment"]}
{"id": "C72", "title": "Reading in an optimised build: no wrong data instead of a panic", "statement": "In an optimised build a read gives what the build with overflow checks gives, and where that one panics because of an overflow, it returns an error; it never panics itself. The only panics of reads are overflow and division by zero, in the build with overflow checks, and division by zero in the other.", "quantifier": "all files, histories, types, channels, offsets and buffers", "why_tests_cant": "an offset that wraps around may point to other data in the file: whether it can is a question about all sizes up to 2^64", "anchors": ["src/raw_data/contigious_multi_channel_read.rs", "src/raw_data/interleaved_multi_channel_read.rs", "src/raw_data/records.rs: block_size", "src/index/mod.rs: channel_length"]}
{"id": "C73", "title": "Exactly which values a read delivers, and exactly when they are the right ones", "statement": "For every layout of the segments, every start and every buffer, and for every type of fixed size (timestamps too), a read that can be served stores the values of the places that follow from the layout alone: in interleaved data all rows from the start on, in contiguous data those after as many chunks of the first channel as fit into the samples to skip. It is right for all contents of the raw data if and only if these are the places of the wanted samples. For one contiguous segment this means: the channel has as many values per chunk as the first channel, or the start is inside the first chunk of both; for one interleaved segment: as many rows as samples, as far as the buffer reaches.", "quantifier": "all files that open, channels, types of fixed size, starts, buffers, and contents of the raw data", "why_tests_cant": "the values depend on the numbers of values per chunk of all channels, the layouts and byte orders of all segments, and the start; the converse speaks about all contents", "anchors": ["src/lib.rs: read_channel_from", "src/raw_data/contigious_multi_channel_read.rs", "src/raw_data/interleaved_multi_channel_read.rs"]}
{"id": "C74", "title": "How every read of one channel ends", "statement": "For every file that opens, also one that was cut, every channel, type of fixed size, start and buffer with room, it is settled how the read ends: with the first fault among the segments that it needs, in their order, and if there is none with the values of the places of C73. The faults of a segment are: a type that cannot be read as the wanted one (type mismatch); in contiguous data a chunk of 2^64 bytes or more (panic) and a first channel without values (panic); in interleaved data 2^63 bytes or more to skip (panic); and a value that is to be delivered not completely inside the file (end of file), where in interleaved data one row more than needed is read. So a read of a cut file fails or delivers what the file held before it was cut; and of a file with all its raw data, a read of the right type panics if and only if a segment that it needs has one of the three stated forms.", "quantifier": "all files that open with declared addresses below 2^63, and cuts of files; all channels, types of fixed size, starts and non-empty buffers", "why_tests_cant": "which fault comes first depends on the layouts, types and sizes of all segments, on the start and the room, and on the place of the cut", "anchors": ["src/lib.rs: read_channel_from", "src/raw_data/mod.rs", "src/raw_data/contigious_multi_channel_read.rs", "src/raw_data/interleaved_multi_channel_read.rs", "src/raw_data/records.rs"]}
{"id": "C75", "title": "Exactly what a read of several channels stores, and exactly when that is right", "statement": "For every layout of the segments, every list of channels (also with repetitions), start and buffers of any sizes, and for every type of fixed size, a joint read that can be served stores the values of places in cells of the buffers that follow from the layouts and sizes alone, and nothing else. It is right for all contents of the raw data if and only if every cell gets the place of its sample.", "quantifier": "all files that open, lists of channels, types of fixed size, starts, lists of buffers, and contents of the raw data", "why_tests_cant": "what is stored depends on the layouts of all segments, on the order of the channels in them, and on the sizes of all buffers together; the converse speaks about all contents", "anchors": ["src/file/channel_reader.rs: read_channels_from, execute_read_plan", "src/raw_data/contigious_multi_channel_read.rs", "src/raw_data/interleaved_multi_channel_read.rs", "src/raw_data/records.rs"]}
{"id": "C76", "title": "A joint read never stores a value of another channel", "statement": "After a successful read of several channels every cell of every buffer holds what it held before, or a sample of the channel that the buffer was given for.", "quantifier": "all files that open, lists of channels, types of fixed size, starts and lists of buffers", "why_tests_cant": "a joint read can store the wrong samples in many ways; that none of them mixes channels is a statement about all layouts and sizes", "anchors": ["src/file/channel_reader.rs: read_channels_from", "src/raw_data/records.rs", "src/raw_data/contigious_multi_channel_read.rs", "src/raw_data/interleaved_multi_channel_read.rs"]}
{"id": "C77", "title": "How every read of several channels ends", "statement": "For every file that opens, also one that was cut, every list of channels (also with repetitions), type of fixed size, start and list of buffers (also without room), it is settled how the joint read ends: with the first fault among the segments that it gets to, in their order, and if there is none with the values of the places of C75. The faults of a segment are: a channel of a type that cannot be read as the wanted one (the first one in the order of the buffers that still have room); in contiguous data a chunk of 2^64 bytes or more, a chunk of no bytes, and a first channel without values (panics; the last one not if all buffers are full and samples are to be skipped); in interleaved data rows of no bytes, and 2^63 bytes or more to skip (panics); and a value that is read not completely inside the file (end of file), where in interleaved data all channels are read in all rows, and one row more than is stored. There are no other errors. So a joint read of a cut file fails or stores what the file held before it was cut; and a read into a buffer without room panics in exactly stated cases.", "quantifier": "all files that open with declared addresses below 2^63, and cuts of files; all lists of channels, types of fixed size, starts and lists of buffers", "why_tests_cant": "which fault comes first depends on the layouts, types and sizes of all segments, on the order of the channels, on the progress that the buffers share, and on the place of the cut", "anchors": ["src/file/channel_reader.rs: read_channels_from, execute_read_plan", "src/raw_data/mod.rs", "src/raw_data/contigious_multi_channel_read.rs", "src/raw_data/interleaved_multi_channel_read.rs", "src/raw_data/records.rs"]}
{"id": "C78", "title": "What a sync has confirmed survives a power failure", "statement": "After sync has returned Ok, everything that was written before it is on the medium: a power failure at any later moment, whatever is called in between and however it fails, leaves it in the file. A power failure leaves the old bytes and a prefix of the new ones, never less than an earlier one would have left. A flush of the stream that fails is reported by sync, and sync can be repeated.", "quantifier": "all files, all histories of writes and syncs, all behaviours of the stream and of its flush, all moments at which the system writes back by itself, all moments of the power failure", "why_tests_cant": "a test cannot cut the power, and the system writes back at moments of its own choice", "anchors": ["src/file/file_writer.rs: sync", "src/io/writer.rs: sync", "src/file/mod.rs: load, create, writer"]}
{"id": "C79", "title": "What an open file keeps in memory is bounded by its size", "statement": "Whatever bytes a file has: if it can be opened, it keeps at most one data block for every 28 bytes of the file, in each block at most one entry for each object, for each channel at most one entry for each block; all names, paths, and properties with their texts together take at most as many bytes as the file, for each segment that it has room for, and at most as many as the file if no metadata reaches into the next segment.", "quantifier": "all byte strings that can be opened", "why_tests_cant": "a crafted file can describe the same bytes many times over; a test sees the tables of one file", "anchors": ["src/index/mod.rs: Index, ObjectData", "src/index/building.rs: add_segment, insert_data_block", "src/file/mod.rs: build_index"]}
{"id": "C80", "title": "Channels and buffers are paired in order, also when there are not equally many", "statement": "read_channels and read_channels_from fill the buffers of the channels in the order of the lists. With fewer buffers than channels the result is the one with empty buffers for the remaining channels, errors included. With more buffers, the surplus ones are never written to; if the read succeeds the others hold what they hold without them, and if the read without them fails it fails with the same error. Surplus buffers that are empty make no difference at all; one that is not empty can make a read fail that succeeds without it.", "quantifier": "all open files, sample types, lists of channels and of buffers of any lengths, starts", "why_tests_cant": "all combinations of lists and of the blocks in which the channels lie", "anchors": ["src/file/channel_reader.rs: read_channels_from, execute_read_plan, get_block_read_data, get_block_read_data_with_skip"]}
{"id": "C81", "title": "A file can be opened and read while another program appends to it", "statement": "While a file is being opened or read another program may append any bytes to it, between any two operations of the stream. Opening then gives exactly what it gives on the contents as they are at the end of the call; a read gives, in result and buffers, exactly what it gives on the contents at the end of the call, and what it gives on the contents at the beginning if it succeeds on those. Several reads see contents of moments that are in order. Whatever a program that opens a file while it is being written finds in its buffer is a front part of what the same read finds when the file is complete, also when reads are short, interrupted or fail.", "quantifier": "all files, all that is appended in all portions at all moments, all behaviours of the stream, all sizes of the buffer, all channels, sample types, starts and buffers", "why_tests_cant": "the moments at which bytes arrive relative to the operations of a call cannot be controlled or listed by a test", "anchors": ["src/file/mod.rs: build_index, load, TdmsFile", "src/meta_data.rs: Segment::read", "src/io/reader.rs", "src/file/channel_reader.rs: read_channel_from, read_channels_from"]}
{"id": "C82", "title": "One program can watch a file that another is writing", "statement": "One program creates a file and makes any calls that write to it; its bytes reach the file in pieces of any size at any moments. Another program opens the file at any moment and reads from it at any later ones. Opening gives the objects, properties and lengths of the calls that are complete in the file, perhaps with those of the next call, or fails with UnexpectedEof when the next call is incomplete. Whatever a read puts into the buffer is a front part of the values that the writer gives to the channel, from the start asked for; the cells behind it keep what they held. All values of the calls that were complete when the file was opened are delivered, and when all calls that opening has found are complete each read succeeds with exactly their values.", "quantifier": "all histories of calls of the writer, all pieces and moments, all behaviours of the reader's stream, all channels, sample types, starts and buffers", "why_tests_cant": "the interleavings of two programs and the points at which the bytes are cut cannot be listed by a test", "anchors": ["src/file/file_writer.rs: TdmsFileWriter::write_channels, write_properties, sync", "src/file/mod.rs: build_index, load, create", "src/file/channel_reader.rs: read_channel_from", "src/index/mod.rs: Index"]}
{"id": "C83", "title": "Any stream at all: opening and reading end, and buffers are filled from the front", "statement": "Let the stream be any implementation of Read and Seek whose calls return, and are not interrupted for ever: it may give any bytes, other bytes each time, errors of any kind, and ignore where it is told to go. Opening ends: with an error, or with the index of some list of segments that a file could have held, or with an overflow panic, and that only after a segment that declares its raw data to begin at address 2^64 or later. A read with an index that was made in this way, from the same or another stream, ends: with success, with an error, or with a panic by overflow or division by zero; without a panic when the sizes declared for the channel's blocks do not overflow and the first channel of contiguous blocks has values. After a read of one channel a front part of the buffer is written and the cells behind are as they were; buffers of different lengths get front parts of one sequence. Joint reads keep the lengths of the buffers. For streams that hold a file this is the behaviour described by the other properties.", "quantifier": "all implementations of a stream and all their states, all sizes of the buffer, all allocators, channels, lists of channels, sample types, starts and buffers", "why_tests_cant": "the behaviours of an arbitrary stream cannot be enumerated", "anchors": ["src/file/mod.rs: build_index, load", "src/io/reader.rs", "src/meta_data.rs: Segment::read", "src/file/channel_reader.rs: read_channel_from, read_channels_from", "src/index/mod.rs: Index"]}
{"id": "C84", "title": "Sample types of one's own", "statement": "Let a program implement the trait for sample types for a type of its own. If the implementation takes the place of one of the library's numeric types (same data type and size, it reads and writes so many bytes, and reads what it writes), then: writing values of it makes the same file as writing the library's values with the same bytes; reading a channel as the type delivers what reading it as the library's type does, converted; values that are written to a new file, between any other calls, are read back in the same session, with the length reported; and readers of the library's type see the values with the same bytes. Any implementation that returns values or errors, whatever it reads, and has a size from 1 to 24 bytes makes reads end without a panic; data of other types than it supports are refused. An implementation with another size in memory than in the file has reads that succeed and deliver nothing, and one without a size makes reads panic.", "quantifier": "all implementations of the trait, all histories of calls, all channels, starts and buffers", "why_tests_cant": "the implementations are written by users, and there is no end of them", "anchors": ["src/io/data_types/mod.rs: TdmsStorageType", "src/file/file_writer.rs: write_channels", "src/file/channel_reader.rs: read_channel_from, read_channels_from", "src/raw_data/write.rs"]}
{"id": "C85", "title": "Any stream at all: writing, and the whole life of a file", "statement": "Let the stream be any implementation of Read, Write and Seek that returns: writes may accept any number of bytes or fail in any way, what is accepted may be lost, and what is read may be anything. A file was opened through any stream. Whatever is then done with it (reads, and writers that are made, used and dropped, in any order), all calls end, with success, an error, or a panic by overflow or division by zero. A write returns an I/O error or what it would return on a perfect stream after the writes that did not end with one; a sync returns Ok or an I/O error. The index, and so the objects, properties and lengths that the file shows, is what these writes make of it. What the stream accepts is made of the bytes of the segments in order, none twice and none from elsewhere; if no write fails it is the beginning of what a perfect stream gets, and after a sync that returns Ok it is all of that. On a stream that keeps what it is given everything is as on a perfect stream. What any stream does to the writer is what a stream does that keeps what it accepts and follows a list of outcomes, so the properties of those hold for all streams.", "quantifier": "all implementations of a stream and all their states, all interference with the stream, all sizes of the buffers, all sequences of reads and of writers with calls", "why_tests_cant": "the behaviours of an arbitrary stream cannot be enumerated, and errors can happen at every operation", "anchors": ["src/file/mod.rs: writer, TdmsFile", "src/file/file_writer.rs: write_channels, write_properties, sync", "src/io/writer.rs: write_segment, LittleEndianWriter", "src/file/channel_reader.rs: read_channel_from, read_channels_from", "src/index/building.rs: add_segment"]}
{"id": "C86", "title": "Strings never contain memory that was not written", "statement": "Strings are read into a buffer that is not initialised (the only unsafe block). While a file is opened and read in any way, over any stream implemented without unsafe: a stream that never claims to have put bytes into the buffer which it has not leads to no value with a byte that was never written; the stream is passed such bytes only in the rest of a string that is at least as long as the buffer of the BufReader (8192 bytes), and never while values other than strings are read; so if so long strings are refused, no stream can do harm. A stream that puts into the buffers what it gives has exactly the outcomes of C83. (For a stream that claims more than it did the claim is false: an 8192 byte path that a stream only claims to have read becomes a string of memory that was never written.)", "quantifier": "all implementations of Read + Seek without unsafe, all file contents, all sequences of reads, all string lengths", "why_tests_cant": "what uninitialised memory holds, and what a stream does with its buffer, is not under the control of a test; memory is usually zero or plausible", "anchors": ["src/io/data_types/strings.rs: read_string_with_length", "src/io/reader.rs: BigEndianReader, LittleEndianReader", "src/meta_data.rs: Segment::read", "src/file/mod.rs: build_index", "src/file/channel_reader.rs: read_channel_from, read_channels_from"]}
{"id": "C87", "title": "The message of an error tells what is wrong", "statement": "Two errors print the same message exactly when they are the same error about the same thing: whatever the paths, type codes, bytes and lengths are, the text tells which error it is, and the path, the types in their order, the code, the first bytes or the lengths it is about. Only the cause of an I/O error (given as its source) and the number of a data block are not in the text. The printed names of the data types are distinct.", "quantifier": "all errors, with any paths, type codes, bytes and lengths", "why_tests_cant": "the messages carry unbounded text (paths, which may contain anything) and numbers; that no two run into each other is a statement about all of them", "anchors": ["src/error.rs: TdmsError", "src/io/data_types/mod.rs: Display for DataType", "src/paths.rs: Display for PropertyPath, Display for ChannelPath"]}
{"id": "C88", "title": "The library is a store", "statement": "Take a program that works on a new file through the API: it writes tables of samples and properties (some of its calls may be rejected), asks for properties, lengths, samples of one or several channels, groups and channels, and closes the file and opens it again, in any order and as often as it likes. Every reply is that of a simple store that knows nothing of files: objects are there once something was written to them; a property has the value it was last given; a channel has the samples that were written to it, in order; a read puts them into the buffer from the wanted one on and leaves the rest alone, and is refused with the two types if they are of another type (bytes can be read as booleans); what is not there is reported as missing; listings are complete, sorted and without repetitions; a rejected call changes nothing; closing and opening changes nothing. The replies are determined by the store.", "quantifier": "all programs whose calls meet the limits of C31 (and of C32 if they open the file again, C16 and C17 if they list, C37 if they read together), of any length, with all their replies", "why_tests_cant": "programs are unbounded interleavings of calls, and every reply depends on all calls before it", "anchors": ["src/file/mod.rs: TdmsFile::create, load, read_property, read_all_properties, list_groups, list_channels_in_group", "src/file/file_writer.rs: write_channels, write_properties", "src/file/channel_reader.rs: channel_length, read_channel_from, read_channels_from", "src/index/mod.rs: Index"]}
{"id": "C89", "title": "The library is a store, over slow and failing streams too", "statement": "Take a program as in C88 that works on a new file over a stream: it takes writers (each with a buffer of any size), writes with them, forces data out, drops them, asks questions, closes the file and opens it again wherever the stream stands. The stream may return fewer bytes than asked for, accept fewer than offered, interrupt operations, and its reads and seeks may fail. Every reply is that of the store of C88, or the very error with which the first failing operation of the stream failed during that command; in the latter case the command has had no effect, and all later replies are as if it had not been given.", "quantifier": "all programs within the limits of C88, of any length, with any behaviour of the stream in every operation, except that writes do not fail and that the stream does not fail while the file is opened again", "why_tests_cant": "programs, buffer sizes and the behaviour of the stream in each operation are unbounded, and a failure may come at any operation", "anchors": ["src/file/mod.rs: TdmsFile::new, create, load, writer, read_property, read_all_properties", "src/file/file_writer.rs: TdmsFileWriter::new, write_channels, write_properties, sync", "src/file/channel_reader.rs: read_channel_from, read_channels_from", "src/io/reader.rs: LittleEndianReader, BigEndianReader"]}
{"id": "C90", "title": "The library is a store, on files that exist too", "statement": "Open a file that is there already, written by this library or by other software, and run a program on it as in C88, or over a slow and failing stream as in C89: calls that write (more samples of the channels of the file, new channels, properties), questions, closing and opening again. Every reply is that of a store which at the beginning holds what the segments of the file say: the objects they list, the last value of each property, and for each channel the samples of its segments in order.", "quantifier": "all files of segments with regular raw data of one ordinary type per channel, and all programs on them, of any length, within the limits of C45, C32, C16, C17 and C37", "why_tests_cant": "the file, the program and the behaviour of the stream are all unbounded, and what each reply should be depends on all of them", "anchors": ["src/file/mod.rs: TdmsFile::load, new, build_index, read_property, read_all_properties, writer", "src/file/file_writer.rs: TdmsFileWriter::write_channels, write_properties", "src/file/channel_reader.rs: read_channel_from, read_channels_from, channel_length", "src/index/building.rs: Index::add_segment"]}
{"id": "C91", "title": "The library is a store that survives crashes", "statement": "Run a program on a new file as in C88, or on a file that exists as in C90, and let the process die at any points, and the file be opened again after each. Then all replies are those of a store which, when the process dies, falls back to a state it had since the last sync (or since the file was opened), and goes on from there: nothing that was synced is lost, what comes back is the state between two calls, never a mixture, and questions and calls after the crash are answered from that state.", "quantifier": "all programs of calls (accepted and rejected), questions, reopenings, syncs and crashes, in any order and number, within the limits of C88 and C90, where each crash leaves whole calls, or whole calls and less than a tag of the next", "why_tests_cant": "a test has one history and one crash point; the promise is about every history, every number of crashes and everything that is asked and written after them", "anchors": ["src/file/mod.rs: TdmsFile::load, create, build_index, sync", "src/io/writer.rs: TdmsWriter::write_segment, sync", "src/file/file_writer.rs: TdmsFileWriter::write_channels, write_properties, sync", "src/index/mod.rs: Index::add_segment"]}
{"id": "C92", "title": "A program that watches a file asks a store", "statement": "One program fills a new file with this library, or goes on with a file that exists, as in C90, while another has the file open, asks questions and opens the file again now and then. Whatever way the calls of the two overlap, every answer the second one gets is that of the store after the first i calls of the writer (C88, C90), where i is fixed until the file is opened again and never falls. Opening finds the calls that are complete in the file at its end, and the next one too if its header and metadata are there; if the file ends before that, opening fails with UnexpectedEof and the program keeps what it had. Only a read of samples of a call that is not complete can fail, with UnexpectedEof; any other result of a read is final, whatever is appended later.", "quantifier": "all histories of the writer within the limits of C88 and C90, all cuts of its bytes into pieces and moments of their arrival (also within a call of the reader), all programs of questions, reopenings and waiting, all buffer capacities, and streams with short and interrupted reads", "why_tests_cant": "a test shows one interleaving of a writer and a reader; the promise is about all of them, and about all questions in each", "anchors": ["src/file/mod.rs: TdmsFile::load, build_index", "src/file/channel_reader.rs: read_channel_from, read_channels_from", "src/meta_data.rs: Segment::read", "src/index/building.rs: Index::add_segment", "src/raw_data/contigious_multi_channel_read.rs: MultiChannelContiguousReader::read", "src/raw_data/interleaved_multi_channel_read.rs: MultiChannelInterleavedReader::read"]}
{"id": "C93", "title": "Several handles on one file share a store", "statement": "A file can be opened several times at once. If every handle that writes samples was opened after the last time another handle wrote samples, then all handles together behave as one store (C88): every call succeeds or is rejected as the store says, whichever handle makes it, and is made on top of all that the others have written, so that a handle that is opened sees all of it; properties can be written with any handle, however old. A handle answers every question as the store was when it last saw the whole file: when it was opened, or when it made its own last call, if no other handle had made one in between. Only a handle that writes behind the back of another one has no true picture of the file until it is opened again.", "quantifier": "all numbers of handles and all interleavings of their calls, questions and reopenings, within the limits of C88, call by call", "why_tests_cant": "a test shows one interleaving of two handles; what is lost or misattributed depends on which handle wrote which channel list last", "anchors": ["src/file/mod.rs: TdmsFile::load, writer", "src/file/file_writer.rs: TdmsFileWriter::write_channels, write_properties", "src/index/writing.rs: Index::check_write_values", "src/index/building.rs: Index::add_segment"]}
{"id": "C94", "title": "A file can be copied through the library", "statement": "Read all there is in an open file with the calls of the library (list the groups, list the channels of each group, read all properties of the file, of each group and of each channel, read the samples of each channel into a buffer of its length), and write it to a new file with the calls of the library, properties object by object and samples channel by channel. Then no call fails, and the copy answers every question as the file does: it has the same objects and no others, every property has its value, and every channel its samples, in order. The copy can be closed and opened again and is then the same, even if the file itself, still open after it was written, could not be opened again. Different channels of the copy can be read together in any way.", "quantifier": "all histories of calls that make a file, and all files written by others, within the limits of C88 and C90; all objects, properties and samples in them; all initial contents of the buffers", "why_tests_cant": "a test copies one file; that nothing is forgotten or invented has to hold for every combination of objects, properties and segments", "anchors": ["src/file/mod.rs: TdmsFile::read_all_properties, list_groups, list_channels_in_group, writer", "src/file/channel_reader.rs: TdmsFile::channel_length, read_channel", "src/file/file_writer.rs: TdmsFileWriter::write_channels, write_properties", "src/paths.rs: PropertyPath, ChannelPath"]}
{"id": "C95", "title": "One file can be appended to another through the library", "statement": "Read all there is in an open file with the calls of the library, as in C94, and write it with the calls of the library to another open file, which has content of its own. Then no call fails, and the second file has the content of both: the objects of both and no others; every property of either, with the value of the appended file where both have one; and in each channel the samples it had and after them those of the appended file, in order. It can be closed and opened again and is then the same. If both were made by calls of the library, the result answers as if the calls that made the second had been made after those that made the first.", "quantifier": "all pairs of files within the limits of C88 and C90, written by the library or by others; all objects, properties and samples in them; a file and itself", "why_tests_cant": "a test joins two files; that nothing is lost, overwritten or mixed up has to hold for every pair of files, whatever they share", "anchors": ["src/file/mod.rs: TdmsFile::read_all_properties, list_groups, list_channels_in_group, channel_length, writer", "src/file/channel_reader.rs: TdmsFile::read_channel", "src/file/file_writer.rs: TdmsFileWriter::write_channels, write_properties", "src/index/writing.rs: Index::check_write_values"]}
{"id": "C96", "title": "Two files joined byte for byte are one file with the content of both", "statement": "Put the bytes of one file after those of another (the second begins a new list of channels before its first raw data, as every file of the library does). The result opens, and has the content of both: the objects of both and no others; every property of either, with the value of the second file where both have one; in each channel the samples of the first file and after them those of the second. It can be read, written to and opened again like any other file. If both files were made by calls of the library, the joined file answers as if the calls that made the second had been made after those that made the first, on one file.", "quantifier": "all pairs of files within the limits of C90, written by the library or by others; all objects, properties and samples in them; all later calls on the joined file", "why_tests_cant": "a test joins two files; that what segments of the second file mean does not change behind the first has to hold for every pair", "anchors": ["src/index/building.rs: Index::add_segment, update_or_activate_data_object, deactivate_all_objects", "src/file/mod.rs: TdmsFile::new, build_index", "src/raw_data/mod.rs: DataBlock::from_segment", "src/file/file_writer.rs: TdmsFileWriter::write_channels, write_properties", "src/index/writing.rs: Index::check_write_values"]}
{"id": "C97", "title": "Exactly which tables can be written one after the other", "statement": "Take a history of calls on a new file that write properties and tables of samples (at least one channel, all different, the same number of samples for each, at least one, of an ordinary type: not strings, timestamps or extended floats), with one type per channel. Say that a table fits if it is the first, or its list of channels differs from that of the last table at a position that both lists have, or if it goes to the same list with the same type and as many samples per channel as when the list was last changed, or, if there is one channel or the samples are interleaved, a multiple of that. Then at every point of the history, whatever the samples, everything written so far can be read back in full and in order, if and only if all tables fit. So a program that keeps to the rule loses nothing, and for every history that breaks it there are samples that are not read back.", "quantifier": "all histories of property writes and tables on a new file of less than 2^63 bytes; all values; all points of the history", "why_tests_cant": "both directions quantify over all histories and values: no test shows that a rule is sufficient, and none that it cannot be relaxed", "anchors": ["src/index/writing.rs: Index::check_write_values", "src/index/building.rs: Index::add_segment", "src/file/file_writer.rs: TdmsFileWriter::write_channels", "src/raw_data/mod.rs: DataBlock::from_segment"]}
{"id": "C98", "title": "Exactly which files can be closed and opened again", "statement": "Take a history as in C97. Every program that makes its calls up to any point and with any samples, asks what it likes about one object at a time and closes and opens the file again when it likes, gets from the library the answers of a store that keeps everything (C88), if and only if each table but the first goes to a list of channels that differs from that of the last table at a position that both lists have. The same holds when the calls are made on a file that exists already, whoever wrote it, where the first table has to differ in this way from the last list of channels of that file, and over a stream with short and interrupted reads and writes, in whatever sessions of writers the calls are made.", "quantifier": "all histories of property writes and tables within the limits of the format (names without slashes, files of less than 2^63 bytes); all values; all programs; all existing files as in C90; all streams as in C89", "why_tests_cant": "the rule and its being necessary are statements about all histories and all programs", "anchors": ["src/index/writing.rs: Index::check_write_values", "src/index/building.rs: Index::add_segment, update_or_activate_data_object", "src/file/mod.rs: TdmsFile::new, build_index, writer", "src/meta_data/mod.rs: ObjectMetaData::write, RawDataIndex"]}
{"id": "C99", "title": "Exactly which crashes a file survives", "statement": "Calls within the limits of C88 (or of C90, on a file that exists) are made, and a crash leaves the first bytes of what they have written. What is left can be opened and answers every question as some store does, if and only if it consists of whole calls and fewer than the 4 bytes of a segment tag behind them; and then it answers as the store of just these calls. And for a history of tables, every such crash is survived, for all samples, if and only if each table but the first (on a file that has no data) goes to a list of channels that differs from that of the last at a position that both lists have.", "quantifier": "all histories of calls within the limits; all crash points; all values; all existing files as in C90", "why_tests_cant": "crash points and histories are unbounded; a test of one crash point says nothing about the next byte", "anchors": ["src/file/mod.rs: build_index", "src/meta_data/mod.rs: Segment::read", "src/file/file_writer.rs: TdmsFileWriter::write_segment", "src/index/building.rs: Index::add_segment"]}
{"id": "C100", "title": "Exactly which recordings can be watched while they are written", "statement": "A program has a file open for reading, or opens it, while another one is making the calls of a history of tables on it, whose bytes arrive in pieces of any size at any moments. Whatever it asks about one object at a time, and whenever it opens the file again, it is answered as C92 says (as the store of the calls that had arrived whole when it opened the file; what is then only in part there gives an error), for all samples and up to any point of the history, if and only if each table goes to a list of channels that differs from that of the last table at a position that both lists have. The same holds when the history is made on a file that existed before.", "quantifier": "all histories of property writes and tables within the limits of the format; all values; all divisions of the bytes into pieces and all moments of their arrival; all programs of the reader; all existing files as in C90", "why_tests_cant": "interleavings of a writer and a reader, byte by byte, cannot be enumerated", "anchors": ["src/file/mod.rs: TdmsFile::new, build_index", "src/file/channel_reader.rs: TdmsFile::read_channel", "src/index/building.rs: Index::add_segment", "src/file/file_writer.rs: TdmsFileWriter::write_segment"]}
{"id": "C101", "title": "Exactly which files can be copied and appended through the library", "statement": "Within the limits of C88 (for files made by the library) and C90 (for others), the program of C94 makes a true copy of a file, and no call of it fails, if and only if no object of the file has a slash in a name. When it is used to append one file made by the library to another, everything that both held and that has been copied so far can be read back after each of its calls, whatever the samples, if and only if the first channel it writes differs from the first of the list last written to the other file, or is the only channel of that list, with the same type, and gets a multiple of the number of samples it got when the list was last changed.", "quantifier": "all pairs of histories, and all existing files, within the limits; all samples and properties in them", "why_tests_cant": "all contents of both files; that the rule is necessary too is a statement about every file that breaks it", "anchors": ["src/paths.rs: parse_path, PropertyPath, ChannelPath", "src/file/mod.rs: TdmsFile::list_groups, list_channels_in_group, read_all_properties", "src/file/channel_reader.rs: TdmsFile::read_channel", "src/file/file_writer.rs: TdmsFileWriter::write_channels, write_properties", "src/index/writing.rs: Index::check_write_values"]}
{"id": "C102", "title": "Exactly which values a channel gives back", "statement": "Write any number of values, at least one, of any type the library can store, to one channel of a new file. The channel then has as many samples as values were written, and reading them gives these values, if and only if the type is neither timestamp nor string, and each value fits the storage of its type (all values do, except that extended floats are stored in 80 bits). As a value of its own, for instance as a property, an extended float is read back if and only if it fits into 80 bits, and a string if and only if its UTF-8 form has less than 2^32 bytes.", "quantifier": "all storage types, all lists of values, both byte orders, both layouts, all channels, up to 2^63 bytes", "why_tests_cant": "all values of all types", "anchors": ["src/raw_data/write.rs: WriteBlock, MultiChannelSlice", "src/io/data_types/mod.rs: TdmsStorageType, DataType::size", "src/file/channel_reader.rs: TdmsFile::read_channel"]}
{"id": "C103", "title": "Exactly to which files data can be appended", "statement": "Open a file, whatever is in it, and make calls that return Ok. Whatever is then written to a channel the file does not have yet is read back (the write succeeds, the channel has as many samples as were written, and reading gives these values), if and only if the file ends where its last segment, as the index has it, ends. For a file that has just been opened this means: no bytes are missing from its last segment, and none follow it.", "quantifier": "all byte strings that can be opened, all calls on them that succeed, all later writes of ordinary types; sizes far from 2^63", "why_tests_cant": "all openable files; a file with trailing bytes looks fine until it is appended to and read", "anchors": ["src/file/mod.rs: TdmsFile::writer, build_index", "src/index/building.rs: Index::add_segment", "src/raw_data/mod.rs: DataBlock::from_segment"]}
{"id": "C104", "title": "Exactly which histories several handles can share", "statement": "A file is open in any number of handles. Together they make the calls of a history of tables as in C97, up to any point and with any samples; whenever a handle writes samples, it has been opened since another one last wrote samples. They ask what they like about one object at a time, and open the file again when they like. However the calls are distributed among the handles, the replies are those of one shared store as in C93, if and only if each table but the first goes to a list of channels that differs from that of the last table at a position that both lists have. The same holds on a file that exists already, as in C90, where the first table has to differ in this way from the last list of channels of the file.", "quantifier": "all histories of property writes and tables within the limits of the format; all values; all numbers of handles and distributions of the calls among them; all questions and reopenings in between; all existing files as in C90", "why_tests_cant": "interleavings of handles and contents are unbounded, and both directions are claimed", "anchors": ["src/file/mod.rs: TdmsFile::load, TdmsFile::writer", "src/index/writing.rs: Index::check_write_values", "src/index/building.rs: Index::add_segment", "src/file/file_writer.rs: TdmsFileWriter::write_channels"]}
{"id": "C105", "title": "A file with unsupported content is never opened", "statement": "If somewhere in a file, behind segments that can be read, the metadata of a segment has an object with a path, a property name or a string value that is not UTF-8, with a DAQmx raw data index, with an unknown type code, or with a property of a type that is not supported, then opening the file fails with the error for that content, whatever the flags and lengths of the segment say and whatever follows. Data of such a file is never offered in part.", "quantifier": "all files made of readable segments, a lead-in, readable objects and one such object, followed by any bytes, in both byte orders", "why_tests_cant": "C13 is about single items; here the place in the file, the objects before it and the bytes behind it are arbitrary", "anchors": ["src/file/mod.rs: TdmsFile::new", "src/index/building.rs: Index::add_segment", "src/meta_data.rs: Segment::read, MetaData::read, ObjectMetaData::read, RawDataIndex::read", "src/properties.rs: PropertyValue::read"]}
{"id": "C106", "title": "Opening does not depend on sample values", "statement": "Whether a file opens, which error is given otherwise, and what the file then answers to every question that is not about sample values (groups, channels, properties, lengths of channels), does not depend on the sample data in it: other bytes may stand in its place, and at the end of the file it may be missing. The same calls of the library with other sample values have the same results.", "quantifier": "all pairs of files with the same headers and metadata sections, whatever their bytes; all pairs of histories that differ in sample values only, on all files", "why_tests_cant": "all contents of the data, of which there are astronomically many for a file of any size", "anchors": ["src/file/mod.rs: TdmsFile::new, build_index", "src/io/reader.rs: read_segment", "src/meta_data.rs: Segment::read", "src/index/building.rs: Index::add_segment", "src/file/file_writer.rs: TdmsFileWriter::write_channels"]}
{"id": "C107", "title": "Which bytes of a file a read depends on", "statement": "A read of a channel, or of several at once, that can be served depends on the bytes at the places that C73 and C75 give, as many as the buffers take, on every one of these bytes, and on nothing else: overwriting certain positions of the file in any way has no influence on what is read if and only if none of them is in such a place. Where the read is right, these are the bytes of the samples that were asked for; so the samples of other channels, and other samples of the same channel, can be overwritten in place.", "quantifier": "all files and layouts, all sets of positions and all bytes put there, all starts and buffers, all types of fixed size", "why_tests_cant": "all contents at all positions of all files", "anchors": ["src/file/channel_reader.rs: TdmsFile::read_channel_from, read_channels_from", "src/raw_data/contigious_multi_channel_read.rs: MultiChannelContiguousReader", "src/raw_data/interleaved_multi_channel_read.rs: MultiChannelInterleavedReader"]}
{"id": "C108", "title": "Each call returns only errors of its kind", "statement": "Opening any bytes fails only with an error about the bytes or about memory: the bytes end early, the tag of a segment is missing (the error carries the four bytes that were there), text is not UTF-8, a type code is unknown (the error carries the code) or its type is unsupported, DAQmx data, memory that is refused, a reference to a previous layout that there is not, raw data without channels, a raw data offset that is not in the segment, raw data of size zero, sizes that do not fit 64 bits; each of these occurs. A read fails only because one of the asked channels has no data in the file (the error names that channel), because samples of an asked channel are stored with a type that cannot be read as the wanted one (the error names both types), because a position is not in the file, or, for strings, because of the text or of memory. Writing values fails with NoChannels exactly when no channel is given, with BadDataBlockLength exactly when the values cannot be divided evenly, with ZeroLengthDataBlock only when there is nothing to write, and otherwise only because sizes do not fit 64 bits; writing properties fails only for the last reason. The other errors of the library are never returned by these calls.", "quantifier": "all byte strings, all memory limits, all states of a session, all types, channels, starts, buffers and arguments", "why_tests_cant": "all inputs and all histories: that an error is never returned cannot be seen from examples", "anchors": ["src/error.rs: TdmsError", "src/file/mod.rs: TdmsFile::new, build_index", "src/index/building.rs: Index::add_segment", "src/file/channel_reader.rs: TdmsFile::read_channel_from, read_channels_from", "src/file/file_writer.rs: TdmsFileWriter::write_channels, write_properties"]}
