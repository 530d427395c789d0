{"id": "C01", "title": "Block checksum is CRC-16/CCITT", "statement": "The checksum computed over a byte string with a given start value is the CRC register obtained by feeding the string bit by bit (most significant bit first) through the polynomial 0x1021, with no reflection and no final XOR; the generated lookup table introduces no deviation.", "quantifier": "every 16-bit start value and every byte string of any length", "why_tests_cant": "tests compare a handful of strings; the table has 256 entries and strings are unbounded", "anchors": ["build.rs: make_crcccitt_tab", "src/crc_ccitt.rs: crc_ccitt_generic", "src/sbx_block/crc.rs: sbx_crc_ccitt"]}
{"id": "C02", "title": "Checksum detects every short burst of corruption in a block", "statement": "If a block is accepted as valid and its uid/sequence-number/payload region is altered by any nonzero error pattern whose altered bits all lie within 16 consecutive bits, the altered block is rejected. The same holds when only the stored checksum field is altered, and when only the version byte is altered to another version of the same block size.", "quantifier": "every version, every valid block, every position and every error pattern of span at most 16 bits", "why_tests_cant": "the number of (block, position, pattern) combinations is astronomically large", "anchors": ["src/sbx_block/mod.rs: Block::sync_from_buffer, calc_crc, enforce_crc", "src/sbx_block/header.rs: calc_crc", "src/crc_ccitt.rs: crc_ccitt_generic"]}
{"id": "C03", "title": "Header bytes round trip", "statement": "Writing a header and parsing the 16 bytes gives back the same version, checksum, uid and sequence number; parsing succeeds exactly for 16-byte buffers that start with 'SBx' and a known version byte, and re-writing a parsed header gives back the same 16 bytes.", "quantifier": "every header value and every 16-byte buffer", "why_tests_cant": "2^96 header values", "anchors": ["src/sbx_block/header.rs: Header::to_bytes, Header::from_bytes, parsers::header_p"]}
{"id": "C04", "title": "Metadata fields round trip", "statement": "A list of metadata fields that fits in the block payload is read back as the same list, in the same order, after being written to a metadata block, whatever the field values are.", "quantifier": "every list of metadata fields and every payload size", "why_tests_cant": "field values (strings, 64-bit numbers, digests), their order and their count are unbounded", "anchors": ["src/sbx_block/metadata.rs: to_bytes, single_to_bytes, from_bytes, parsers::meta_p, filter_invalid_metadata"]}
{"id": "C05", "title": "Metadata writing fails exactly when the fields do not fit", "statement": "Writing fields into a payload succeeds if and only if the sum of the field sizes (4 bytes of preamble each plus content) is at most the payload size; on success the payload is the concatenation of the fields followed by 0x1A padding.", "quantifier": "every list of metadata fields and every payload size", "why_tests_cant": "boundary depends on an unbounded sum of field sizes", "anchors": ["src/sbx_block/metadata.rs: to_bytes, single_to_bytes, single_meta_size"]}
{"id": "C06", "title": "Parsing arbitrary metadata bytes yields only sane fields", "statement": "Parsing any payload terminates without error; every Reed-Solomon shard count it returns is at least 1, the first data shard count and first parity shard count together never exceed 256, names are valid UTF-8 and non-empty and at most 255 bytes long, and digests have the length their type requires.", "quantifier": "every byte string", "why_tests_cant": "arbitrary corrupted input; fuzzing only samples", "anchors": ["src/sbx_block/metadata.rs: from_bytes, parsers::meta_p, filter_invalid_metadata", "src/multihash.rs: parsers::multihash_w_len_p"]}
{"id": "C07", "title": "Multihash encoding round trip", "statement": "Encoding a digest of any supported hash type and parsing it back gives the same digest and the same (canonical) hash type, and no digest encoding can be mistaken for one of another type.", "quantifier": "every hash type and every digest of the right length", "why_tests_cant": "digest space is 2^128 .. 2^512", "anchors": ["src/multihash.rs: hash_bytes_to_bytes, specs::Param, parsers::multihash_w_len_p"]}
{"id": "C08", "title": "Block write/read round trip", "statement": "A data or metadata block written to a buffer is accepted when read back and yields the same version, uid, sequence number, and (for metadata) the same fields, while its payload bytes are unchanged for data blocks.", "quantifier": "every version, uid, sequence number, payload, and well-formed metadata list", "why_tests_cant": "payloads and headers form an enormous space", "anchors": ["src/sbx_block/mod.rs: Block::sync_to_buffer, Block::sync_from_buffer"]}
{"id": "C09", "title": "A buffer is accepted as a block exactly when it is well formed", "statement": "A buffer is accepted if and only if it starts with 'SBx', a known version byte, passes the caller's header predicate, and its stored checksum equals the checksum of version, uid, sequence number and the payload of that version's block size. Bytes after the block are irrelevant; the version is read from the buffer, not assumed.", "quantifier": "every buffer at least as long as the block size, every predicate", "why_tests_cant": "negative space (everything that must be rejected) cannot be enumerated", "anchors": ["src/sbx_block/mod.rs: Block::sync_from_buffer, sync_from_buffer_header_only, enforce_crc"]}
{"id": "C10", "title": "Blocks never collide in the container", "statement": "Two different data/parity blocks are never written to the same place, no data/parity block is written over a metadata copy, and the metadata copies are at pairwise different places.", "quantifier": "every data/parity/burst setting (burst 0 included), every pair of sequence numbers", "why_tests_cant": "parameters and sequence numbers up to 2^32 with interleaving; tests sample", "anchors": ["src/sbx_block/mod.rs: calc_data_block_write_index, calc_data_block_write_pos, calc_meta_block_all_write_indices"]}
{"id": "C11", "title": "Position to sequence number is the inverse of sequence number to position", "statement": "The sequence number computed for a container index is the unique one whose block is written at that index, and 0 exactly for metadata positions; every index below any data position is used by some sequence number or metadata copy, so the layout has no hidden permanent gaps.", "quantifier": "every setting, every index", "why_tests_cant": "two independently written 60-line arithmetic functions must agree on all inputs", "anchors": ["src/sbx_block/mod.rs: calc_seq_num_at_index, calc_data_block_write_index"]}
{"id": "C12", "title": "Burst error resistance for data", "statement": "With M data shards, N parity shards and burst level B >= 1: any set of at most N bursts, each destroying at most B consecutive container blocks, destroys at most N blocks of each Reed-Solomon set, so every set stays reconstructible.", "quantifier": "every M, N, B, every Reed-Solomon set, every choice of N burst positions", "why_tests_cant": "the guarantee quantifies over all damage patterns and all positions", "anchors": ["src/sbx_block/mod.rs: calc_data_block_write_index", "SBX_FORMAT.md"]}
{"id": "C13", "title": "Burst error resistance for metadata", "statement": "With N parity shards and burst level B, any N bursts of at most B consecutive blocks leave at least one of the 1+N metadata copies untouched (for B = 0, N single-block losses).", "quantifier": "every N, B and every choice of burst positions", "why_tests_cant": "quantifies over all damage patterns", "anchors": ["src/sbx_block/mod.rs: calc_meta_block_dup_write_indices, calc_meta_block_all_write_indices"]}
{"id": "C14", "title": "Data chunks tile the output file", "statement": "The file positions assigned to data blocks are exactly the multiples of the chunk size, each assigned to exactly one non-parity sequence number, in increasing order; parity and metadata blocks are assigned no position.", "quantifier": "every version, shard setting, and sequence number", "why_tests_cant": "2^32 sequence numbers times all shard settings", "anchors": ["src/sbx_block/mod.rs: calc_data_chunk_write_index, calc_data_chunk_write_pos, seq_num_is_parity"]}
{"id": "C15", "title": "Reported container size equals what encoding produces", "statement": "The container size computed from version, settings and file size is one past the last byte the encoder writes for a file of that size, counting metadata copies and the interleaving gaps of an incomplete last super block set.", "quantifier": "every version, setting and file size within the supported maximum", "why_tests_cant": "the last partial interleaved set has size-dependent shape", "anchors": ["src/file_utils.rs: from_orig_file_size::calc_container_size", "src/encode_core.rs: encode_file"]}
{"id": "C16", "title": "Sequence numbers never overflow for files within the advertised maximum size", "statement": "For a file no larger than the advertised maximum, every data, padding and parity block has a sequence number that fits in 32 bits, and the bound is tight up to one block set; the block counts, last sequence number and maximum file size tables are mutually consistent.", "quantifier": "every version and shard setting, every file size up to the maximum (terabytes)", "why_tests_cant": "cannot encode multi-terabyte files in tests", "anchors": ["src/sbx_specs.rs: ver_to_max_block_set_count, ver_to_last_data_seq_num_exc_parity, ver_to_max_data_file_size", "src/file_utils.rs: calc_data_only_and_parity_block_count_exc_burst_gaps", "src/encode_core.rs: encode_file"]}
{"id": "C17", "title": "Byte-range selection is exact", "statement": "For FROM/TO options, the scan starts at FROM clamped to the file and rounded down to the alignment, covers everything up to the requested inclusive or exclusive end clamped to the file, and never reads outside the file.", "quantifier": "every FROM, TO, alignment, file length", "why_tests_cant": "64-bit ranges with clamping and rounding interactions", "anchors": ["src/misc_utils.rs: calc_required_len_and_seek_to_from_byte_range", "src/integer_utils.rs"]}
{"id": "C18", "title": "Hex parsing and printing are inverse", "statement": "Printing bytes in upper or lower case hex and parsing gives the same bytes; parsing accepts exactly even-length strings over 0-9a-fA-F; a uid printed by one command is accepted by another.", "quantifier": "every byte string and every character string", "why_tests_cant": "unbounded strings", "anchors": ["src/misc_utils.rs: hex_string_to_bytes, bytes_to_lower_hex_string, bytes_to_upper_hex_string", "src/cli_macros.rs: parse_uid"]}
{"id": "C19", "title": "Rotating buffers number blocks contiguously", "statement": "When blocks are filled through several rotating buffers, the k-th data chunk handed out gets the k-th non-parity sequence number and parity blocks get the remaining ones of each set, with no gap, overlap or reuse, for any number of buffers, lots per buffer and shard setting; cancelling the last slot exactly undoes taking it.", "quantifier": "every number of buffers/lots, every shard setting, every number of chunks, every sequence of take/cancel operations", "why_tests_cant": "lot counts depend on CPU count; rotation needs millions of blocks to wrap", "anchors": ["src/data_block_buffer/mod.rs: DataBlockBuffer::new, get_slot, cancel_slot, encode, reset; Lot"]}
{"id": "C20", "title": "The multi-threaded pipeline is schedule independent and cannot deadlock", "statement": "For every interleaving of the reader, worker and writer threads over the bounded channels, the buffers are written in the order they were read, each exactly once, no thread blocks forever, and all threads terminate; if a thread fails, the others still terminate.", "quantifier": "every schedule, every number of buffers, any input length", "why_tests_cant": "schedules are not controllable in tests", "anchors": ["src/encode_core.rs: encode_file", "src/decode_core.rs: decode", "src/sort_core.rs: sort_file", "src/misc_macros.rs: worker_shutdown", "src/data_block_buffer/mod.rs"]}
{"id": "C21", "title": "Encode then decode gives back the file", "statement": "Decoding the container produced by encoding a file returns exactly the original bytes and reports a matching hash, for every version and setting.", "quantifier": "every file content and length, every version, uid, shard/burst setting, hash type", "why_tests_cant": "file contents and lengths are unbounded", "anchors": ["src/encode_core.rs: encode_file", "src/decode_core.rs: decode, decode_file"]}
{"id": "C22", "title": "Decoding does not depend on block order, duplicates or foreign blocks", "statement": "Decoding a container gives the same output when its blocks are permuted, valid blocks are duplicated, or blocks of other uids/versions or garbage blocks are inserted at block-aligned places.", "quantifier": "every permutation, duplication and insertion", "why_tests_cant": "factorially many arrangements", "anchors": ["src/decode_core.rs: decode", "src/data_block_buffer/mod.rs: Lot::write, calc_slot_write_pos"]}
{"id": "C23", "title": "Damaged blocks never contaminate decoded output", "statement": "When some blocks are damaged or missing, every byte position belonging to an intact data block is decoded correctly; lost positions are left blank and never receive bytes of other blocks.", "quantifier": "every subset of damaged blocks and every damage that the checksum detects", "why_tests_cant": "exponentially many damage patterns", "anchors": ["src/decode_core.rs: decode", "src/data_block_buffer/mod.rs: Lot::write"]}
{"id": "C24", "title": "Recorded size and hash describe exactly the encoded bytes", "statement": "The size and hash stored in the final metadata are those of the bytes stored in the data blocks (padding and parity excluded), and these bytes are the selected input range.", "quantifier": "every input and byte range", "why_tests_cant": "range ends interact with block boundaries", "anchors": ["src/encode_core.rs: encode_file, pack_metadata"]}
{"id": "C25", "title": "Repair restores the container", "statement": "If every Reed-Solomon set has lost at most as many blocks as there are parity shards and at least one metadata block is intact, repair rewrites the container to be byte-for-byte the originally encoded one.", "quantifier": "every file, setting and every such damage pattern", "why_tests_cant": "damage patterns and file sizes are unbounded", "anchors": ["src/repair_core.rs: repair_file", "src/rs_codec/repairer.rs: RSRepairer::repair_with_block_sync"]}
{"id": "C26", "title": "Repair touches only missing blocks", "statement": "Repair writes only at positions of metadata/data/parity blocks that failed to read as valid, writes nothing for a set that cannot be reconstructed, and so never changes a valid block; on an undamaged container it changes nothing.", "quantifier": "every container content and damage pattern", "why_tests_cant": "all container contents", "anchors": ["src/repair_core.rs: repair_file", "src/rs_codec/repairer.rs"]}
{"id": "C27", "title": "Dry runs change nothing", "statement": "Repair, update with the dry-run flag never write to the container, and report the same statistics as the real run.", "quantifier": "every container and option set", "why_tests_cant": "absence of effects over all inputs", "anchors": ["src/repair_core.rs: repair_file", "src/update_core.rs: update_file, update_metadata_blocks"]}
{"id": "C28", "title": "Metadata update is all or nothing and touches only metadata blocks", "statement": "An update that does not fit in the metadata blocks leaves the container unchanged; a successful update rewrites only the valid metadata blocks, data and parity blocks keep every byte, and each rewritten block then reads back with the requested fields and the other fields unchanged.", "quantifier": "every container, every set of fields to update and remove", "why_tests_cant": "combinations of present/absent fields, damaged copies and sizes", "anchors": ["src/update_core.rs: update_file, update_metadata_blocks", "src/sbx_block/mod.rs: update_metas, remove_metas"]}
{"id": "C29", "title": "Field update and removal semantics", "statement": "After updating a set of fields and removing a set of ids: each updated and not removed field reads back with its new value, removed ids are absent, all other fields keep value and relative order, updates of existing fields are in place and new fields are appended in order.", "quantifier": "every field list, update list and removal list, including duplicates", "why_tests_cant": "unbounded lists", "anchors": ["src/sbx_block/mod.rs: update_meta, update_metas, remove_metas", "BLKAR_SPECS.md"]}
{"id": "C30", "title": "Sorting restores the canonical layout", "statement": "Sorting a container whose blocks were permuted (and possibly duplicated) produces exactly the container the encoder would have produced, when at least one metadata copy is present and the burst level is known (stated; a shuffled file does not show it); sorting a sorted container changes nothing and reports nothing out of order.", "quantifier": "every permutation of blocks and setting", "why_tests_cant": "factorially many permutations", "anchors": ["src/sort_core.rs: sort_file, write_meta_blocks_writer", "src/data_block_buffer/mod.rs"]}
{"id": "C31", "title": "Rescue partitions blocks by uid without loss", "statement": "Rescue appends every aligned valid block (optionally filtered by uid and type) to the file named after its uid, in the order of appearance, bit for bit, and nothing else.", "quantifier": "every disk image", "why_tests_cant": "arbitrary images", "anchors": ["src/rescue_core.rs: rescue_from_file", "src/rescue_buffer/mod.rs", "src/block_utils.rs: read_block_lazily"]}
{"id": "C32", "title": "Interrupted rescue loses no block on resume", "statement": "If rescue is stopped or crashes at any moment and is later resumed from its log, every block that an uninterrupted run would have saved is present in the output files (possibly more than once).", "quantifier": "every crash point, every log-writing schedule, every number of interruptions", "why_tests_cant": "crash points and log timer firings cannot be enumerated", "anchors": ["src/rescue_core.rs: rescue_from_file, Log impl", "src/log.rs", "src/rescue_buffer/mod.rs"]}
{"id": "C33", "title": "Rescue log round trip", "statement": "A written log is read back with the same counters and a resume offset that is at most the processed byte count, 128-byte aligned, and at most 127 bytes earlier.", "quantifier": "every counter value", "why_tests_cant": "64-bit counters", "anchors": ["src/rescue_core.rs: Log serialize/deserialize", "src/log.rs"]}
{"id": "C34", "title": "Reference block selection", "statement": "The reference block chosen is the first valid block of the preferred type in the scanned range, or of the other type only when the preferred one is absent and the choice is not mandatory.", "quantifier": "every container content and preference", "why_tests_cant": "arbitrary content", "anchors": ["src/block_utils.rs: get_ref_block"]}
{"id": "C35", "title": "Scanning sees every aligned block of an archive", "statement": "Scanning a byte stream that is a concatenation of valid blocks (of any versions) and 128-byte-aligned garbage that does not parse as a header yields exactly those blocks, at their positions; in general a block is reported only if it is valid.", "quantifier": "every such stream", "why_tests_cant": "arbitrary interleavings of sizes", "anchors": ["src/block_utils.rs: read_block_lazily, get_ref_block"]}
{"id": "C36", "title": "Burst level guessing is right on intact containers", "statement": "For an intact container with burst level at most 1000 the guessed level reproduces the position of every sampled block; a guess is returned only if some level fits strictly worse.", "quantifier": "every setting and file size", "why_tests_cant": "combinations of settings and file sizes", "anchors": ["src/block_utils.rs: guess_burst_err_resistance_level"]}
{"id": "C37", "title": "Multi-pass without overwriting keeps good data", "statement": "In skip-good mode a later pass never changes a valid block with the right identity (block output) nor a non-blank chunk (data output); it only fills what is missing or blank; passes over two damaged copies combine to the union of their good blocks.", "quantifier": "every sequence of passes and damage patterns", "why_tests_cant": "histories of passes", "anchors": ["src/data_block_buffer/mod.rs: Lot::write", "src/decode_core.rs", "src/sort_core.rs"]}
{"id": "C38", "title": "Check and decode statistics partition the blocks", "statement": "Blocks counted as metadata, data, parity and failed add up to the number of blocks examined; each valid block is counted exactly once in its class.", "quantifier": "every container", "why_tests_cant": "arbitrary content", "anchors": ["src/check_core.rs: check_blocks", "src/decode_core.rs: Stats", "src/sbx_block/mod.rs: is_parity"]}
{"id": "C39", "title": "JSON output is well formed", "statement": "Whatever sequence of nested sections and fields is printed, and whatever the values (file names included), the emitted text is well-formed JSON and values that are strings stay strings.", "quantifier": "every nesting and every field value", "why_tests_cant": "file names are arbitrary strings", "anchors": ["src/json_printer.rs", "src/json_macros.rs", "src/misc_utils.rs: escape_quotes", "src/json_utils.rs"]}
{"id": "C40", "title": "Reading input is insensitive to how the OS splits it", "statement": "Encoding from a pipe consumes the whole input regardless of how many bytes each read call returns.", "quantifier": "every input and every sequence of partial read sizes", "why_tests_cant": "schedules of pipe writers", "anchors": ["src/reader.rs: Reader::read", "src/file_reader.rs: FileReader::read", "src/encode_core.rs: encode_file"]}
{"id": "C41", "title": "Decoding to standard output equals decoding to a file", "statement": "For an intact container with recorded size, the bytes emitted to standard output equal the bytes written when decoding to a file.", "quantifier": "every file and setting, both reading patterns", "why_tests_cant": "sizes and settings unbounded", "anchors": ["src/decode_core.rs: decode"]}
{"id": "C42", "title": "Hash check of a container hashes the stored file", "statement": "Hashing a container's content gives the hash of the original file for every intact container, and reports failure if a data block is unreadable.", "quantifier": "every file (including empty) and setting", "why_tests_cant": "unbounded", "anchors": ["src/sbx_container_content.rs: hash", "src/check_core.rs", "src/update_core.rs"]}
{"id": "C43", "title": "A crash while encoding never yields a silently wrong archive", "statement": "If encoding stops at any point, every complete block found in the partial container carries the right sequence number and data for its place, and the metadata (if present) records either the final hash or a placeholder that does not verify the partial data as complete.", "quantifier": "every crash point", "why_tests_cant": "crash points", "anchors": ["src/encode_core.rs: encode_file, write_meta_blocks"]}
{"id": "C44", "title": "Version tables are consistent", "statement": "Version numbers, names, header bytes, block sizes and data sizes agree with the format: payload is block size minus 16, sizes are multiples of 128, RS versions force metadata, and parsing a version name or byte inverts printing it.", "quantifier": "every version and every string/byte", "why_tests_cant": "table cross-consistency over all strings", "anchors": ["src/sbx_specs.rs", "src/sbx_block/header.rs: parsers::ver_p"]}
{"id": "C45", "title": "Shard count validation admits exactly usable settings", "statement": "Settings accepted from the command line satisfy 1 <= data, 1 <= parity, data + parity <= 256, which is exactly the range in which the recorded shard counts survive a metadata round trip.", "quantifier": "every pair of counts", "why_tests_cant": "two validations in different places must agree", "anchors": ["src/cli_macros.rs: check_data_parity_shards", "src/sbx_block/metadata.rs: filter_invalid_metadata"]}
{"id": "C46", "title": "Elapsed time formatting", "statement": "Splitting seconds into hours, minutes, seconds is exact: recombining gives the input, with minutes and seconds below 60.", "quantifier": "every number of seconds", "why_tests_cant": "64-bit range", "anchors": ["src/time_utils.rs: seconds_to_hms"]}
{"id": "C47", "title": "Rounding to multiples", "statement": "Rounding down to a multiple gives the greatest multiple not larger than the value, rounding up the least multiple not smaller.", "quantifier": "every value and every positive multiple", "why_tests_cant": "64-bit range", "anchors": ["src/integer_utils.rs: round_down_to_multiple, round_up_to_multiple"]}
{"id": "C48", "title": "check --verbose shows which blocks failed", "statement": "The positions listed by `check --verbose` are exactly the positions in the file of the blocks that are counted as failed.", "quantifier": "every file, every damage, every range", "why_tests_cant": "which blocks are damaged, and where, is unbounded", "anchors": ["src/check_core.rs: check_blocks", "src/cli_check.rs: verbose_arg"]}
{"id": "C49", "title": "Success means that the output has been written", "statement": "If encode, decode, sort, repair, update or rescue reports success, every byte of its output has been taken by the operating system: a write call that fails or takes only a part of the bytes (a full disk, a slow pipe) is made up for by further calls or reported as an error. A container left behind by a repair or update that met errors is brought to the intended state by running the command again.", "quantifier": "every input, every sequence of answers of the operating system to the write calls", "why_tests_cant": "needs every possible failure of every single write call", "anchors": ["src/encode_core.rs: encode_file, write_meta_blocks", "src/data_block_buffer/mod.rs: Lot::write", "src/file_writer.rs: FileWriter", "src/writer.rs: Writer", "src/sort_core.rs: sort_file", "src/decode_core.rs: decode", "src/repair_core.rs: repair_file", "src/update_core.rs: update_file", "src/file_reader.rs: FileReader", "src/rescue_buffer/mod.rs: RescueBuffer::write", "src/rescue_core.rs: rescue_from_file"]}
{"id": "C50", "title": "Files are written only where the user said, and existing files are kept", "statement": "encode, decode and sort change at most one file: the one given as output, or one in the directory given (or the working directory, or beside the input), whose name is made from the input's name or is the last part of the name recorded in the container, whatever bytes are recorded. Without --force (and multi-pass) nothing that exists is changed. The input is never changed. Encoding a file and decoding the container in a directory brings back a file with the name and the contents of the original.", "quantifier": "every file system, every path given, every container (recorded name included)", "why_tests_cant": "recorded names and paths are unbounded adversarial input; the name used results from several functions", "anchors": ["src/decode_core.rs: decode_file", "src/cli_decode.rs: decode", "src/cli_encode.rs: encode", "src/cli_sort.rs: sort", "src/file_utils.rs: get_file_name_part_of_path", "src/misc_utils.rs: make_path", "src/cli_macros.rs: get_in_file"]}
{"id": "C51", "title": "A repair that was cut short is finished by repairing again", "statement": "If a repair of a container damaged within its burst error resistance is interrupted, or the machine crashes during it so that only some of its writes have arrived and others have arrived in part, then running repair again puts back every block, exactly as a repair of the original damage would have.", "quantifier": "every file, every setting, every damage within the resistance, every moment of interruption, every set of arrived, lost and torn writes", "why_tests_cant": "crash points and the subsets of writes that reach the disk are exponential in number; the second run meets damage no test fixture has", "anchors": ["src/repair_core.rs: repair_file, repair_blocks_and_update_stats_using_repair_stats", "src/rs_codec/repairer.rs: RSRepairer", "src/sbx_block/mod.rs: Block::sync_from_buffer"]}
{"id": "C52", "title": "An update that was cut short is finished by running it again", "statement": "If an update of an intact container is interrupted, running the same update again gives the file one undisturbed update would have given. After a crash during the update, with some of its writes lost and others arrived in part, the same holds for every copy of the metadata that can still be read, and a repair afterwards puts back the torn copies, as long as one copy can be read. If none can be read, update reports an error and changes nothing.", "quantifier": "every container, every request, every moment of interruption, every set of arrived, lost and torn writes", "why_tests_cant": "crash points and the subsets of writes that reach the disk are exponential in number; old and new metadata are mixed and the second run may pick either as its reference", "anchors": ["src/update_core.rs: update_file, update_metadata_blocks", "src/block_utils.rs: get_ref_block, guess_burst_err_resistance_level", "src/repair_core.rs: repair_file"]}
{"id": "C53", "title": "The numbers displayed by encode and calc are those of the container", "statement": "After every successful encoding the numbers of metadata, data, parity and all blocks and the sizes displayed by encode are those of the file that was written: counting its valid blocks gives these numbers, and the container size is its length. calc with the same options and the size of the input displays the same numbers in advance.", "quantifier": "every input, every setting, every interruption", "why_tests_cant": "the block counters are gathered by a worker thread buffer by buffer, the container size comes from a formula, and the file is laid out by a third computation; agreement of all three needs all sizes and settings", "anchors": ["src/cli_calc.rs: calc", "src/encode_core.rs: encode_file, Stats", "src/file_utils.rs: calc_container_size, calc_total_block_count_exc_burst_gaps, calc_data_only_and_parity_block_count_exc_burst_gaps", "src/data_block_buffer/mod.rs: data_padding_parity_block_count"]}
{"id": "C54", "title": "A container tells what file is in it", "statement": "After every successful encoding with metadata every metadata block records the name and modification time of the input (if it is a file with these), the name of the container, the time of encoding, the size and the hash of the bytes stored and the shard counts. If names and dates are plain text, show --json prints exactly these, for the first metadata block, and with --show-all for all of them with their positions, also when only the container with this UID is asked for; the output is valid JSON.", "quantifier": "every input, every setting, every interruption of the encoding", "why_tests_cant": "the metadata is packed before the size and hash are known, then rewritten at several places; show finds it by scanning arbitrary content, where data must not be taken for metadata", "anchors": ["src/encode_core.rs: pack_metadata, write_meta_blocks, encode_file", "src/show_core.rs: show_file", "src/json_printer.rs: JSONPrinter"]}
{"id": "C55", "title": "A container can be recovered from a disk image", "statement": "If blocks of a container lie somewhere on a disk image, in any order and perhaps several times, between blocks of other containers and junk, among them a metadata block, then decoding the file that rescue makes of them gives a file of the original size in which every byte stored in a block on the image is the original one and all others are zero. If of every Reed-Solomon set at least as many blocks as there are data shards are on the image, then rescue, sort and repair, one after the other, give the original container byte for byte, and decode the original file. The rescue may have been stopped and resumed any number of times.", "quantifier": "every container, every arrangement of its blocks on an image of any size, every other content, every schedule of the threads, every history of stops and resumptions", "why_tests_cant": "a chain of four commands on adversarial images; orders, duplicates and losses of blocks are exponential in number", "anchors": ["src/rescue_core.rs: rescue_from_file", "src/rescue_buffer/mod.rs", "src/sort_core.rs: sort_file", "src/repair_core.rs: repair_file", "src/decode_core.rs: decode_file"]}
{"id": "C56", "title": "A range of positions selects whole blocks of the container", "statement": "decode to a file, check, and sort into a new file with --from-pos, --to-inc or --to-exc and --force-misalign look exactly at the blocks that follow each other from FROM on (clamped to the file and rounded down to a multiple of the block size unless misalignment is forced), as long as they begin in the range and are complete: the result is the same as for a file consisting of just these blocks, given the same reference block and burst level. check checks blocks unless only the hash is asked for. The burst level is guessed from the beginning of the container even if FROM is somewhere in its middle. A container behind other bytes of a file is decoded by giving its position.", "quantifier": "every file that is not empty, every range but an exclusive end of 0 (see C17), every container and every content around it", "why_tests_cant": "clamping, rounding and block lengths of four versions interact with partial blocks at both ends of the range; combinations are unbounded", "anchors": ["src/misc_utils.rs: calc_required_len_and_seek_to_from_byte_range", "src/decode_core.rs: decode", "src/check_core.rs: check_file, check_blocks", "src/sort_core.rs: sort_file", "src/block_utils.rs: guess_burst_err_resistance_level"]}
{"id": "C57", "title": "The options of the command line are obeyed, and malformed ones refused", "statement": "Every command does what its options say: numbers are read as decimal numbers of at most 64 bits, uids as 12 hexadecimal digits, versions, shard counts, burst levels and names of hash functions as documented, with the documented defaults; if an option cannot be understood or the shard counts are unusable, the command exits with the status for wrong usage. With that status no file has been changed. check, show, calc, encode --info-only and the other commands with --dry-run never change a file; repair and update change only the container named, and only after the answer y or with --skip-warning or --json. The exit status says whether the command succeeded. Encoding a file on the command line and decoding the container gives the file again.", "quantifier": "every table of options, every file system, every input", "why_tests_cant": "options are strings; their combinations with nine commands and any state of the file system are unbounded", "anchors": ["src/bin/main.rs: real_main", "src/cli_macros.rs", "src/cli_encode.rs: encode", "src/cli_decode.rs: decode", "src/cli_check.rs: check", "src/cli_sort.rs: sort", "src/cli_repair.rs: repair", "src/cli_update.rs: update", "src/cli_rescue.rs: rescue", "src/cli_show.rs: show", "src/cli_calc.rs: calc"]}
{"id": "C58", "title": "Damage does not mislead the commands about the burst level", "statement": "If blocks of a container are damaged but none misplaced, a command that is not told the burst level takes the smallest level that agrees with every block that can be read among those it looks at, never a larger one than the true one. If the damage is within the promise of the level (at most as many bursts of up to that many blocks per super block set as there are parity shards), the level taken is the true one; so encoding, damage, repair and decoding give back the file without the level being stated to repair and decode.", "quantifier": "every container, every level, every damage, every option that leaves the level to be guessed", "why_tests_cant": "which blocks survive is exponential in number, and whether another level agrees with the survivors depends on the arithmetic of the layouts; fixtures hold a few damages of one layout", "anchors": ["src/block_utils.rs: guess_burst_err_resistance_level", "src/repair_core.rs: repair_file", "src/cli_macros.rs", "src/sbx_block/mod.rs: calc_data_block_write_index, calc_seq_num_at_index"]}
{"id": "C59", "title": "Progress reporting neither hangs nor ends a command, and what it shows is right", "statement": "However the threads of a command, of its progress reporter and of its log are scheduled, nobody waits for ever: the command returns, also when it returns early because of an error, and once it has returned nothing more is printed. Reporting does not make the command fail. At level 0 nothing is printed; with --json objects only; otherwise a header once and first, lines of progress at level 2, and the last line exactly once and last. The numbers never go down, never exceed what has been processed, the percentage is that of the number, and the last number is everything processed. Nothing is printed between pause and resume. The log of a rescue ends with what was processed.", "quantifier": "every schedule of all threads, every sequence of calls a command makes, every number of threads and updates, every verbosity", "why_tests_cant": "four kinds of threads with two locks and four barriers; a deadlock or a torn line shows up only under particular schedules", "anchors": ["src/progress_report.rs: ProgressReporter, print_progress, make_message, make_progress_bar, calc_percent", "src/log.rs: LogHandler", "src/check_core.rs: check_file", "src/repair_core.rs: repair_file", "src/show_core.rs: show_file", "src/rescue_core.rs: rescue_from_file"]}
{"id": "C60", "title": "With --json the output of every command is one JSON object with its numbers", "statement": "With --json every command prints exactly one JSON object, also when it fails: under `stats` the counters of the run, the version, sizes, uid, hashes and times under fixed keys, and under `error` null or the message. The counters are those of the run; check --verbose lists the positions of the blocks that failed, repair the metadata blocks and for each set the missing blocks and whether they were repaired, update --verbose the fields changed with their values before and after.", "quantifier": "every command, every file, every option, every result of the run", "why_tests_cant": "scripts rely on keys and nesting being the same for every outcome of a run; the printer is stateful and the calls depend on what is in the file", "anchors": ["src/json_printer.rs: JSONPrinter", "src/check_core.rs: Stats, check_file", "src/decode_core.rs: Stats", "src/encode_core.rs: Stats", "src/sort_core.rs: Stats", "src/repair_core.rs: Stats, repair_file", "src/update_core.rs: Stats, update_file, print_block_info_and_meta_changes", "src/rescue_core.rs: Stats", "src/cli_calc.rs: calc", "src/cli_encode.rs: encode", "src/cli_macros.rs: exit_with_msg"]}
{"id": "C61", "title": "No file makes a command panic", "statement": "encode, decode (to a file and to standard output), sort, check, repair, update and show end with a result or an error, never with a panic, whatever bytes the file consists of, except as stated: with a recorded size of 0 although there are data blocks, check --hash and update with a hash do panic.", "quantifier": "every file, every option, every schedule", "why_tests_cant": "files are unbounded adversarial input; fuzzing shows that some files do no harm, not that none does", "anchors": ["src/sbx_block/mod.rs: Block::sync_from_buffer", "src/sbx_block/header.rs", "src/sbx_block/metadata.rs", "src/decode_core.rs: decode_file", "src/sort_core.rs: sort_file", "src/check_core.rs: check_file", "src/repair_core.rs: repair_file", "src/update_core.rs: update_file", "src/show_core.rs: show_file", "src/data_block_buffer/mod.rs", "src/cli_macros.rs: get_data_par_burst", "src/rs_codec"]}
{"id": "C62", "title": "Positions computed with machine integers are the right ones", "statement": "For every sequence number, all shard counts Reed-Solomon allows, every burst level up to 2^40 and every file of up to 2^50 bytes (counts: 2^62, ranges: 2^63) none of the computations of places, positions, sequence numbers, block counts, container sizes and ranges of bytes overflows, underflows or divides by zero in its u64, usize and u32 arithmetic, and the results are those of the same formulas in unbounded integers (which the other properties are about). For burst levels and recorded sizes near 2^64 this fails.", "quantifier": "every sequence number, setting, size and range within the bounds stated", "why_tests_cant": "overflow happens only at sizes no test can build, and in release builds it is silent", "anchors": ["src/sbx_block/mod.rs: calc_data_block_write_index, calc_data_block_write_pos, calc_meta_block_dup_write_indices, calc_meta_block_dup_write_pos_s, calc_meta_block_all_write_pos_s, calc_data_chunk_write_index, calc_data_chunk_write_pos, calc_seq_num_at_index, seq_num_is_parity", "src/file_utils.rs: from_orig_file_size, from_container_size", "src/misc_utils.rs: calc_required_len_and_seek_to_from_byte_range", "src/integer_utils.rs"]}
{"id": "C63", "title": "The message of an error says what failed", "statement": "Every error that a command reports is printed with words that determine it: what was being used (file, standard input, standard output, log file or none), its path in quotes, and the kind of error; no two errors have the same message. For all kinds of errors the operating system can return a message is printed.", "quantifier": "every kind of error, every path and text", "why_tests_cant": "kinds of errors of the operating system are hard to provoke; that messages differ is about all pairs", "anchors": ["src/file_error.rs: FileError", "src/stdin_error.rs: StdinError", "src/stdout_error.rs: StdoutError", "src/log.rs: LogError", "src/general_error.rs: Error"]}
{"id": "C64", "title": "A progress report takes the place of the one before and leaves two lines behind", "statement": "On a terminal every line of progress takes the place of the one before it and nothing of the longer one is left; what the command itself prints after erasing it stands alone on its line; when the command is over, exactly the header and the last line with everything that was processed are left of the reports, however the threads were scheduled. With --json every report is one JSON object with header, unit, units so far, and, where there are any, total, rates and times.", "quantifier": "every sequence of reports and printed lines, every schedule, all texts of rates and times", "why_tests_cant": "what is left on the screen depends on the lengths of all earlier reports and on when they are interrupted", "anchors": ["src/progress_report.rs: print_progress, pause, make_message, make_readable_count"]}
{"id": "C65", "title": "A container keeps its file through any history of maintenance", "statement": "Whatever happens to a container, any number of times and in any order - names and hashes set, replaced and removed with update, with or without success; an update interrupted by the user and run again; a crash during an update followed by update and repair; damage within the promise of the burst level followed by repair, or by a repair cut short by a crash and then repair, with the level stated or guessed; several damaged copies of it put together with sort, or sort and repair; its blocks shuffled, duplicated and sorted again; its blocks scattered over a disk image and brought back by rescue, sort and repair - afterwards it decodes to exactly the file that was encoded, a hash recorded in it is the hash of that file, check finds no fault, and the fields of the metadata that no update was about are what they were.", "quantifier": "every file, every setting, every finite history of such steps, every interruption and every crash in it", "why_tests_cant": "histories are unbounded; a test of one command starts from a fresh container and does not show that what a command leaves is a container for all others", "anchors": ["src/encode_core.rs: encode_file", "src/update_core.rs: update_file", "src/repair_core.rs: repair_file", "src/sort_core.rs: sort_file", "src/rescue_core.rs: rescue_from_file", "src/check_core.rs: check_file", "src/decode_core.rs: decode_file"]}
{"id": "C66", "title": "Up to three flipped bits in a block, and any odd number, are always noticed", "statement": "If one, two, three, or any odd number of bits of a valid block are flipped, wherever in the block they are, no reader takes what is left for a block; hence two different valid blocks of a version differ in at least four bits. Containers whose blocks suffered such errors, within the promise of the burst level, are restored byte for byte by repair. Four flipped bits may go unnoticed.", "quantifier": "every block of every version, every choice of flipped bits, every reader", "why_tests_cant": "a block of 4096 bytes has 5.8 * 10^12 sets of three bits; that none of them cancels depends on the order of the generator polynomial exceeding the length of the block in bits", "anchors": ["src/sbx_block/crc.rs", "src/sbx_block/header.rs: calc_crc", "src/sbx_block/mod.rs: Block::calc_crc, sync_from_buffer, check_if_buffer_valid", "src/repair_core.rs: repair_file"]}
{"id": "C67", "title": "The verdict in words at the end of decode, check and repair is right", "statement": "When repair is not interrupted it says \"No repairs required\" exactly if no block is missing, \"All corrupted/missing blocks were repaired successfully\" exactly if some were and every set has enough left, \"All repairs failed\" exactly if everything missing is in sets beyond repair; after the first two a damaged container is byte for byte what it was before the damage, after the other two it is not. decode says that the hash matches exactly if the output file has the recorded hash, check --hash exactly if every byte is stored and together they have it. What is said does not depend on an interruption by the user, or on whether the run is a dry run.", "quantifier": "every container, every damage, every setting, every interruption", "why_tests_cant": "the texts summarise unboundedly many blocks; that a text is never wrong is about all damage, and that it is the right one needs the state of every block", "anchors": ["src/repair_core.rs: Stats::fmt, repair_file", "src/decode_core.rs: Stats::fmt, decode_file", "src/check_core.rs: Stats::fmt, check_file"]}
{"id": "C68", "title": "What check approves is intact", "statement": "If check reports no failed block, the container is byte for byte the one that was written; in general it counts exactly the blocks that have changed, in particular every block in which up to three bits have been flipped. If check --hash says that the hash of the stored data matches, decode with the same options succeeds, to a file and to standard output: the output has the recorded size and the recorded hash, and decode says so.", "quantifier": "every container, every damage that leaves no other valid block of the container behind, all options for the reference block and the burst level", "why_tests_cant": "check and decode read the container in different ways (by place and by number), and whether what one approves is what the other reads is about all contents", "anchors": ["src/check_core.rs: check_file, check_blocks", "src/sbx_container_content.rs: hash", "src/decode_core.rs: decode_file"]}
{"id": "C69", "title": "Damaged copies of a container complete each other", "statement": "What is left of several damaged copies of one container, each of whole blocks, is put one behind the other. Decoding it gives a file of the original size in which every byte whose block is intact in at least one of the copies is the original byte, all others zero. Sorting it gives the container if every block is intact in one of the copies; with error correction, sorting and repairing it gives the container, byte for byte, if of every set as many blocks as it has data blocks are intact, each in any of the copies - even if no copy can be repaired or decoded on its own.", "quantifier": "every container with or without error correction, any number of copies, every damage that leaves of each block the block or nothing that is a block", "why_tests_cant": "the number of copies and of ways to damage them is unbounded; that no place, order or repetition matters is about all concatenations", "anchors": ["src/decode_core.rs: decode_file", "src/sort_core.rs: sort_file", "src/repair_core.rs: repair_file", "src/block_utils.rs: get_ref_block"]}
{"id": "C70", "title": "What rescue finds on a disk image can be restored with the other commands", "statement": "On a disk image the blocks of a container lie in any order among other containers and rubbish, and some are lost. blkar rescue is run on it with a log file, as often as one likes, stopped by Ctrl-C or not, the last time without being stopped. It changes nothing but files in the output directory that are named after uids, to which it only appends, and the log, which was a log or did not exist. blkar decode of the file named after the uid of the container then writes a file of the original size whose bytes are right wherever the block is on the image and zero elsewhere; and blkar sort, blkar repair and blkar decode, one after the other, report success and restore the container and the file byte for byte if of every set as many blocks as it has data blocks are on the image. If a file cannot be opened rescue does not report success; if the file given as log is something else, it fails and changes nothing.", "quantifier": "every image, every container on it, every number of interrupted runs, every schedule of the threads, every file system, paths and options of all four commands", "why_tests_cant": "the number of runs, schedules and images is unbounded, and each command is tested alone on files made for the test", "anchors": ["src/rescue_core.rs: rescue_from_file", "src/rescue_buffer/mod.rs: Slot, RescueBuffer::write", "src/log.rs: LogHandler, read_from_file, write_to_file", "src/cli_rescue.rs: rescue", "src/cli_sort.rs: sort", "src/cli_repair.rs: repair", "src/cli_decode.rs: decode"]}
{"id": "C71", "title": "Files are safe from every command not told to write them, and an archive survives whatever is done around it", "statement": "A file that exists is byte for byte the same after any number of blkar commands, successful or not, as long as none of them is told to overwrite (--force, --multi-pass, --multi-pass-no-skip), none of them repairs or updates it (except for dry runs), and it is neither in the directory nor the log of a rescue. Every command other than rescue changes at most one file, and each changes only the file its options name, the one next to the input, or, for decode to a directory, a file in that directory; no command makes or removes a directory. After blkar encode, the container may be renamed by update (with any answer to the question), damaged within the promise of the burst level and repaired, and around it any commands may run and any files, the original one included, be changed and removed, any number of times: blkar decode then restores the file byte for byte, under its name if the recorded name was not changed.", "quantifier": "every sequence of commands with any options, in any working directories, every file system and every history", "why_tests_cant": "sequences of commands and contents of file systems are unbounded, and each command is tested alone in an otherwise empty directory", "anchors": ["src/bin/main.rs: real_main", "src/cli_encode.rs: encode", "src/cli_decode.rs: decode", "src/cli_sort.rs: sort", "src/cli_repair.rs: repair", "src/cli_update.rs: update", "src/cli_rescue.rs: rescue", "src/cli_utils.rs: check_if_file_exists", "src/decode_core.rs: decode_file"]}
{"id": "C72", "title": "Damage and repairs leave no trace, and updating before or after a repair is the same", "statement": "Of two copies of a container one is kept safe; the other is damaged again and again (altogether within the promise of the burst level), updated while it is damaged, repaired, and repairs are interrupted or end in a crash. The updates that succeed on it are done to the safe copy as well. Whatever the order of all this, a last blkar repair makes the copy that was in trouble byte for byte the same as the other one. In particular update then repair and repair then update give the same container. An update that fails changes nothing; one that asks for a hash fails as long as a block with contents of the file is damaged; any other one succeeds on the damaged container if and only if it succeeds on the repaired one.", "quantifier": "every container with error correction and burst level, every sequence of damage, updates, repairs and crashes of any length", "why_tests_cant": "the sequences, their lengths and the damage are unbounded; tests of update and repair start from freshly encoded containers and do one thing at a time", "anchors": ["src/update_core.rs: update_file, update_metadata_blocks", "src/repair_core.rs: repair_file", "src/sbx_container_content.rs: hash"]}
{"id": "C73", "title": "When too much is lost, only what is lost is lost", "statement": "Blocks of a container are destroyed in any number and anywhere, far beyond the promise of the burst level if need be, but one of the metadata blocks is left. Then blkar repair restores every metadata block, completes each Reed-Solomon set of which at least as many blocks as data shards are left, and leaves the other sets exactly as they are. blkar decode of the result gives a file of the right length in which each byte is right whose chunk was in an undamaged block or in a set that could be completed; all other bytes are zero. The hash it displays is that of this file. The limit is exact: one block more than parity x burst in a row, or parity + 1 single blocks, can cost a set too many blocks; and with fewer blocks than data shards no program could restore a set, however parity is computed.", "quantifier": "every container with error correction, every set of destroyed blocks, every file", "why_tests_cant": "which of the exponentially many combinations of destroyed blocks are survivable depends on the layout for every shard count and burst level; that nothing can be done about the rest is a statement about all programs", "anchors": ["src/repair_core.rs: repair_file", "src/rs_codec/repairer.rs: RSRepairer", "src/decode_core.rs: decode", "src/sbx_block/mod.rs: calc_data_block_write_index"]}
{"id": "C74", "title": "Repairing again changes nothing, whatever the file", "statement": "After blkar repair came to its end on any file, however damaged and whatever else is in it, another blkar repair with the same burst level writes nothing and says so: what the first one counted as intact or repaired it counts as intact, and it counts as lost exactly what the first one counted as lost. Afterwards all metadata places hold valid blocks, every set that had enough blocks is complete, and every other one has exactly the blocks it had. (False for a file that ends with a part of a block: the first run may complete that block by writing behind it, and the second one then repairs more.)", "quantifier": "every file of whole blocks in which a container with a recorded size is found and that does not begin with a data block of it, every burst level, dry second runs or not", "why_tests_cant": "whether a second run finds the same depends on how all writes of the first one fall on places it has already looked at, for every damage pattern", "anchors": ["src/repair_core.rs: repair_file", "src/rs_codec/repairer.rs: RSRepairer", "src/sbx_block/mod.rs: calc_data_block_write_pos"]}
{"id": "C75", "title": "The same file gives the same container, and a change of the file changes only the blocks it concerns", "statement": "The data and parity blocks of a container depend on nothing but the bytes of the file, the uid, the version and the shard and burst settings: encoding the same bytes again, on a machine with another number of processors, at another time, under another name or from standard input, with another hash type, or after decoding, gives a file of the same length that differs at most in the metadata blocks; without metadata, or at the same second with the same names, the very same file. The blocks of a Reed-Solomon set depend only on the bytes in this set: changing bytes within one chunk changes the block of that chunk and at most the parity blocks of its set and the metadata blocks, and when a file grows the blocks of all full sets stay as and where they are.", "quantifier": "every file, every version and setting, every number of processors, every change", "why_tests_cant": "tests compare a few runs on one machine; the buffers and their rotation depend on the number of processors, and which blocks change depends on position, padding and layout for every setting", "anchors": ["src/encode_core.rs: encode_file", "src/data_block_buffer/mod.rs: DataBlockBuffer", "src/sbx_block/mod.rs: calc_data_block_write_pos"]}
{"id": "C76", "title": "The dates displayed are those recorded", "statement": "The text shown for a recorded time is the date and time of day of that very second in the Gregorian calendar, in UTC and in the local time zone, and a reader of the text gets exactly year, month, day, hour, minute and second back; two different times never get the same UTC text. A time in years that the calendar library handles is always displayed, other ones may be displayed as null, but never as a wrong date and never in a way that breaks the JSON output. In particular show of a new container tells when it was made and the modification time of the file.", "quantifier": "every 64-bit time, every time zone, every container made by encode with metadata", "why_tests_cant": "tests look at a few dates in one time zone; leap years, negative times, years with fewer or more than four digits and the whole 64-bit range, with times read from damaged or crafted blocks, need a statement about all of them", "anchors": ["src/time_utils.rs: i64_secs_to_date_time_string", "src/show_core.rs: show_file", "src/sbx_block/metadata.rs: Metadata"]}
{"id": "C77", "title": "Sorting loses nothing, whatever the file", "statement": "Sorting any file in which a reference block is found succeeds, and the result is fully determined: the first metadata block of the archive at all places for metadata, of the data and parity blocks the last one with each number at the place for its number, zeros between them and nothing after the last block. Nothing else gets in and no number is lost. Sorting the result again changes nothing. Decoding gives the same bytes, the same recorded and computed hash and the same size before and after sorting, also for an archive without error correction that lost all metadata. (For the last two sentences: the reference block is the first metadata block at a whole-block position, and the burst level is stated or there is none.)", "quantifier": "every file, aligned or not: damaged, incomplete, with repeated or contradicting blocks and blocks of other archives; every version and shard count", "why_tests_cant": "the repository sorts shuffled but otherwise intact containers; the number of ways in which blocks can be missing, doubled or contradict each other has no bound, and the agreement of sort and decode on which copy wins needs a proof about both programs", "anchors": ["src/sort_core.rs: sort_file", "src/decode_core.rs: decode", "src/data_block_buffer/mod.rs: DataBlockBuffer"]}
{"id": "C78", "title": "Updates can be repeated, taken back, and made in any order", "statement": "An update that succeeded succeeds again and changes nothing. An update that sets fields can be taken back: setting them to what was recorded before, and removing those that were not there, always succeeds and gives the earlier container byte for byte. Two updates of different fields can be made in either order, and an update is made up for by a later one of the same fields: every field reads the same, and the containers are identical if the first update only sets fields that are there already.", "quantifier": "every container with metadata, every version, shard count and burst level, every recorded field list (with repeated fields too), every request whose names can be stored, hashes included", "why_tests_cant": "tests run single updates and look at single fields; that a sequence of updates leaves exactly the bytes of another sequence in all copies of the metadata depends on the order in which fields are kept and on all field lists", "anchors": ["src/update_core.rs: update_metas", "src/sbx_block/mod.rs: update_meta", "src/cli_update.rs: update"]}
{"id": "C79", "title": "A container whose end is missing is completed by repair", "statement": "If the end of a container is missing, because a copy broke off or a medium was too small, then repair gives the whole container again, byte for byte, as long as no more than parity * burst blocks are missing wholly or in part; decoding then gives the original file. Missing blocks count like damaged ones: together with damage elsewhere everything is restored if all lies within bursts of up to burst blocks, at most parity in each super block set.", "quantifier": "every container with error correction of level at least 1, every place at which it may be cut off behind its first block (for whole blocks: anywhere, together with any damage in bursts), level told to repair or guessed; a part of a block at the end must not by accident be a valid block when filled up with zeros", "why_tests_cant": "tests cut single files at single places; how much may be missing depends on the layout of all parameters, and the length of the file is no longer known from the file", "anchors": ["src/repair_core.rs: repair_file", "src/repair_core.rs: repair_blocks_and_update_stats_using_repair_stats", "src/block_utils.rs: guess_burst_err_resistance_level", "src/rs_codec/repairer.rs: repair_with_block_sync"]}
{"id": "C80", "title": "What follows a container does not matter", "statement": "If a container is followed by something else in the same file, such as the padding of a tape, the rest of a disk image or another container, then decode gives the original file and its hash, sort gives exactly the container without what follows, repair changes nothing, and update says and writes what it would for the container alone and leaves what follows as it is. Of two containers with different uids one after the other, the first is decoded. If there is something in front as well, decode gives the file when told where the container begins.", "quantifier": "every container (also one whose metadata has been changed), everything that may follow provided that it has no valid block of this container at a distance of whole blocks (proved for zeros of any number, and for any container with another uid or of another version with blocks that are not larger), burst level given or guessed", "why_tests_cant": "tests do not append anything to containers, and the burst level is guessed from a part of the file that can reach into what follows", "anchors": ["src/decode_core.rs: decode_file", "src/sort_core.rs: sort_file", "src/repair_core.rs: repair_file", "src/update_core.rs: update_file", "src/block_utils.rs: guess_burst_err_resistance_level"]}
{"id": "C81", "title": "A damaged container followed by something is repaired in place", "statement": "If a container is damaged and followed by something else in the same file, repair restores the metadata blocks and every set that has kept enough blocks, writes nothing behind the end of the container, and leaves what follows as it is. Damage in bursts of up to the burst level, at most as many in each super block set as there are parity blocks per set, is repaired completely, and the file decodes to the original afterwards.", "quantifier": "every container with error correction, every damage in place that leaves behind no other valid block at a place of a block, anything at all behind the container (for decoding afterwards: without blocks of this container)", "why_tests_cant": "a wrong bound of the loop over the sets would write behind the container, which is seen only if there is something", "anchors": ["src/repair_core.rs: repair_file", "src/rs_codec/repairer.rs: RSRepairer::repair_with_block_sync", "src/file_utils.rs: calc_total_block_count_exc_burst_gaps"]}
{"id": "C82", "title": "What follows a container does not change what check finds in it", "statement": "If a container, damaged or not, is followed by something else in the same file, check counts the same metadata blocks, the same data and parity blocks, and of the container the same failed blocks and blank places as without it; each whole place of what follows is counted as failed if it is not blank. It says the same about the hash of the stored data. Of two intact containers one after the other, exactly the blocks of the second one are reported as failed; if the range to be checked ends with the container, all counters are those of the container alone.", "quantifier": "every file of whole blocks beginning with its metadata block (for the hash: every container in its current state), anything behind it without blocks of this container, every run of check over the whole file without interruption", "why_tests_cant": "a counter may depend on both parts of the file, and reading of the stored data may go on behind the end of the container; all contents of both parts matter", "anchors": ["src/check_core.rs: check_blocks", "src/check_core.rs: check_file"]}
{"id": "C83", "title": "Containers one after the other are an archive", "statement": "If containers are put one after the other into one file, show --show-all lists the copies of the metadata of each of them, with their positions, versions, uids and the fields recorded, in the order of the file and nothing else; with a uid only those of that container; without --show-all the first entry. If the containers have the same version and different uids, the position at which a container begins is in the list, and decode with this position gives its file and hash.", "quantifier": "all lists of containers, each in any state reached by the commands (C65), all contents, sizes and shard counts, every uninterrupted run", "why_tests_cant": "the number of containers and their sizes are not bounded; a scan that loses its step at the border of two containers misses all that follow", "anchors": ["src/show_core.rs: show_file", "src/decode_core.rs: decode_file"]}
{"id": "C84", "title": "Rescuing an archive takes it apart", "statement": "If containers are put one after the other into one file (or stand so on a disk), rescue puts the blocks of each container, in their order and without the blank places, into the file named after its uid, and nothing anywhere else; containers with the same uid follow each other. If the uids differ, the file rescued of a container without burst resistance is that container byte for byte, and sorting the file rescued of any container, with the burst level stated, gives the container back byte for byte, also if the rescue was stopped and resumed.", "quantifier": "all lists of containers of any versions and shard counts, each in any state reached by the commands (C65), all contents and sizes, every schedule of the three threads of rescue", "why_tests_cant": "number and size of the containers are not bounded, nor are the schedules; a block attributed to the wrong file, lost at a border or written twice shows only for particular sizes", "anchors": ["src/rescue_core.rs: rescue_from_file", "src/block_utils.rs: read_block_lazily", "src/sort_core.rs: sort_file"]}
{"id": "C85", "title": "Renaming a stored file", "statement": "After update --fnm n of a container has reported success, decode of that container, told no output file or a directory, writes exactly the stored bytes to a file called n (in the working directory, or in that directory) and changes nothing else, whatever name was recorded before and whatever other fields were changed; also if in between other commands were run, other fields updated, or the container damaged in bursts and repaired. After update --no-fnm it has to be told a name: otherwise it reports an error and writes nothing.", "quantifier": "all containers in any state reached by the commands (C65), all stored files, all file systems, working directories and paths, all other options of update, all names of at most 255 bytes that are not . or .. and have no slash", "why_tests_cant": "names, contents, containers and file systems are not bounded; an update that misses a copy of the metadata or a decode that takes the name from another field is seen only for some containers", "anchors": ["src/update_core.rs: update_file", "src/cli_update.rs: update", "src/decode_core.rs: decode_file", "src/cli_decode.rs: decode"]}
