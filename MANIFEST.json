{
 "claims": [
  {
   "property": "C01",
   "status": "proved",
   "theorems": [
    "Verif.C01_crc_is_ccitt",
    "Verif.C01_crc_incremental"
   ],
   "note": ""
  },
  {
   "property": "C02",
   "status": "proved",
   "theorems": [
    "Verif.C02_burst_rejected",
    "Verif.C02_checksum_field_rejected",
    "Verif.C02_version_byte_rejected"
   ],
   "note": ""
  },
  {
   "property": "C03",
   "status": "proved",
   "theorems": [
    "Verif.C03_header_layout",
    "Verif.C03_header_roundtrip",
    "Verif.C03_header_rewrite",
    "Verif.C03_header_accept_iff"
   ],
   "note": ""
  },
  {
   "property": "C04",
   "status": "partial",
   "theorems": [
    "Verif.C04_metadata_roundtrip_partial",
    "Verif.C04_empty_name_violated",
    "Verif.C04_long_name_violated",
    "Verif.C04_shards_violated"
   ],
   "note": "Proved for every representable field list; false for empty / over-long names and shard totals above 256 (witnesses *_violated)."
  },
  {
   "property": "C05",
   "status": "proved",
   "theorems": [
    "Verif.C05_metadata_write",
    "Verif.C05_field_bytes"
   ],
   "note": ""
  },
  {
   "property": "C06",
   "status": "proved",
   "theorems": [
    "Verif.C06_parsed_fields_sane",
    "Verif.C06_parsed_rewritable"
   ],
   "note": ""
  },
  {
   "property": "C07",
   "status": "proved",
   "theorems": [
    "Verif.C07_multihash_roundtrip",
    "Verif.C07_multihash_unambiguous",
    "Verif.C07_multihash_parse_exact",
    "Verif.C07_ctx_type",
    "Verif.C07_hash_names",
    "Verif.C07_accepted_names",
    "Verif.C07_codes_distinct"
   ],
   "note": ""
  },
  {
   "property": "C08",
   "status": "proved",
   "theorems": [
    "Verif.C08_data_roundtrip",
    "Verif.C08_metadata_roundtrip",
    "Verif.C08_metadata_overflow",
    "Verif.C08_option_metadata",
    "Verif.C08_option_data",
    "Verif.C08_option_roundtrip"
   ],
   "note": ""
  },
  {
   "property": "C09",
   "status": "proved",
   "theorems": [
    "Verif.C09_accept_iff",
    "Verif.C09_accept_pred_iff",
    "Verif.C09_unique"
   ],
   "note": ""
  },
  {
   "property": "C10",
   "status": "proved",
   "theorems": [
    "Verif.C10_meta_positions",
    "Verif.C10_meta_distinct",
    "Verif.C10_data_injective",
    "Verif.C10_data_not_meta",
    "Verif.C10_no_overlap"
   ],
   "note": ""
  },
  {
   "property": "C11",
   "status": "proved",
   "theorems": [
    "Verif.C11_seq_of_position",
    "Verif.C11_seq_of_meta",
    "Verif.C11_no_gaps"
   ],
   "note": ""
  },
  {
   "property": "C12",
   "status": "proved",
   "theorems": [
    "Verif.C12_burst_resistance",
    "Verif.C12_super_sets",
    "Verif.C12_one_burst"
   ],
   "note": ""
  },
  {
   "property": "C13",
   "status": "proved",
   "theorems": [
    "Verif.C13_metadata_survives",
    "Verif.C13_super_sets"
   ],
   "note": ""
  },
  {
   "property": "C14",
   "status": "proved",
   "theorems": [
    "Verif.C14_chunk_plain",
    "Verif.C14_chunk_rs",
    "Verif.C14_chunk_bijective",
    "Verif.C14_chunk_increasing"
   ],
   "note": ""
  },
  {
   "property": "C15",
   "status": "partial",
   "theorems": [
    "Verif.C15_container_size_partial",
    "Verif.C15_last_seq_violated",
    "Verif.C15_super_set_violated"
   ],
   "note": "Proved whenever the last sequence number is below u32::MAX and the size of a super block set is not a multiple of 2^32; at u32::MAX the size loop overflows its counter (witness C15_last_seq_violated), with such a burst level it divides by zero (C15_super_set_violated)."
  },
  {
   "property": "C16",
   "status": "proved",
   "theorems": [
    "Verif.C16_no_overflow",
    "Verif.C16_tight",
    "Verif.C16_counts",
    "Verif.C16_container_blocks"
   ],
   "note": ""
  },
  {
   "property": "C17",
   "status": "partial",
   "theorems": [
    "Verif.C17_byte_range_partial",
    "Verif.C17_resume",
    "Verif.C17_empty_file_violated",
    "Verif.C17_to_exc_zero_violated"
   ],
   "note": "Proved for non-empty files and non-zero end positions; for an empty file the computed length is 1, and an exclusive end of 0 wraps (witnesses *_violated)."
  },
  {
   "property": "C18",
   "status": "proved",
   "theorems": [
    "Verif.C18_print_parse",
    "Verif.C18_print_digits",
    "Verif.C18_accept_iff",
    "Verif.C18_parse_print",
    "Verif.C18_uid"
   ],
   "note": ""
  },
  {
   "property": "C19",
   "status": "proved",
   "theorems": [
    "BufferProofs.C19_contiguous",
    "BufferProofs.C19_chunk_number",
    "BufferProofs.C19_parity_number"
   ],
   "note": ""
  },
  {
   "property": "C20",
   "status": "proved",
   "theorems": [
    "Verif.Pipeline.C20_no_deadlock",
    "Verif.Pipeline.C20_terminates",
    "Verif.Pipeline.C20_schedule_independent",
    "Verif.Pipeline.C20_equals_sequential",
    "Verif.Pipeline.C20_in_order"
   ],
   "note": ""
  },
  {
   "property": "C21",
   "status": "proved",
   "theorems": [
    "Verif.Decode.C21_container",
    "Verif.Decode.C21_roundtrip",
    "Verif.Decode.C21_no_metadata",
    "Verif.Decode.C21_any_schedule"
   ],
   "note": ""
  },
  {
   "property": "C22",
   "status": "proved",
   "theorems": [
    "Verif.Decode.C22_order_irrelevant",
    "Verif.Decode.C22_rearranged"
   ],
   "note": ""
  },
  {
   "property": "C23",
   "status": "proved",
   "theorems": [
    "Verif.Decode.C23_damage",
    "Verif.Decode.C23_no_size"
   ],
   "note": ""
  },
  {
   "property": "C24",
   "status": "partial",
   "theorems": [
    "Verif.Encode.C24_any_schedule",
    "Verif.Encode.C24_recorded",
    "Verif.Encode.C24_whole_input",
    "Verif.Encode.C24_range_partial",
    "Verif.Encode.C24_succeeds",
    "Verif.Encode.C24_range_violated"
   ],
   "note": "Proved for whole files and standard input, and that size and hash always describe exactly the stored bytes; an explicit byte range is extended to a whole number of chunks (witness C24_range_violated)."
  },
  {
   "property": "C25",
   "status": "partial",
   "theorems": [
    "Verif.Repair.C25_blocks_restored",
    "Verif.Repair.C25_restores",
    "Verif.Repair.C25_bursts",
    "Verif.Repair.C25_one_burst",
    "Verif.Repair.C25_bit_errors",
    "Verif.Repair.C25_roundtrip",
    "Verif.Repair.C25_misplaced_violated"
   ],
   "note": "Proved for every damage that leaves at each place the old bytes or nothing mistakable for the block belonging there, with zeros between the blocks intact. Missing: a metadata place holding another valid block of the container is not restored (witness C25_misplaced_violated)."
  },
  {
   "property": "C26",
   "status": "proved",
   "theorems": [
    "Verif.Repair.C26_only_missing",
    "Verif.Repair.C26_total",
    "Verif.Repair.C26_valid_kept",
    "Verif.Repair.C26_lost_sets",
    "Verif.Repair.C26_undamaged",
    "Verif.Repair.C26_intact"
   ],
   "note": ""
  },
  {
   "property": "C27",
   "status": "partial",
   "theorems": [
    "Verif.Repair.C27_repair_dry",
    "Verif.Repair.C27_repair_same_stats",
    "Verif.Repair.C27_truncated_violated",
    "Verif.Update.C27_update_dry",
    "Verif.Update.C27_update_same"
   ],
   "note": "Dry runs of repair and update write nothing (all files, all interruptions); update reports the same result in both modes; repair has the same counters for files of whole blocks; false for a truncated file (witness C27_truncated_violated)."
  },
  {
   "property": "C28",
   "status": "partial",
   "theorems": [
    "Verif.Update.C28_error_unchanged",
    "Verif.Update.C28_no_fit",
    "Verif.Update.C28_only_metadata",
    "Verif.Update.C28_data_untouched",
    "Verif.Update.C28_success",
    "Verif.Update.C28_container",
    "Verif.Update.C28_interrupted_hash",
    "Verif.Update.C28_long_name_violated",
    "Verif.Update.C28_empty_name_violated",
    "Verif.ComposeSpec.C28_asked"
   ],
   "note": "Proved for every request the format can represent, all files and interruptions; C28_asked says field by field that the container has what the options ask for; names longer than 255 bytes and empty names are accepted and destroy the fields behind them (witnesses C28_long_name_violated, C28_empty_name_violated)."
  },
  {
   "property": "C29",
   "status": "proved",
   "theorems": [
    "Verif.Update.C29_changed",
    "Verif.Update.C29_update_remove",
    "Verif.Update.C29_data_block"
   ],
   "note": ""
  },
  {
   "property": "C30",
   "status": "proved",
   "theorems": [
    "Verif.Sort.C30_sorts",
    "Verif.Sort.C30_incomplete",
    "Verif.Sort.C30_permuted",
    "Verif.Sort.C30_idempotent",
    "Verif.Sort.C30_roundtrip",
    "Verif.Sort.C30_any_schedule"
   ],
   "note": "The burst level is a parameter for shuffled containers with parity (it is not recorded in a container)."
  },
  {
   "property": "C31",
   "status": "partial",
   "theorems": [
    "Verif.Rescue.C31_rescue_partial",
    "Verif.Rescue.C31_only_blocks",
    "Verif.Rescue.C31_image",
    "Verif.Rescue.C31_names",
    "Verif.Rescue.C31_swallowed_violated",
    "Verif.Rescue.C31_read_error_violated",
    "Verif.Rescue.C31_empty_violated"
   ],
   "note": "Proved for every image, schedule and filter relative to the walk over the image, and that images of blocks, damaged blocks with a header of their version and header-free sectors are saved completely. Missing: blocks behind the header of a damaged larger block are skipped, read errors append junk, an empty image never ends (witnesses C31_*_violated)."
  },
  {
   "property": "C32",
   "status": "proved",
   "theorems": [
    "Verif.Rescue.C32_resume",
    "Verif.Rescue.C32_paused",
    "Verif.Rescue.C32_only_appends",
    "Verif.Rescue.C32_refused_violated"
   ],
   "note": "Every number of interruptions at every event, with torn writes of output and log. A log cut by a crash is refused (C32_refused_violated): the user has to remove it, nothing is lost."
  },
  {
   "property": "C33",
   "status": "partial",
   "theorems": [
    "Verif.Rescue.C33_round_trip_partial",
    "Verif.Rescue.C33_accepted",
    "Verif.Rescue.C33_torn",
    "Verif.Rescue.C33_straddle_violated"
   ],
   "note": "Proved for all counters; the offset may be more than 127 bytes earlier if the last block reaches beyond the end of the range (witness C33_straddle_violated)."
  },
  {
   "property": "C34",
   "status": "proved",
   "theorems": [
    "Verif.Scan.C34_choice",
    "Verif.Scan.C34_archive",
    "Verif.Scan.C34_interrupted",
    "Verif.Scan.C34_position_relative"
   ],
   "note": ""
  },
  {
   "property": "C35",
   "status": "proved",
   "theorems": [
    "Verif.Scan.C35_stream",
    "Verif.Scan.C35_sound",
    "Verif.Scan.C35_show_all"
   ],
   "note": ""
  },
  {
   "property": "C36",
   "status": "proved",
   "theorems": [
    "Verif.Scan.C36_fits",
    "Verif.Scan.C36_guesses",
    "Verif.Scan.C36_exact",
    "Verif.Scan.C36_best"
   ],
   "note": ""
  },
  {
   "property": "C37",
   "status": "partial",
   "theorems": [
    "Verif.Decode.C37_data_kept",
    "Verif.Decode.C37_data_pass",
    "Verif.Decode.C37_data_union",
    "Verif.Decode.C37_data_complete",
    "Verif.Sort.C37_block_kept",
    "Verif.Sort.C37_block_pass",
    "Verif.Sort.C37_block_union",
    "Verif.Sort.C37_block_complete",
    "Verif.Decode.C37_last_chunk_violated",
    "Verif.Sort.C37_last_blocks_violated"
   ],
   "note": "Proved for decode (data output) and sort (block output), all containers, interruptions and sequences of passes. Missing: a non-blank last chunk shorter than the data size and good blocks within the last 4096 bytes of the output are overwritten (witnesses C37_last_chunk_violated, C37_last_blocks_violated)."
  },
  {
   "property": "C38",
   "status": "partial",
   "theorems": [
    "Verif.Check.C38_check",
    "Verif.Decode.C38_decode_file",
    "Verif.Decode.C38_decode_stdout_burst",
    "Verif.Decode.C38_decode_stdout_seq",
    "Verif.Decode.C38_decode_metadata_violated",
    "Verif.Decode.C38_decode_mixed_violated",
    "Verif.Repair.C38_repair",
    "Verif.Repair.C38_repair_adds_up",
    "Verif.Sort.C38_sort"
   ],
   "note": "Proved for repair, sort, check, decode to a file, and for the data counters of decode to standard output (all files, all interruptions). False for decode to standard output: lost metadata blocks are counted as parity blocks, and any block at a metadata place as metadata (witnesses C38_decode_*_violated)."
  },
  {
   "property": "C39",
   "status": "partial",
   "theorems": [
    "Verif.Json.C39_document_partial",
    "Verif.Json.C39_show_partial",
    "Verif.Json.C39_not_json_violated",
    "Verif.Json.C39_changed_violated",
    "Verif.Json.C39_panic_violated",
    "Verif.Json.C39_read_error_violated"
   ],
   "note": "Proved for every nesting and all values that are printable ASCII without backslash, and for the whole output of show --json on every file recording such names. False for other values and after read errors (witnesses C39_*_violated)."
  },
  {
   "property": "C40",
   "status": "partial",
   "theorems": [
    "Verif.Reader.C40_prefix",
    "Verif.Reader.C40_whole_partial",
    "Verif.Reader.C40_short_reads_violated"
   ],
   "note": "Proved for every pipe for which any five read calls in a row can deliver a chunk; for every pipe a beginning of the input is encoded. False for slower pipes: the input is cut silently (witness C40_short_reads_violated)."
  },
  {
   "property": "C41",
   "status": "partial",
   "theorems": [
    "Verif.Decode.C41_same_bytes",
    "Verif.Decode.C41_stored",
    "Verif.Decode.C41_container",
    "Verif.Decode.C41_any_schedule",
    "Verif.Decode.C41_any_schedule_plain",
    "Verif.Decode.C41_empty_violated"
   ],
   "note": "Proved for every container whose blocks stand where the layout puts them, however damaged: standard output and file receive the same bytes, size and hash, for every schedule. Missing: with Reed-Solomon an empty file is decoded to standard output as zeros for every data sequence number (witness C41_empty_violated)."
  },
  {
   "property": "C42",
   "status": "partial",
   "theorems": [
    "Verif.Check.C42_check",
    "Verif.Check.C42_check_intact",
    "Verif.Check.C42_interrupted_violated",
    "Verif.ContentHash.C42_hash",
    "Verif.ContentHash.C42_missing",
    "Verif.ContentHash.C42_only_stored",
    "Verif.ContentHash.C42_container",
    "Verif.ContentHash.C42_any_schedule",
    "Verif.ContentHash.C42_empty_violated"
   ],
   "note": "Proved for every file that is not empty: the hash itself for every schedule of the two threads, and the verdict of check for every file. False for the empty file (an error is reported, C42_empty_violated) and after Ctrl-C (check reports the hash of a part as that of the stored data, C42_interrupted_violated)."
  },
  {
   "property": "C43",
   "status": "partial",
   "theorems": [
    "Verif.Encode.C43_crash",
    "Verif.Encode.C43_metadata",
    "Verif.Encode.C43_interrupt_violated"
   ],
   "note": "Proved for a crash at every point, schedule and byte. Missing: an interruption by Ctrl-C ends regularly and records the shorter data as if it were everything (witness C43_interrupt_violated)."
  },
  {
   "property": "C44",
   "status": "proved",
   "theorems": [
    "Verif.C44_version_name_iff",
    "Verif.C44_version_distinct",
    "Verif.C44_version_tables"
   ],
   "note": ""
  },
  {
   "property": "C45",
   "status": "proved",
   "theorems": [
    "Verif.C45_accepted",
    "Verif.C45_survive"
   ],
   "note": ""
  },
  {
   "property": "C46",
   "status": "proved",
   "theorems": [
    "Verif.C46_hms"
   ],
   "note": ""
  },
  {
   "property": "C47",
   "status": "proved",
   "theorems": [
    "Verif.C47_round_down",
    "Verif.C47_round_up"
   ],
   "note": ""
  },
  {
   "property": "C48",
   "status": "partial",
   "theorems": [
    "Verif.Check.C48_listed_partial",
    "Verif.Check.C48_unlisted_violated",
    "Verif.Check.C48_unlisted_example_violated",
    "Verif.Check.C48_relative_violated"
   ],
   "note": "Proved: the positions listed are those of the blank blocks if these are to be reported. False otherwise: damaged blocks that are not blank are counted but never listed, and positions are relative to where the check starts (witnesses C48_*_violated)."
  },
  {
   "property": "C49",
   "status": "partial",
   "theorems": [
    "Verif.Device.C49_encode",
    "Verif.Device.C49_encode_partial",
    "Verif.Device.C49_encode_unnoticed",
    "Verif.Device.C49_decode",
    "Verif.Device.C49_decode_partial",
    "Verif.Device.C49_decode_unnoticed",
    "Verif.Device.C49_stdout",
    "Verif.Device.C49_stdout_partial",
    "Verif.Device.C49_stdout_unnoticed",
    "Verif.Device.C49_sort",
    "Verif.Device.C49_sort_partial",
    "Verif.Device.C49_encode_violated",
    "Verif.Device.C49_decode_violated",
    "Verif.Device.C49_stdout_violated",
    "Verif.Device.C49_sort_violated",
    "Verif.Device.C49_repair",
    "Verif.Device.C49_repair_partial",
    "Verif.Device.C49_repair_container",
    "Verif.Device.C49_repair_again",
    "Verif.Device.C49_repair_refused",
    "Verif.Device.C49_update",
    "Verif.Device.C49_update_partial",
    "Verif.Device.C49_update_container",
    "Verif.Device.C49_update_again",
    "Verif.Device.C49_update_refused",
    "Verif.Device.C49_repair_violated",
    "Verif.Device.C49_update_violated",
    "Verif.Device.C49_rescue",
    "Verif.Device.C49_rescue_partial",
    "Verif.Device.C49_rescue_resume_partial",
    "Verif.Device.C49_rescue_group",
    "Verif.Device.C49_rescue_violated",
    "Verif.Device.C49_stdout_lines",
    "Verif.Device.C49_stdout_lines_partial",
    "Verif.Device.C49_stdout_lines_violated"
   ],
   "note": "Proved for every sequence of answers of the operating system: encode, decode and sort report every error except one when the last write of sort is carried out; numbers of bytes taken are never looked at by encode and decode (witnesses C49_*_violated); line buffered standard output loses bytes of containers with 4096-byte blocks without any error of the system (C49_stdout_lines_violated). Repair and update: the same for files and systems as stated (C49_repair*, C49_update*), with the number of bytes taken ignored too (C49_repair_violated, C49_update_violated); running them again on a working system gives the intended container. Rescue: whatever the system does files only get bytes of wanted blocks in order (C49_rescue); all of them if every call takes something (C49_rescue_partial); on a full device blocks are lost without an error and counted as rescued (C49_rescue_violated)."
  },
  {
   "property": "C50",
   "status": "partial",
   "theorems": [
    "Verif.Command.C50_decode_place",
    "Verif.Command.C50_decode_keeps",
    "Verif.Command.C50_encode_place",
    "Verif.Command.C50_encode_keeps",
    "Verif.Command.C50_encode_name",
    "Verif.Command.C50_sort_place",
    "Verif.Command.C50_sort_keeps",
    "Verif.Command.C50_roundtrip",
    "Verif.Command.C50_decode_self_violated",
    "Verif.Command.C50_encode_self_violated"
   ],
   "note": "Proved for every file system without links, every path and every container: the one place that changes, that existing files are kept without --force, and the way there and back. False with --force: the output may be the input, which is destroyed with success reported (witnesses C50_decode_self_violated, C50_encode_self_violated)."
  },
  {
   "property": "C51",
   "status": "proved",
   "theorems": [
    "Verif.Repair.C51_crash",
    "Verif.Repair.C51_interrupted"
   ],
   "note": "For every Reed-Solomon container, damage by bursts, moment of interruption and set of lost and torn writes. A torn write is modelled as a prefix of at least 4 bytes over what was there; a torn block whose checksum happens to fit is excluded by hypothesis, as CRC accidents are in C25; the interrupt flag stays set once set."
  },
  {
   "property": "C52",
   "status": "proved",
   "theorems": [
    "Verif.Update.C52_crash",
    "Verif.Update.C52_interrupted",
    "Verif.Update.C52_all_torn",
    "Verif.Update.C52_repaired",
    "Verif.Update.C52_torn_violated"
   ],
   "note": "C52_interrupted, C52_crash, C52_repaired, C52_all_torn; the request must fit and leave size and shard counts alone (cli_keeps: the command line gives no others). With torn copies the burst level has to be given. Torn writes as in C51. C52_torn_violated: a container without Reed-Solomon has one copy only, so that a torn write loses the metadata."
  },
  {
   "property": "C53",
   "status": "partial",
   "theorems": [
    "Verif.Calc.C53_encode_partial",
    "Verif.Calc.C53_calc_partial",
    "Verif.Calc.C53_too_large_violated",
    "Verif.Calc.C53_last_seq_violated"
   ],
   "note": "C53_encode_partial (every successful run, interrupted or not) and C53_calc_partial. Missing: the cases in which calc_container_size fails (C15); C53_last_seq_violated: encode then fails after having written everything. C53_too_large_violated: calc does not refuse files that are too large and displays a truncated container size."
  },
  {
   "property": "C54",
   "status": "proved",
   "theorems": [
    "Verif.Encode.C54_recorded",
    "Verif.Encode.C54_show"
   ],
   "note": "C54_recorded (every metadata block of every successful run) and C54_show (the parsed output of show --json, first block and all blocks). Names that are not plain text: C39. The texts of dates are parameters (chrono)."
  },
  {
   "property": "C55",
   "status": "partial",
   "theorems": [
    "Verif.Recover.C55_sort_repair",
    "Verif.Recover.C55_decode",
    "Verif.Recover.C55_restore",
    "Verif.Recover.C55_torn_violated"
   ],
   "note": "C55_decode, C55_sort_repair and C55_restore, for every image made of blocks, 128-byte sectors without header and damaged blocks with header (the alignment that rescue and the containers use); the burst level has to be stated for sort and repair. Missing: an interruption in the middle of a write to an output file (a crash); C55_torn_violated: what is rescued afterwards is then not found by the other commands."
  },
  {
   "property": "C56",
   "status": "proved",
   "theorems": [
    "Verif.C56_selection",
    "Verif.C56_decode",
    "Verif.C56_check",
    "Verif.C56_sort",
    "Verif.C56_burst",
    "Verif.C56_burst_from",
    "Verif.C56_embedded"
   ],
   "note": "C56_selection, C56_decode, C56_check, C56_sort, C56_burst, C56_burst_from, C56_embedded. Reference block and burst level are the same for both files by hypothesis (C56_burst and the option for the burst level give the latter). Excluded: the empty file and --to-exc 0 (C17)."
  },
  {
   "property": "C57",
   "status": "partial",
   "theorems": [
    "Verif.Cli.C57_refused",
    "Verif.Cli.C57_encode",
    "Verif.Cli.C57_decode",
    "Verif.Cli.C57_sort",
    "Verif.Cli.C57_looks",
    "Verif.Cli.C57_container",
    "Verif.Cli.C57_question",
    "Verif.Cli.C57_usage",
    "Verif.Cli.C57_repair",
    "Verif.Cli.C57_update",
    "Verif.Cli.C57_check",
    "Verif.Cli.C57_rescue",
    "Verif.Cli.C57_roundtrip",
    "Verif.Cli.C57_check_status_violated"
   ],
   "note": "C57_refused, C57_usage, C57_looks, C57_container, C57_question, and for the commands C57_encode, C57_decode, C57_sort, C57_check, C57_repair, C57_update, C57_rescue (parameters as stated by the options; exit status), C57_roundtrip. False for check: its exit status is success although blocks are damaged (C57_check_status_violated). What clap does (splitting the arguments, conflicts, required arguments) is a hypothesis (Accepted); what rescue and show do after their options are read is a parameter here (rescue: C70; the work itself: C30-C33, C54)."
  },
  {
   "property": "C58",
   "status": "partial",
   "theorems": [
    "Verif.Scan.C58_fits",
    "Verif.Scan.C58_exact",
    "Verif.Scan.C58_exact_meta",
    "Verif.Scan.C58_recoverable",
    "Verif.Repair.C58_repair_partial",
    "Verif.Repair.C58_roundtrip_partial",
    "Verif.Scan.C58_level_partial",
    "Verif.Repair.C58_single_violated",
    "Verif.Repair.C58_empty_violated"
   ],
   "note": "C58_fits (smallest agreeing level, at most the true one), C58_exact, C58_exact_meta, C58_recoverable (when it is the true one), C58_level_partial, C58_repair_partial, C58_roundtrip_partial: for containers of non-empty files with at least two data shards and (parity + 1) * burst <= 1000. False without: C58_single_violated (one data shard: within the promise, repair writes the blocks to the places of level 1), C58_empty_violated (empty file: all levels agree, repair gives up)."
  },
  {
   "property": "C59",
   "status": "partial",
   "theorems": [
    "Verif.Progress.C59_commands",
    "Verif.Progress.C59_early",
    "Verif.Progress.C59_no_deadlock",
    "Verif.Progress.C59_ends",
    "Verif.Progress.C59_silent_after",
    "Verif.Progress.C59_no_crash",
    "Verif.Progress.C59_transcript",
    "Verif.Progress.C59_levels",
    "Verif.Progress.C59_numbers",
    "Verif.Progress.C59_differences",
    "Verif.Progress.C59_header_first",
    "Verif.Progress.C59_last_report",
    "Verif.Progress.C59_quiet_partial",
    "Verif.Progress.C59_paused_partial",
    "Verif.Progress.C59_resumed",
    "Verif.Progress.C59_pause_violated",
    "Verif.Progress.C59_bar",
    "Verif.Progress.C59_overflow_violated",
    "Verif.Progress.C59_log",
    "Verif.Progress.C59_log_violated"
   ],
   "note": "C59_no_deadlock, C59_ends (every fair scheduler), C59_silent_after, C59_no_crash, C59_transcript, C59_levels, C59_numbers, C59_differences, C59_resumed, C59_header_first, C59_last_report, C59_bar, C59_log, for every legal sequence of calls; C59_commands and C59_early: those of the commands are legal, also when they return early. False: pause without the lock, as in show and update, does not keep a line of progress from appearing (C59_pause_violated; C59_quiet_partial: with the lock it does; C59_paused_partial: at most one does); the log of a rescue may lack the last updates or not exist (C59_log_violated); 100 * units overflows from 2^64 / 100 units on (C59_overflow_violated). The calls of a command are its sequence of accesses to reporter, log and statistics; times, rates and the width of the line are not modelled."
  },
  {
   "property": "C60",
   "status": "partial",
   "theorems": [
    "Verif.Report.C60_check_partial",
    "Verif.Report.C60_decode_partial",
    "Verif.Report.C60_encode_partial",
    "Verif.Report.C60_info_partial",
    "Verif.Report.C60_calc_partial",
    "Verif.Report.C60_sort_partial",
    "Verif.Report.C60_rescue_partial",
    "Verif.Report.C60_check_counts",
    "Verif.Report.C60_info_stdin_violated",
    "Verif.Report.C60_read_error_violated",
    "Verif.Report.C60_backslash_violated",
    "Verif.Report.C60_repair_partial",
    "Verif.Report.C60_repair_listed_partial",
    "Verif.Report.C60_update_partial"
   ],
   "note": "Proved for check, decode, encode, encode --info-only, calc, sort, rescue, repair and update (show: C54): the text printed parses to exactly the object specified, with the counters of the run, or to the object with the message. Assumes plain texts of errors, dates and names, counters that fit 64 bits, no progress reports. False: encode --info-only of stdin, read errors while a list is open, messages with backslashes (C60_info_stdin_violated, C60_read_error_violated, C60_backslash_violated)."
  },
  {
   "property": "C61",
   "status": "partial",
   "theorems": [
    "Verif.NoPanic.C61_block_read",
    "Verif.NoPanic.C61_block_read_any",
    "Verif.NoPanic.C61_shards",
    "Verif.NoPanic.C61_decode_file",
    "Verif.NoPanic.C61_decode_stdout",
    "Verif.NoPanic.C61_sort",
    "Verif.NoPanic.C61_check",
    "Verif.NoPanic.C61_repair",
    "Verif.NoPanic.C61_update",
    "Verif.NoPanic.C61_show",
    "Verif.NoPanic.C61_check_zero_size_violated",
    "Verif.NoPanic.C61_update_zero_size_violated",
    "Verif.Encode.C61_encode",
    "Verif.Encode.C61_encode_errors"
   ],
   "note": "C61_block_read, C61_block_read_any, C61_shards, C61_decode_file, C61_decode_stdout, C61_sort, C61_check, C61_repair, C61_update, C61_show: every file; C61_encode and C61_encode_errors: every input of encode. False if the recorded size is 0 and there is a data block: check --hash and update with a hash panic (C61_check_zero_size_violated, C61_update_zero_size_violated). Arithmetic is that of natural numbers here (C62); rescue, and the panics while messages are made (C63) or non-ASCII names printed (C39_panic_violated), are not part of it."
  },
  {
   "property": "C62",
   "status": "partial",
   "theorems": [
    "Verif.Machine.C62_data_index",
    "Verif.Machine.C62_data_pos",
    "Verif.Machine.C62_parity",
    "Verif.Machine.C62_chunk_pos",
    "Verif.Machine.C62_meta_pos",
    "Verif.Machine.C62_seq_at_index",
    "Verif.Machine.C62_block_counts",
    "Verif.Machine.C62_byte_range",
    "Verif.Machine.C62_container_size",
    "Verif.Machine.C62_burst_violated",
    "Verif.Machine.C62_size_violated",
    "Verif.Machine.C62_parity_count_violated",
    "Verif.Machine.C62_range_violated",
    "Verif.Machine.C62_last_place_violated"
   ],
   "note": "C62_data_index, C62_data_pos, C62_parity, C62_chunk_pos, C62_meta_pos, C62_seq_at_index, C62_block_counts, C62_container_size, C62_byte_range: the functions once more with checked u64 and u32 operations give what the functions on natural numbers give. Outside the bounds it is false (C62_burst_violated, C62_size_violated, C62_parity_count_violated, C62_range_violated, C62_last_place_violated). usize is taken to have 64 bits."
  },
  {
   "property": "C63",
   "status": "partial",
   "theorems": [
    "Verif.Errors.C63_printed",
    "Verif.Errors.C63_path",
    "Verif.Errors.C63_determined",
    "Verif.Errors.C63_broken_pipe_violated",
    "Verif.Errors.C63_invalid_input_violated",
    "Verif.Errors.C63_unlisted_violated"
   ],
   "note": "C63_printed (exactly when a message is printed), C63_path (it contains the path), C63_determined (it determines the error). False for kinds the code takes for impossible: the program panics while making the message, e.g. BrokenPipe of standard output (C63_broken_pipe_violated, C63_invalid_input_violated); all other kinds are Unknown error (C63_unlisted_violated)."
  },
  {
   "property": "C64",
   "status": "partial",
   "theorems": [
    "Verif.Progress.C64_screen",
    "Verif.Progress.C64_exact",
    "Verif.Progress.C64_glued_violated",
    "Verif.Progress.C64_finished",
    "Verif.Progress.C64_json"
   ],
   "note": "C64_screen (the screen after any orderly sequence of reports and printed lines), C64_finished (what is left after a run, every schedule), C64_json, C64_exact (counts up to 1000 and the percentage are shown in full). False without the lock: if a report slips in after pause (C59_pause_violated), what show or update prints is glued to it (C64_glued_violated). Results of computations with f64 are parameters (printable texts, decimal numbers in the objects); lines wider than the terminal are not modelled."
  },
  {
   "property": "C65",
   "status": "proved",
   "theorems": [
    "Verif.History.C65_history",
    "Verif.History.C65_decode",
    "Verif.History.C65_check",
    "Verif.History.C65_life"
   ],
   "note": "C65_history (an invariant kept by every step), C65_decode, C65_check, C65_life (from encode to decode). Hypotheses in Request and the constructors of Step: names of 1 to 255 bytes, a burst level that is stated or guessed rightly (C36), no hash of an empty file (C42_empty_violated), damage as in C25 (C58 if repair has to guess the level), copies as in C69, at least one copy of the metadata left by a crash during update (C52_all_torn)."
  },
  {
   "property": "C66",
   "status": "partial",
   "theorems": [
    "Verif.BitErrors.C66_detected_partial",
    "Verif.BitErrors.C66_known_version",
    "Verif.BitErrors.C66_distance",
    "Verif.BitErrors.C66_four_bits",
    "Verif.BitErrors.C66_version_violated",
    "Verif.BitErrors.C66_repair"
   ],
   "note": "C66_known_version (readers that know the version of the container: wherever the bits are), C66_detected_partial (all readers, version byte not hit), C66_distance (different blocks differ in at least 4 bits, an even number), C66_repair; C66_four_bits shows the bound is sharp. False for a reader that does not know the version: the version byte is only the start value of the checksum, a bit of it and the same bit of the second uid byte cancel (C66_version_violated)."
  },
  {
   "property": "C67",
   "status": "partial",
   "theorems": [
    "Verif.Verdict.C67_repair",
    "Verif.Verdict.C67_repair_trust",
    "Verif.Verdict.C67_repair_complete",
    "Verif.Verdict.C67_repair_untouched",
    "Verif.Verdict.C67_decode",
    "Verif.Verdict.C67_decode_trust",
    "Verif.Verdict.C67_decode_encoded",
    "Verif.Verdict.C67_check",
    "Verif.Verdict.C67_interrupted_violated",
    "Verif.Verdict.C67_dry_violated",
    "Verif.Verdict.C67_decode_interrupted_violated"
   ],
   "note": "C67_repair (all four texts, each with the exact state of the blocks), C67_repair_trust and C67_repair_complete (success is said exactly if the file is the container again), C67_repair_untouched, C67_decode, C67_decode_trust, C67_decode_encoded, C67_check; the last sentence of the statement is false: C67_interrupted_violated (\"No repairs required\" after Ctrl-C, whatever is broken), C67_dry_violated (a dry run says that everything was repaired successfully), C67_decode_interrupted_violated, C42_interrupted_violated"
  },
  {
   "property": "C68",
   "status": "partial",
   "theorems": [
    "Verif.Approved.C68_counted",
    "Verif.Approved.C68_intact",
    "Verif.Approved.C68_written",
    "Verif.Approved.C68_bits",
    "Verif.Approved.C68_blank_violated",
    "Verif.Approved.C68_truncated_violated",
    "Verif.Approved.C68_decode",
    "Verif.Approved.C68_stdout",
    "Verif.Approved.C68_duplicate_violated"
   ],
   "note": "C68_counted, C68_intact, C68_written, C68_bits (up to three flipped bits in each block), C68_decode, C68_stdout; false as it stands: C68_blank_violated (blocks of zeros are not counted without --report-blank), C68_truncated_violated (a missing end is not noticed), C68_duplicate_violated (a second valid block with the same number: check approves what it finds at the right place, decode takes the last one)"
  },
  {
   "property": "C69",
   "status": "proved",
   "theorems": [
    "Verif.Copies.C69_decode",
    "Verif.Copies.C69_sort",
    "Verif.Copies.C69_restore",
    "Verif.Copies.C69_cut_violated"
   ],
   "note": "C69_decode and C69_sort (with or without error correction), C69_restore (sort, repair, decode); hypotheses: copies of whole blocks, each place unchanged or broken (no other valid block), one copy of the metadata intact somewhere, the burst level stated. That whole blocks are necessary: C69_cut_violated."
  },
  {
   "property": "C70",
   "status": "proved",
   "theorems": [
    "Verif.Cli.C70_places",
    "Verif.Cli.C70_success",
    "Verif.Cli.C70_wrong_log",
    "Verif.Cli.C70_decode",
    "Verif.Cli.C70_restore",
    "Verif.Cli.C70_possible"
   ],
   "note": "C70_places, C70_success, C70_wrong_log, C70_decode, C70_restore (with C70_possible: such runs exist). Rescue on a file system is the relation World.Rescued (Model/CliRescue.lean), since the order of steps of the threads and the moments at which the log is written are not determined; the operating system writes all it is given, and the burst level is given to sort, repair and to decode of the unsorted file. If the output or the log is the image itself, nothing is claimed."
  },
  {
   "property": "C71",
   "status": "proved",
   "theorems": [
    "Verif.Cli.C71_command",
    "Verif.Cli.C71_one",
    "Verif.Cli.C71_session",
    "Verif.Cli.C71_existing",
    "Verif.Cli.C71_life",
    "Verif.Cli.C71_archive"
   ],
   "note": "C71_command, C71_one, C71_session, C71_existing, C71_life, C71_archive. The file system has no links (two paths to one file are understood, since paths are resolved to places). What a rescue leaves is one of the outcomes of World.Rescued, and its output and log are not its image (Faithful). In the history of an archive update, repair and the final decode are not interrupted (interruptions: C65), and repair is told the burst level."
  },
  {
   "property": "C72",
   "status": "proved",
   "theorems": [
    "Verif.History.C72_trace",
    "Verif.History.C72_order",
    "Verif.History.C72_no_hash"
   ],
   "note": "C72_trace, C72_order, C72_no_hash. The burst level is given to update and repair. Damage is as in C25: blocks are left as they are or broken, within bursts up to the burst level, at most as many in a super block set as there are parity shards, and nothing is put into the gaps. An update that is itself interrupted is the subject of C52 and not among the steps."
  },
  {
   "property": "C73",
   "status": "proved",
   "theorems": [
    "Verif.Repair.C73_per_set",
    "Verif.Repair.C73_salvage",
    "Verif.Repair.C73_sharp",
    "Verif.Repair.C73_sharp_blocks",
    "Verif.Repair.C73_optimal",
    "Verif.Repair.C73_roundtrip"
   ],
   "note": "C73_per_set, C73_salvage, C73_roundtrip, C73_sharp, C73_sharp_blocks, C73_optimal. Repair is given the burst level, decode as well. A destroyed block is left as something that is no valid block and either still has a header of the version or looks nowhere like the start of a block (as in C25); no bytes are lost or inserted."
  },
  {
   "property": "C74",
   "status": "partial",
   "theorems": [
    "Verif.Repair.C74_complete",
    "Verif.Repair.C74_again_partial",
    "Verif.Repair.C74_truncated_violated"
   ],
   "note": "C74_complete, C74_again_partial. False for a file that ends with a part of a block: C74_truncated_violated (the first run fills up the cut block with zeros when it writes behind it, which can make it valid). Also assumed: burst level stated, size recorded, block count representable, the file does not begin with a data block of the container."
  },
  {
   "property": "C75",
   "status": "proved",
   "theorems": [
    "Verif.Reproduce.C75_same_blocks",
    "Verif.Reproduce.C75_same_file_no_meta",
    "Verif.Reproduce.C75_same_file",
    "Verif.Reproduce.C75_local",
    "Verif.Reproduce.C75_one_chunk",
    "Verif.Reproduce.C75_grows",
    "Verif.Reproduce.C75_changed",
    "Verif.Reproduce.C75_reencode"
   ],
   "note": "C75_same_blocks, C75_same_file_no_meta, C75_same_file, C75_reencode, C75_local, C75_one_chunk, C75_changed, C75_grows. About uninterrupted runs that store the whole input; the codec computes the same parity on both machines."
  },
  {
   "property": "C76",
   "status": "proved",
   "theorems": [
    "Verif.DateSpec.C76_calendar",
    "Verif.DateSpec.C76_utc",
    "Verif.DateSpec.C76_local",
    "Verif.DateSpec.C76_distinct",
    "Verif.DateSpec.C76_shown",
    "Verif.DateSpec.C76_plain",
    "Verif.DateSpec.C76_show"
   ],
   "note": "C76_calendar, C76_utc, C76_local, C76_distinct, C76_shown, C76_plain, C76_show. chrono is a parameter with the promise that it computes the date of a moment; the calendar is specified by the rule for the next day and the first of January 1970, which determines it (C76_calendar). The offset of the local time zone is arbitrary."
  },
  {
   "property": "C77",
   "status": "proved",
   "theorems": [
    "Verif.SortedSpec.C77_sorted",
    "Verif.SortedSpec.C77_unique",
    "Verif.SortedSpec.C77_again",
    "Verif.SortedSpec.C77_decode",
    "Verif.SortedSpec.C77_decode_no_metadata"
   ],
   "note": "C77_sorted (any file), C77_unique (the specification determines the output), C77_again, C77_decode, C77_decode_no_metadata. The whole file is sorted and decoded, no interruption; for C77_again and C77_decode the reference block is the first metadata block at a whole-block position and the burst level is stated or there is none."
  },
  {
   "property": "C78",
   "status": "proved",
   "theorems": [
    "Verif.ComposeSpec.C78_repeat",
    "Verif.ComposeSpec.C78_undo",
    "Verif.ComposeSpec.C78_order",
    "Verif.ComposeSpec.C78_last"
   ],
   "note": "C78_repeat, C78_undo, C78_order, C78_last, for intact containers and uninterrupted updates that are no dry runs; C78_undo is for updates that only set fields (a field that was removed comes back at the end of the list). If both updates add fields the order of the fields differs (example in Props/Compose.lean)."
  },
  {
   "property": "C79",
   "status": "proved",
   "theorems": [
    "Verif.Repair.C79_bursts",
    "Verif.Repair.C79_cut_off",
    "Verif.Repair.C79_roundtrip"
   ],
   "note": "C79_bursts for whole blocks missing together with damage, C79_cut_off for an undamaged container cut anywhere behind the first block, C79_roundtrip with encode before and decode after; repair is told the level, or guesses it under the conditions of C58 (KnowsLevel). Uninterrupted repairs."
  },
  {
   "property": "C80",
   "status": "proved",
   "theorems": [
    "Verif.Followed.C80_decode",
    "Verif.Followed.C80_sort",
    "Verif.Followed.C80_repair",
    "Verif.Followed.C80_update",
    "Verif.Followed.C80_zeros",
    "Verif.Followed.C80_container",
    "Verif.Followed.C80_concatenated",
    "Verif.Followed.C80_roundtrip",
    "Verif.Followed.C80_embedded",
    "Verif.Followed.C80_stdout"
   ],
   "note": "C80_decode, C80_sort, C80_repair, C80_update for a container followed by anything without blocks of it (Foreign); C80_zeros and C80_container show that zeros and other containers are such; C80_concatenated, C80_roundtrip; C80_embedded for a container in the middle of a file, decoded with --from, --ref-from and --force-misalign; C80_stdout for decoding to standard output (non-empty file). Uninterrupted runs over the whole file, containers with metadata blocks, first block intact."
  },
  {
   "property": "C81",
   "status": "proved",
   "theorems": [
    "Verif.Followed.C81_per_set",
    "Verif.Followed.C81_restores",
    "Verif.Followed.C81_bursts",
    "Verif.Followed.C81_roundtrip"
   ],
   "note": "C81_per_set, C81_restores, C81_bursts, C81_roundtrip: what follows the container is arbitrary. Uninterrupted run, damage in place (nothing cut off or inserted), burst level given or correctly guessed (Sees)."
  },
  {
   "property": "C82",
   "status": "proved",
   "theorems": [
    "Verif.Followed.C82_blocks",
    "Verif.Followed.C82_hash",
    "Verif.Followed.C82_intact",
    "Verif.Followed.C82_concatenated",
    "Verif.Followed.C82_range"
   ],
   "note": "C82_blocks (counters, also of damaged files), C82_hash (errors, recorded and computed hash), C82_intact and C82_concatenated (which failed blocks are reported), C82_range (with the end of the range at the end of the container). Uninterrupted run over the whole file with the default search for the reference block; for the hash the burst level is given or can be guessed."
  },
  {
   "property": "C83",
   "status": "proved",
   "theorems": [
    "Verif.Archive.C83_show_all",
    "Verif.Archive.C83_show_uid",
    "Verif.Archive.C83_show_first",
    "Verif.Archive.C83_extract"
   ],
   "note": "C83_show_all, C83_show_uid, C83_show_first (containers of any versions), C83_extract (same version; the burst level is stated if there is error correction). Uninterrupted runs."
  },
  {
   "property": "C84",
   "status": "proved",
   "theorems": [
    "Verif.Archive.C84_split",
    "Verif.Archive.C84_apart",
    "Verif.Archive.C84_sorted",
    "Verif.Archive.C84_resumed"
   ],
   "note": "C84_split (any uids, also with a restriction to one uid), C84_apart (different uids), C84_sorted, C84_resumed (stopped between two writes and resumed any number of times). Whole file, no read errors, no restriction to a type of blocks, containers with metadata blocks; what follows the last container is shorter than 128 bytes."
  },
  {
   "property": "C85",
   "status": "proved",
   "theorems": [
    "Verif.Cli.C85_later",
    "Verif.Cli.C85_renamed",
    "Verif.Cli.C85_nameless"
   ],
   "note": "C85_renamed, C85_later (with anything of C71_life in between), C85_nameless, from the command line to the files. Uninterrupted runs, the question of update answered with yes or skipped, decode with the default choice of the reference block and no range; the output is another file than the container (see C50)."
  }
 ]
}