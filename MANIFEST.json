{
 "claims": [
  {
   "property": "C01",
   "status": "proved",
   "theorems": [
    "Osm.Props.C01_varint_round_trip",
    "Osm.Props.C01_varint_appends",
    "Osm.Props.C01_varint_shortest"
   ],
   "note": ""
  },
  {
   "property": "C02",
   "status": "proved",
   "theorems": [
    "Osm.Props.C02_varint_decode_iff",
    "Osm.Props.C02_varint_decode_panics",
    "Osm.Props.C02_varint_reads_inside"
   ],
   "note": ""
  },
  {
   "property": "C03",
   "status": "proved",
   "theorems": [
    "Osm.Props.C03_zigzag_bijection",
    "Osm.Props.C03_numbers"
   ],
   "note": ""
  },
  {
   "property": "C04",
   "status": "proved",
   "theorems": [
    "Osm.Props.C04_s64_delta_round_trip",
    "Osm.Props.C04_s64_delta_func_round_trip",
    "Osm.Props.C04_i32_round_trip",
    "Osm.Props.C04_i32_func_round_trip",
    "Osm.Props.C04_u32_func_round_trip",
    "Osm.Props.C04_s32_round_trip",
    "Osm.Props.C04_s64_read",
    "Osm.Props.C04_s64_delta_read",
    "Osm.Props.C04_u64_round_trip",
    "Osm.Props.C04_s32_delta"
   ],
   "note": ""
  },
  {
   "property": "C05",
   "status": "proved",
   "theorems": [
    "Osm.Props.C05_delta_zero_decode",
    "Osm.Props.C05_delta_zero_exact_iff",
    "Osm.Props.C05_upToRepeat_longest",
    "Osm.Props.C05_delta_zero_cut"
   ],
   "note": ""
  },
  {
   "property": "C06",
   "status": "proved",
   "theorems": [
    "Osm.Props.C06_embed_correct"
   ],
   "note": ""
  },
  {
   "property": "C07",
   "status": "proved",
   "theorems": [
    "Osm.Props.C07_buffer_round_trip",
    "Osm.Props.C07_string_round_trip",
    "Osm.Props.C07_id_buffer_round_trip",
    "Osm.Props.C07_id_varint_round_trip"
   ],
   "note": ""
  },
  {
   "property": "C08",
   "status": "partial",
   "theorems": [
    "Osm.Props.C08_overrun_rejected_partial",
    "Osm.Props.C08_exact",
    "Osm.Props.C08_overrun_iff",
    "Osm.Props.C08_overrun_reads_foreign_bytes"
   ],
   "note": "False in general: slicing is bounded by capacity, so a sub-message can read its parent's bytes (C08_overrun_reads_foreign_bytes is the witness). The exact outcome for every slice, position and length is C08_exact; an overrun is rejected iff it also overruns the array (C08_overrun_iff), so always in a slice without spare capacity."
  },
  {
   "property": "C09",
   "status": "partial",
   "theorems": [
    "Osm.Props.C09_terminates",
    "Osm.Props.C09_terminates_partial",
    "Osm.Props.C09_endless_loop"
   ],
   "note": "False in general: an info/changeset section of length >= 2^63 is skipped backwards (C09_endless_loop). Proved fully for message types without skipped sections and all packed decoders; for the rest under SkipsForward."
  },
  {
   "property": "C10",
   "status": "proved",
   "theorems": [
    "Osm.Props.C10_string_table_round_trip"
   ],
   "note": ""
  },
  {
   "property": "C11",
   "status": "proved",
   "theorems": [
    "Osm.Props.C11_way_round_trip",
    "Osm.Props.C11_way_write_panics_iff"
   ],
   "note": ""
  },
  {
   "property": "C12",
   "status": "proved",
   "theorems": [
    "Osm.Props.C12_relation_round_trip",
    "Osm.Props.C12_relation_write_panics_iff"
   ],
   "note": ""
  },
  {
   "property": "C13",
   "status": "proved",
   "theorems": [
    "Osm.Props.C13_dense_round_trip",
    "Osm.Props.C13_dense_write_panics_iff"
   ],
   "note": ""
  },
  {
   "property": "C14",
   "status": "proved",
   "theorems": [
    "Osm.Props.C14_block_round_trip",
    "Osm.Props.C14_block_round_trip_assembled"
   ],
   "note": ""
  },
  {
   "property": "C15",
   "status": "proved",
   "theorems": [
    "Osm.Props.C15_blob_header_round_trip",
    "Osm.Props.C15_blob_round_trip",
    "Osm.Props.C15_blob_func_round_trip"
   ],
   "note": ""
  },
  {
   "property": "C16",
   "status": "proved",
   "theorems": [
    "Osm.Props.C16_skipping_only_skips"
   ],
   "note": ""
  },
  {
   "property": "C17",
   "status": "proved",
   "theorems": [
    "Osm.Props.C17_unknown_fields_rejected",
    "Osm.Props.C17_unknown_fields_panic"
   ],
   "note": ""
  },
  {
   "property": "C18",
   "status": "proved",
   "theorems": [
    "Osm.Props.C18_index_and_table_agree"
   ],
   "note": "Hypothesis: fewer than 2^32 AddString calls (the index is a uint32)."
  },
  {
   "property": "C19",
   "status": "proved",
   "theorems": [
    "Osm.Props.C19_table_order",
    "Osm.Props.C19_insertion_order_irrelevant"
   ],
   "note": ""
  },
  {
   "property": "C20",
   "status": "partial",
   "theorems": [
    "Osm.Props.C20_index_zero_is_empty_partial",
    "Osm.Props.C20_false_when_empty_string_added",
    "Osm.Props.C20_exact"
   ],
   "note": "False when the empty string is itself added (C20_false_when_empty_string_added): its reserved frequency MaxUint32 wraps to 0. C20_exact is the exact condition for all inputs: never added, or added more often than every other string."
  },
  {
   "property": "C21",
   "status": "partial",
   "theorems": [
    "Osm.Props.C21_nodes_survive_partial",
    "Osm.Props.C21_nodes_survive_write_partial",
    "Osm.Props.C21_false_with_empty_value",
    "Osm.Props.C21_exact"
   ],
   "note": "False in general (C21_false_with_empty_value, a consequence of C20). C21_exact is the exact condition for all inputs: no tag of a node has as its key the string at index 0 of the table; in particular blocks without empty strings, or whose nodes are untagged, in memory and through Write/Read."
  },
  {
   "property": "C22",
   "status": "proved",
   "theorems": [
    "Osm.Props.C22_ways_and_relations_survive",
    "Osm.Props.C22_ways_and_relations_survive_write"
   ],
   "note": "Hypothesis: fewer than 2^32 strings per block; in memory and through Write/Read."
  },
  {
   "property": "C23",
   "status": "proved",
   "theorems": [
    "Osm.Props.C23_assembly_deterministic"
   ],
   "note": ""
  },
  {
   "property": "C24",
   "status": "proved",
   "theorems": [
    "Osm.Props.C24_right_node",
    "Osm.Props.C24_unterminated",
    "Osm.Props.C24_no_tags"
   ],
   "note": ""
  },
  {
   "property": "C25",
   "status": "proved",
   "theorems": [
    "Osm.Props.C25_interleaves",
    "Osm.Props.C25_decode_encode",
    "Osm.Props.C25_encode_decode"
   ],
   "note": ""
  },
  {
   "property": "C26",
   "status": "proved",
   "theorems": [
    "Osm.Props.C26_location_negative",
    "Osm.Props.C26_location_recoverable",
    "Osm.Props.C26_range_covers_earth",
    "Osm.Props.C26_location_injective"
   ],
   "note": ""
  },
  {
   "property": "C27",
   "status": "partial",
   "theorems": [
    "Osm.Props.C27_pack_partial",
    "Osm.Props.C27_accepted",
    "Osm.Props.C27_false_at_2_24",
    "Osm.Props.C27_false_for_all_even_offsets"
   ],
   "note": "Proved for every count except exactly 2^24; at 2^24 the code accepts and corrupts (C27_false_at_2_24, and for every even offset)."
  },
  {
   "property": "C28",
   "status": "proved",
   "theorems": [
    "Osm.Props.C28_lookup_exact",
    "Osm.Props.C28_hint_independent",
    "Osm.Props.C28_passes_well_formed"
   ],
   "note": ""
  },
  {
   "property": "C29",
   "status": "proved",
   "theorems": [
    "Osm.Props.C29_chaining_from",
    "Osm.Props.C29_chaining",
    "Osm.Props.C29_never_panics"
   ],
   "note": ""
  },
  {
   "property": "C30",
   "status": "proved",
   "theorems": [
    "Osm.Props.C30_one_increment",
    "Osm.Props.C30_counters_sum"
   ],
   "note": ""
  },
  {
   "property": "C31",
   "status": "partial",
   "theorems": [
    "Osm.Props.C31_passes_cover_iff_partial",
    "Osm.Props.C31_single_pass",
    "Osm.Props.C31_even_slices",
    "Osm.Props.C31_false"
   ],
   "note": "False in general (C31_false). Proved: the exact condition under which it holds (iff), that one pass always works, and a simple sufficient condition."
  },
  {
   "property": "C32",
   "status": "proved",
   "theorems": [
    "Osm.Props.C32_memory_target",
    "Osm.Props.C32_other_targets"
   ],
   "note": "Target at least 1 MiB and below 2^64 bytes; 0 panics (C32_other_targets)."
  },
  {
   "property": "C33",
   "status": "partial",
   "theorems": [
    "Osm.Props.C33_exact",
    "Osm.Props.C33_iff",
    "Osm.Props.C33_exact_lookup",
    "Osm.Props.C33_false_later_blocks",
    "Osm.Props.C33_index_partial",
    "Osm.Props.C33_lookup_partial",
    "Osm.Props.C33_position",
    "Osm.Props.C33_false",
    "Osm.Props.C33_false_dropped"
   ],
   "note": "False of the code for inputs with node id 0 or 1 (C33_false, C33_false_later_blocks). For all ids >= 0: C33_exact is the exact content of the index and C33_exact_lookup what each lookup answers; C33_iff: the index is right if and only if no node has id 0 or 1. C33_index_partial, C33_lookup_partial: the right answers from 2 on (blocks below 2^23 nodes, at most 2^39 nodes)."
  },
  {
   "property": "C34",
   "status": "proved",
   "theorems": [
    "Osm.Props.C34_file_layout"
   ],
   "note": ""
  },
  {
   "property": "C35",
   "status": "proved",
   "theorems": [
    "Osm.Props.C35_crash",
    "Osm.Props.C35_crash_new_file",
    "Osm.Props.C35_header_size"
   ],
   "note": ""
  },
  {
   "property": "C36",
   "status": "partial",
   "theorems": [
    "Osm.Props.C36_false",
    "Osm.Props.C36_cancelled_partial",
    "Osm.Props.C36_false_ways"
   ],
   "note": "False of the code: C36_false shows a cancelled run whose output is accepted with all elements and no locations. Proved: the file is the full one with locations cut short, so lookups panic or give the full index's answer."
  },
  {
   "property": "C37",
   "status": "partial",
   "theorems": [
    "Osm.Props.C37_round_trip_partial",
    "Osm.Props.C37_too_large",
    "Osm.Props.C37_false",
    "Osm.Props.C37_corrupts_only_at_limits"
   ],
   "note": "False at the limits: way id 2^31 and offset 2^33 are accepted and corrupted (C37_false); C37_corrupts_only_at_limits shows these are the only corruptions. Proved below the limits, and that larger values panic."
  },
  {
   "property": "C38",
   "status": "proved",
   "theorems": [
    "Osm.Props.C38_present",
    "Osm.Props.C38_present_fails",
    "Osm.Props.C38_absent",
    "Osm.Props.C38_found_iff",
    "Osm.Props.C38_hint_independent",
    "Osm.Props.C38_chaining"
   ],
   "note": ""
  },
  {
   "property": "C39",
   "status": "proved",
   "theorems": [
    "Osm.Props.C39_padding",
    "Osm.Props.C39_own_boundary"
   ],
   "note": ""
  },
  {
   "property": "C40",
   "status": "proved",
   "theorems": [
    "Osm.Props.C40_lookup",
    "Osm.Props.C40_refs_spec"
   ],
   "note": ""
  },
  {
   "property": "C41",
   "status": "partial",
   "theorems": [
    "Osm.Props.C41_cover_iff_partial",
    "Osm.Props.C41_few_passes",
    "Osm.Props.C41_indexed",
    "Osm.Props.C41_false"
   ],
   "note": "False in general (C41_false: five ways, 16 passes). Proved: the exact condition (iff), a simple sufficient one, and that indexer output meets it."
  },
  {
   "property": "C42",
   "status": "proved",
   "theorems": [
    "Osm.Props.C42_crash",
    "Osm.Props.C42_crash_new_file"
   ],
   "note": ""
  },
  {
   "property": "C43",
   "status": "proved",
   "theorems": [
    "Osm.Props.C43_stream",
    "Osm.Props.C43_missing_types",
    "Osm.Props.C43_extra_types"
   ],
   "note": ""
  },
  {
   "property": "C44",
   "status": "partial",
   "theorems": [
    "Osm.Props.C44_exact",
    "Osm.Props.C44_content_partial",
    "Osm.Props.C44_no_relations",
    "Osm.Props.C44_false"
   ],
   "note": "The written index is computed exactly (C44_exact) and shown to contain every location when every way is found in some pass (C44_content_partial); the full claim is false for pass counts whose sub-indexes do not cover the way index (C44_false: 1 pass and 16 passes differ), input without relations panics (C44_no_relations), and way ids must be positive."
  },
  {
   "property": "C45",
   "status": "proved",
   "theorems": [
    "Osm.Props.C45_cleaned_up",
    "Osm.Props.C45_any_run"
   ],
   "note": "For pass counts n >= 1; C45_any_run also covers runs that panic or are given no relations."
  },
  {
   "property": "C46",
   "status": "proved",
   "theorems": [
    "Osm.Props.C46_locate",
    "Osm.Props.C46_refs",
    "Osm.Props.C46_any_schedule",
    "Osm.Props.C46_file",
    "Osm.Props.C46_completes",
    "Osm.Props.C46_large_way",
    "Osm.Props.C46_whole"
   ],
   "note": "For files whose blocks read robustly (FileHas), any schedule, workers and zlib chunking. C46_whole: decoded in full, the output is the input with only the refs replaced, for sources whose sections are complete in themselves. Success needs every way to fit 16384 bytes after replacement (C46_large_way shows a 2000-ref way that does not and panics)."
  },
  {
   "property": "C47",
   "status": "partial",
   "theorems": [
    "Osm.Props.C47_exact",
    "Osm.Props.C47_passes_agree_partial",
    "Osm.Props.C47_single_pass",
    "Osm.Props.C47_false"
   ],
   "note": "False in general (C47_false: a 1 MiB target means two passes, and a ref is left unresolved). Proved: the exact result for every pass count, equality with one pass whenever the passes cover the index (C31 gives the iff)."
  },
  {
   "property": "C48",
   "status": "proved",
   "theorems": [
    "Osm.Props.C48_cleaned_up",
    "Osm.Props.C48_any_run"
   ],
   "note": "For uncancelled runs; input, index, output and pass files assumed to be different files (C48_cleaned_up); C48_any_run for every completing run."
  },
  {
   "property": "C49",
   "status": "partial",
   "theorems": [
    "Osm.Props.C49_keepTag",
    "Osm.Props.C49_nodes",
    "Osm.Props.C49_wantedNodes",
    "Osm.Props.C49_any_schedule",
    "Osm.Props.C49_file_partial",
    "Osm.Props.C49_false_with_empty_value"
   ],
   "note": "Proved for files of any size, any schedule: exactly the blocks with an entity left, the wanted nodes with their wanted tags, all ways and relations. For blocks that contain an empty string as tag or role the code can lose tags (C49_false_with_empty_value); the nodes are right iff no key is the string at index 0 of the written table (in Shows)."
  },
  {
   "property": "C50",
   "status": "proved",
   "theorems": [
    "Osm.Props.C50_never_pending",
    "Osm.Props.C50_one_message",
    "Osm.Props.C50_counts",
    "Osm.Props.C50_run",
    "Osm.Props.C50_completes"
   ],
   "note": "Counters, one message per block, fillers accounted for, pending-nodes panic unreachable, runs complete when the entities left have room."
  },
  {
   "property": "C51",
   "status": "partial",
   "theorems": [
    "Osm.Props.C51_preserved_partial",
    "Osm.Props.C51_completes",
    "Osm.Props.C51_empty_payload",
    "Osm.Props.C51_exact"
   ],
   "note": "Proved for every file whose payloads are non-empty, every worker count, interleaving and zlib chunking. False for an empty payload (C51_empty_payload): Blob.Write drops an empty raw section, so the block cannot be read back. C51_exact: in a file with any mix, exactly the non-empty payloads are preserved."
  },
  {
   "property": "C52",
   "status": "proved",
   "theorems": [
    "Osm.Props.C52_exact",
    "Osm.Props.C52_short",
    "Osm.Props.C52_only_stream",
    "Osm.Props.C52_rejects",
    "Osm.Props.C52_longer_varies"
   ],
   "note": ""
  },
  {
   "property": "C53",
   "status": "proved",
   "theorems": [
    "Osm.Props.C53_split_iff",
    "Osm.Props.C53_otherwise",
    "Osm.Props.C53_indices",
    "Osm.Props.C53_round_trip",
    "Osm.Props.C53_truncated",
    "Osm.Props.C53_trailing",
    "Osm.Props.C53_unknown_kind"
   ],
   "note": ""
  },
  {
   "property": "C54",
   "status": "proved",
   "theorems": [
    "Osm.Props.C54_any_order",
    "Osm.Props.C54_missing"
   ],
   "note": ""
  },
  {
   "property": "C55",
   "status": "proved",
   "theorems": [
    "Osm.Props.C55_in_order",
    "Osm.Props.C55_each_once",
    "Osm.Props.C55_no_panic"
   ],
   "note": ""
  },
  {
   "property": "C56",
   "status": "proved",
   "theorems": [
    "Osm.Props.C56_bounded",
    "Osm.Props.C56_no_deadlock",
    "Osm.Props.C56_completes",
    "Osm.Props.C56_zero_workers"
   ],
   "note": ""
  },
  {
   "property": "C57",
   "status": "proved",
   "theorems": [
    "Osm.Props.C57_prefix",
    "Osm.Props.C57_nothing_lost",
    "Osm.Props.C57_shutdown"
   ],
   "note": ""
  },
  {
   "property": "C58",
   "status": "proved",
   "theorems": [
    "Osm.Props.C58_unmapped_last",
    "Osm.Props.C58_unmapped"
   ],
   "note": ""
  },
  {
   "property": "C59",
   "status": "proved",
   "theorems": [
    "Osm.Props.C59_monotone",
    "Osm.Props.C59_bounded",
    "Osm.Props.C59_end"
   ],
   "note": ""
  },
  {
   "property": "C60",
   "status": "proved",
   "theorems": [
    "Osm.Props.C60_maximum",
    "Osm.Props.C60_between",
    "Osm.Props.C60_alone",
    "Osm.Props.C60_terminates",
    "Osm.Props.C60_sum"
   ],
   "note": "LTS of atomic load / compare-and-swap / add steps of any number of goroutines; the final value, monotonicity, completion when running alone (3 steps), termination of every execution, and sums."
  },
  {
   "property": "C61",
   "status": "partial",
   "theorems": [
    "Osm.Props.C61_totals_partial",
    "Osm.Props.C61_exact",
    "Osm.Props.C61_maxima_iff",
    "Osm.Props.C61_same",
    "Osm.Props.C61_completes",
    "Osm.Props.C61_false_with_negative",
    "Osm.Props.C61_blocks",
    "Osm.Props.C61_blocks_complete",
    "Osm.Props.C61_format",
    "Osm.Props.C61_format_completes",
    "Osm.Props.C61_blocks_format"
   ],
   "note": "exact result for every file: C61_exact (totals mod 2^64, maxima as unsigned maxima); the maxima are right iff no id is negative: C61_maxima_iff, so the plain claim is false of the code in general; proved under non-negative ids"
  },
  {
   "property": "C62",
   "status": "proved",
   "theorems": [
    "Osm.Props.C62_length",
    "Osm.Props.C62_exclusive",
    "Osm.Props.C62_not_pooled",
    "Osm.Props.C62_input",
    "Osm.Props.C62_isolated",
    "Osm.Props.C62_panics",
    "Osm.Props.C62_get_completes"
   ],
   "note": "LTS of any number of goroutines using the pool (atomic size hint, arbitrary pool choices and evictions): exact length, exclusivity, isolation of contents, input memory never pooled, panics only for sizes of 2^63 or more. The protocol of the users (one Put per buffer, no use afterwards) is read off the workers and built into the model."
  },
  {
   "property": "C63",
   "status": "proved",
   "theorems": [
    "Osm.Props.C63_exact",
    "Osm.Props.C63_refreshes",
    "Osm.Props.C63_widgets"
   ],
   "note": "LTS of workers (list change and version increment are separate steps) and the refreshing goroutine; worker states are distinct pointers tracked once. tcell's BoxLayout is modelled as a list."
  },
  {
   "property": "C64",
   "status": "proved",
   "theorems": [
    "Osm.Props.C64_appends",
    "Osm.Props.C64_overwrites",
    "Osm.Props.C64_panics",
    "Osm.Props.C64_completes",
    "Osm.Props.C64_crash",
    "Osm.Props.C64_once",
    "Osm.Props.C64_copy",
    "Osm.Props.C64_copy_all"
   ],
   "note": "FWrite for every schedule of short writes, errors and zero writes; FWriteSlice*; FCopy; crash prefixes"
  },
  {
   "property": "C65",
   "status": "proved",
   "theorems": [
    "Osm.Props.C65_prints",
    "Osm.Props.C65_completes",
    "Osm.Props.C65_format"
   ],
   "note": "Printed entities are exactly the requested ones, per block in file order, for every worker interleaving; text formatting of an entity not modelled."
  },
  {
   "property": "C66",
   "status": "proved",
   "theorems": [
    "Osm.Props.C66_nodes",
    "Osm.Props.C66_no_mismatch",
    "Osm.Props.C66_nodes_all",
    "Osm.Props.C66_negative_start",
    "Osm.Props.C66_mismatch_possible",
    "Osm.Props.C66_ways",
    "Osm.Props.C66_ways_all"
   ],
   "note": "Whole output of both dump programs specified for well-formed indexes (text formatting of lines not modelled)."
  },
  {
   "property": "C67",
   "status": "partial",
   "theorems": [
    "Osm.Props.C67_bar_partial",
    "Osm.Props.C67_bar_text_partial",
    "Osm.Props.C67_exact_iff",
    "Osm.Props.C67_no_width",
    "Osm.Props.C67_false"
   ],
   "note": "False when the boundary is at or past the end (100%), negative, or the width is 0, and the text has a percent sign (C67_exact_iff, C67_false). Float computation of the boundary abstracted to any value; one byte per character (any characters: C99)."
  },
  {
   "property": "C68",
   "status": "proved",
   "theorems": [
    "Osm.Props.C68_to_words",
    "Osm.Props.C68_to_bytes",
    "Osm.Props.C68_round_trip",
    "Osm.Props.C68_elements",
    "Osm.Props.C68_panics",
    "Osm.Props.C68_append",
    "Osm.Props.C68_words_append",
    "Osm.Props.C68_values",
    "Osm.Props.C68_pairs"
   ],
   "note": "at the level of slice headers and memory (little-endian); agrees with the value-level functions used elsewhere"
  },
  {
   "property": "C69",
   "status": "partial",
   "theorems": [
    "Osm.Props.C69_format_partial",
    "Osm.Props.C69_any_schedule",
    "Osm.Props.C69_end_to_end_partial",
    "Osm.Props.C69_locates",
    "Osm.Props.C69_any_memory_partial"
   ],
   "note": "C69_end_to_end_partial: all four commands on any sorted source, one pass over the node index, up to 2^shift passes over the way index, all schedules (C69_any_schedule). C69_any_memory_partial: any memory target whose passes cover the index, relindex on the source or on the rewritten file. Missing only because false of the code: memory targets / pass counts whose passes do not cover the index (C31, C41)."
  },
  {
   "property": "C70",
   "status": "proved",
   "theorems": [
    "Osm.Props.C70_nodes",
    "Osm.Props.C70_ways",
    "Osm.Props.C70_relations",
    "Osm.Props.C70_panics"
   ],
   "note": "Extraction of nodes, ways and relations from sound blocks against a specification written from the format."
  },
  {
   "property": "C71",
   "status": "proved",
   "theorems": [
    "Osm.Props.C71_block",
    "Osm.Props.C71_messages",
    "Osm.Props.C71_stored",
    "Osm.Props.C71_cut_short"
   ],
   "note": "Full blocks, the single messages and stored blobs; C71_cut_short shows why the bytes must parse on their own."
  },
  {
   "property": "C72",
   "status": "proved",
   "theorems": [
    "Osm.Props.C72_prefix_reads",
    "Osm.Props.C72_rewritenodes",
    "Osm.Props.C72_tagfilter",
    "Osm.Props.C72_decompress",
    "Osm.Props.C72_rewritenodes_content",
    "Osm.Props.C72_decompress_content",
    "Osm.Props.C72_nodeindex",
    "Osm.Props.C72_wayindex",
    "Osm.Props.C72_relindex",
    "Osm.Props.C72_rewritenodes_passes"
   ],
   "note": "Concurrent interruption for rewrite passes, tagfilter, decompress, nodeindex, wayindex (any schedule, any worker count, torn writes); relindex and multi-pass rewritenodes as whole programs. A block file cut exactly between blocks reads as a valid shorter file: stated as such."
  },
  {
   "property": "C73",
   "status": "proved",
   "theorems": [
    "Osm.Props.C73_nodeindex",
    "Osm.Props.C73_wayindex",
    "Osm.Props.C73_relindex",
    "Osm.Props.C73_rewritenodes",
    "Osm.Props.C73_tagfilter",
    "Osm.Props.C73_decompress",
    "Osm.Props.C73_concurrent",
    "Osm.Props.C73_same_file"
   ],
   "note": "All six writing commands, all crash points, cancelled or not; C73_same_file shows what happens when input = output."
  },
  {
   "property": "C74",
   "status": "proved",
   "theorems": [
    "Osm.Props.C74_any_schedule",
    "Osm.Props.C74_not_cancelled",
    "Osm.Props.C74_not_cancelled_rewrite",
    "Osm.Props.C74_decompress",
    "Osm.Props.C74_tagfilter",
    "Osm.Props.C74_rewritenodes",
    "Osm.Props.C74_relindex",
    "Osm.Props.C74_nodeindex",
    "Osm.Props.C74_wayindex"
   ],
   "note": "Cancellation modelled as a cut of the blocks handed over (C74_any_schedule links it to the pipeline); tagfilter assumes the run ends normally (C49's conditions); relindex and the passes under C44/C47's conditions."
  },
  {
   "property": "C75",
   "status": "proved",
   "theorems": [
    "Osm.Props.C75_bucket_near",
    "Osm.Props.C75_elapsed",
    "Osm.Props.C75_not_counted",
    "Osm.Props.C75_same_answer",
    "Osm.Props.C75_off",
    "Osm.Props.C75_safe_factor",
    "Osm.Props.C75_ways",
    "Osm.Props.C75_endless",
    "Osm.Props.C75_out_of_range",
    "Osm.Props.C75_bucket",
    "Osm.Props.C75_same_file"
   ],
   "note": "float64 as rationals with any rounding that is monotone, idempotent and accurate to half an ulp; loop count by fuel (hang = for every fuel). C75_endless / C75_out_of_range show the factors for which lookups do not return."
  },
  {
   "property": "C76",
   "status": "proved",
   "theorems": [
    "Osm.Props.C76_as_if_alone",
    "Osm.Props.C76_each_once",
    "Osm.Props.C76_delivers",
    "Osm.Props.C76_no_panic",
    "Osm.Props.C76_ends",
    "Osm.Props.C76_completes",
    "Osm.Props.C76_some_worker",
    "Osm.Props.C76_commands",
    "Osm.Props.C76_decompress",
    "Osm.Props.C76_process"
   ],
   "note": "Joint transition system of pipeline, pool and memory refined into the pipeline with atomic workers; deadlock freedom and termination; instances for all commands."
  },
  {
   "property": "C77",
   "status": "proved",
   "theorems": [
    "Osm.Props.C77_any_schedule",
    "Osm.Props.C77_decompress",
    "Osm.Props.C77_tagfilter",
    "Osm.Props.C77_nodeindex",
    "Osm.Props.C77_wayindex",
    "Osm.Props.C77_relindex",
    "Osm.Props.C77_rewritenodes",
    "Osm.Props.C77_longer_differs",
    "Osm.Props.C77_pool_differs"
   ],
   "note": "Provisos (block does not inflate to more than declared / does not read on behind its end) are necessary: C77_longer_differs, C77_pool_differs. C77_rewritenodes is for inputs with readable contents and a well-formed index."
  },
  {
   "property": "C78",
   "status": "proved",
   "theorems": [
    "Osm.Props.C78_starts",
    "Osm.Props.C78_exits",
    "Osm.Props.C78_reports_dumpnode",
    "Osm.Props.C78_reports_dumpway",
    "Osm.Props.C78_dumpnodeindex",
    "Osm.Props.C78_dumpnodeindex_prints",
    "Osm.Props.C78_dumpwayindex_prints",
    "Osm.Props.C78_negative_parts",
    "Osm.Props.C78_counts_unchecked"
   ],
   "note": "The go-flags parser is an arbitrary value. C78_negative_parts and C78_counts_unchecked are findings."
  },
  {
   "property": "C79",
   "status": "partial",
   "theorems": [
    "Osm.Props.C79_index_worker",
    "Osm.Props.C79_decompress_worker",
    "Osm.Props.C79_tagfilter_worker_partial",
    "Osm.Props.C79_rewrite_worker",
    "Osm.Props.C79_writers",
    "Osm.Props.C79_index_writers_partial",
    "Osm.Props.C79_index_writer_number",
    "Osm.Props.C79_tagfilter_header",
    "Osm.Props.C79_tagfilter_numbers",
    "Osm.Props.C79_tagfilter_filler",
    "Osm.Props.C79_ways",
    "Osm.Props.C79_ways_mixed",
    "Osm.Props.C79_copying",
    "Osm.Props.C79_copy_total",
    "Osm.Props.C79_copy_total_ways"
   ],
   "note": "Proved for all workers and for the writers of decompress, rewritenodes, relindex, tagfilter, at any redraw timing. False for the block number of the index writers (they show the number of ranges, C79_index_writer_number) and of tagfilter headers behind the first block (C79_tagfilter_header); the way counter can mix two blocks (C79_ways_mixed)."
  },
  {
   "property": "C80",
   "status": "proved",
   "theorems": [
    "Osm.Props.C80_never_stuck",
    "Osm.Props.C80_ends",
    "Osm.Props.C80_stopped",
    "Osm.Props.C80_keys_in_order",
    "Osm.Props.C80_cancelled_iff",
    "Osm.Props.C80_keys_heard",
    "Osm.Props.C80_panics",
    "Osm.Props.C80_negative_interval",
    "Osm.Props.C80_layout",
    "Osm.Props.C80_replacements",
    "Osm.Props.C80_one_layout",
    "Osm.Props.C80_stale_layout",
    "Osm.Props.C80_never_shown"
   ],
   "note": "tcell (event queue, PostFunc, Quit, Wait, BoxLayout) is modelled from its documentation and source as remembered; drawing is not modelled."
  },
  {
   "property": "C81",
   "status": "proved",
   "theorems": [
    "Osm.Props.C81_decompress",
    "Osm.Props.C81_rewritenodes",
    "Osm.Props.C81_rewritenodes_any_memory",
    "Osm.Props.C81_tagfilter",
    "Osm.Props.C81_false_with_empty_value"
   ],
   "note": "decompress, rewritenodes and tagfilter on their own output; the stated conditions (no empty block, no empty string among tags and roles) are necessary for tagfilter: C81_false_with_empty_value"
  },
  {
   "property": "C82",
   "status": "partial",
   "theorems": [
    "Osm.Props.C82_accounts",
    "Osm.Props.C82_explained",
    "Osm.Props.C82_window_partial",
    "Osm.Props.C82_backpressure",
    "Osm.Props.C82_no_writer",
    "Osm.Props.C82_one_worker_partial",
    "Osm.Props.C82_false_unbounded",
    "Osm.Props.C82_false_any_bound"
   ],
   "note": "Accounting, cause of waiting, back pressure, one worker proved; a bound in general is false (C82_false_unbounded, C82_false_any_bound: one slow block and two workers), so the bound is proved under a bounded delay."
  },
  {
   "property": "C83",
   "status": "proved",
   "theorems": [
    "Osm.Props.C83_undisturbed",
    "Osm.Props.C83_ends",
    "Osm.Props.C83_harmless",
    "Osm.Props.C83_two",
    "Osm.Props.C83_other_dies",
    "Osm.Props.C83_nodeindex",
    "Osm.Props.C83_wayindex",
    "Osm.Props.C83_relindex",
    "Osm.Props.C83_rewritenodes",
    "Osm.Props.C83_tagfilter",
    "Osm.Props.C83_decompress",
    "Osm.Props.C83_both_indexes",
    "Osm.Props.C83_unfinished_input"
   ],
   "note": "For every command (file lists proved for six commands), every interleaving with other processes; the proviso that no file is shared is shown needed (C83_unfinished_input)."
  },
  {
   "property": "C84",
   "status": "proved",
   "theorems": [
    "Osm.Props.C84_profiled",
    "Osm.Props.C84_off",
    "Osm.Props.C84_heap",
    "Osm.Props.C84_mem_is_output",
    "Osm.Props.C84_cpu_is_input"
   ],
   "note": "Profiles' contents arbitrary; the proviso on names is shown needed (C84_mem_is_output, C84_cpu_is_input)."
  },
  {
   "property": "C85",
   "status": "proved",
   "theorems": [
    "Osm.Props.C85_any_schedule",
    "Osm.Props.C85_run",
    "Osm.Props.C85_same_run",
    "Osm.Props.C85_meaning",
    "Osm.Props.C85_sum",
    "Osm.Props.C85_deterministic",
    "Osm.Props.C85_prints"
   ],
   "note": "C85_run + C85_any_schedule: any memory target, schedule and dealing. C85_meaning, C85_sum: what the numbers are."
  },
  {
   "property": "C86",
   "status": "proved",
   "theorems": [
    "Osm.Props.C86_bounds",
    "Osm.Props.C86_file_bounds",
    "Osm.Props.C86_grows",
    "Osm.Props.C86_file_grows",
    "Osm.Props.C86_one_column",
    "Osm.Props.C86_file_one_column",
    "Osm.Props.C86_back_at_most_one",
    "Osm.Props.C86_later_pass",
    "Osm.Props.C86_steps_back",
    "Osm.Props.C86_full_at_end",
    "Osm.Props.C86_file_full_at_end",
    "Osm.Props.C86_full_iff",
    "Osm.Props.C86_not_started",
    "Osm.Props.C86_standing_out",
    "Osm.Props.C86_file_standing_out",
    "Osm.Props.C86_pass_text",
    "Osm.Props.C86_pass_says",
    "Osm.Props.C86_vanishes",
    "Osm.Props.C86_run"
   ],
   "note": "IEEE rounding of float64 modelled and its properties proved; the English states the exact behaviour including the step back and the vanishing bar."
  },
  {
   "property": "C87",
   "status": "proved",
   "theorems": [
    "Osm.Props.C87_entities",
    "Osm.Props.C87_block",
    "Osm.Props.C87_blob",
    "Osm.Props.C87_file",
    "Osm.Props.C87_source",
    "Osm.Props.C87_contents",
    "Osm.Props.C87_unique",
    "Osm.Props.C87_unsupported",
    "Osm.Props.C87_false_of_split_lists"
   ],
   "note": "for the supported part of the format, in which lists are in one piece; false of split lists (C87_false_of_split_lists)"
  },
  {
   "property": "C88",
   "status": "proved",
   "theorems": [
    "Osm.Props.C88_entities",
    "Osm.Props.C88_block",
    "Osm.Props.C88_assembled",
    "Osm.Props.C88_blob",
    "Osm.Props.C88_file",
    "Osm.Props.C88_rewritenodes",
    "Osm.Props.C88_tagfilter",
    "Osm.Props.C88_tagfilter_content",
    "Osm.Props.C88_decompress"
   ],
   "note": "all writers, and the three programs that write OSM files"
  },
  {
   "property": "C89",
   "status": "proved",
   "theorems": [
    "Osm.Props.C89_node_same",
    "Osm.Props.C89_node_reads",
    "Osm.Props.C89_node_reads_only",
    "Osm.Props.C89_way_same",
    "Osm.Props.C89_way_reads",
    "Osm.Props.C89_way_reads_only",
    "Osm.Props.C89_node_index"
   ],
   "note": "Node and way lookups, any content and hint; reads-only theorems tie the recorded positions to the answers."
  },
  {
   "property": "C90",
   "status": "proved",
   "theorems": [
    "Osm.Props.C90_node_index",
    "Osm.Props.C90_way_index"
   ],
   "note": "Completed runs on any input; the bounds are sharp for nodes (example)."
  },
  {
   "property": "C91",
   "status": "partial",
   "theorems": [
    "Osm.Props.C91_no_race",
    "Osm.Props.C91_only_size_partial",
    "Osm.Props.C91_false_pass_widget",
    "Osm.Props.C91_every_run",
    "Osm.Props.C91_busy",
    "Osm.Props.C91_tracker",
    "Osm.Props.C91_tracker_exclusive"
   ],
   "note": "Race freedom proved for all schedules when PassProgress is not shown; with it (rewritenodes) the only possible race is on pfs.max, and it is shown to exist. One call of ProcessFileAsync; the accesses of commands are over-approximated per phase. The tracker, the state words and the widgets are race free (C91_tracker), in a model of their own. The terminal library's memory is not included."
  },
  {
   "property": "C92",
   "status": "proved",
   "theorems": [
    "Osm.Props.C92_unique",
    "Osm.Props.C92_written",
    "Osm.Props.C92_read"
   ],
   "note": "the relation index as a format; C44_false's index as example"
  },
  {
   "property": "C93",
   "status": "proved",
   "theorems": [
    "Osm.Props.C93_cut",
    "Osm.Props.C93_whole",
    "Osm.Props.C93_whole_rewritenodes",
    "Osm.Props.C93_any_schedule",
    "Osm.Props.C93_cut_unreadable",
    "Osm.Props.C93_corrupt_unreadable",
    "Osm.Props.C93_no_node_index",
    "Osm.Props.C93_no_way_index"
   ],
   "note": "all commands; the concurrent runs in any schedule"
  },
  {
   "property": "C94",
   "status": "proved",
   "theorems": [
    "Osm.Props.C94_unique",
    "Osm.Props.C94_succeeds_iff",
    "Osm.Props.C94_writes",
    "Osm.Props.C94_cut",
    "Osm.Props.C94_next",
    "Osm.Props.C94_last"
   ],
   "note": "for every content of the pass file; C94_next for ids other than -2^63, C94_last for relations that announce no negative number of ways"
  },
  {
   "property": "C95",
   "status": "proved",
   "theorems": [
    "Osm.Props.C95_ways_unique",
    "Osm.Props.C95_ways",
    "Osm.Props.C95_wayindex",
    "Osm.Props.C95_nodes_unique",
    "Osm.Props.C95_coordinates",
    "Osm.Props.C95_nodes",
    "Osm.Props.C95_nodeindex",
    "Osm.Props.C95_counts_unique",
    "Osm.Props.C95_entitycount",
    "Osm.Props.C95_blockcount",
    "Osm.Props.C95_stats",
    "Osm.Props.C95_coordinates_not_injective"
   ],
   "note": "Stated against a grammar of the reports (Spec/Text), which is proved unambiguous."
  },
  {
   "property": "C96",
   "status": "proved",
   "theorems": [
    "Osm.Props.C96_same_run",
    "Osm.Props.C96_pass",
    "Osm.Props.C96_run",
    "Osm.Props.C96_hits",
    "Osm.Props.C96_lookups",
    "Osm.Props.C96_misses",
    "Osm.Props.C96_found",
    "Osm.Props.C96_counters",
    "Osm.Props.C96_printed"
   ],
   "note": "C96_run under the conditions of C44_exact; C96_pass for any input of a pass that succeeds."
  },
  {
   "property": "C97",
   "status": "proved",
   "theorems": [
    "Osm.Props.C97_unique",
    "Osm.Props.C97_strings",
    "Osm.Props.C97_lines",
    "Osm.Props.C97_complete",
    "Osm.Props.C97_deterministic",
    "Osm.Props.C97_found"
   ],
   "note": "Stated against a grammar of the lines (Spec/TextFind), proved unambiguous; composed with C65 for whole runs."
  },
  {
   "property": "C98",
   "status": "proved",
   "theorems": [
    "Osm.Props.C98_unique",
    "Osm.Props.C98_workers",
    "Osm.Props.C98_writers",
    "Osm.Props.C98_ways",
    "Osm.Props.C98_tagfilter_writer",
    "Osm.Props.C98_tagfilter_numbers",
    "Osm.Props.C98_index_writers",
    "Osm.Props.C98_file",
    "Osm.Props.C98_percentage_grows",
    "Osm.Props.C98_rewrite_shown",
    "Osm.Props.C98_percentage_shown",
    "Osm.Props.C98_lost_at_end"
   ],
   "note": "All lines of workers, writers and the file; truthfulness composed with C79 where C79 holds in full; the text of tagfilter's worker is modelled and unambiguous (C98_unique), its truthfulness is C79_tagfilter_worker_partial"
  },
  {
   "property": "C99",
   "status": "proved",
   "theorems": [
    "Osm.Props.C99_between",
    "Osm.Props.C99_within",
    "Osm.Props.C99_exact",
    "Osm.Props.C99_ascii",
    "Osm.Props.C99_width",
    "Osm.Props.C99_bar_short"
   ],
   "note": "Exact condition (iff) for every text, width and end of the bar; tcell's SetMarkup and Go's rune conversion as documented"
  },
  {
   "property": "C100",
   "status": "partial",
   "theorems": [
    "Osm.Props.C100_header",
    "Osm.Props.C100_bytes",
    "Osm.Props.C100_synced",
    "Osm.Props.C100_locations_partial",
    "Osm.Props.C100_lost_range",
    "Osm.Props.C100_false",
    "Osm.Props.C100_header_ways",
    "Osm.Props.C100_bytes_ways",
    "Osm.Props.C100_synced_ways",
    "Osm.Props.C100_false_ways"
   ],
   "note": "False of the code: nothing is synchronised before the header is written (C100_false, C100_false_ways, C100_lost_range). Proved: an accepted index had been complete and its first page is intact (C100_header), nothing but what was written or zeros (C100_bytes), intact ranges give right answers or none (C100_locations_partial), and with a sync the property holds (C100_synced)."
  },
  {
   "property": "C101",
   "status": "proved",
   "theorems": [
    "Osm.Props.C101_decompress",
    "Osm.Props.C101_tagfilter",
    "Osm.Props.C101_nodeindex",
    "Osm.Props.C101_wayindex",
    "Osm.Props.C101_relindex",
    "Osm.Props.C101_rewritenodes",
    "Osm.Props.C101_relindex_other_passes",
    "Osm.Props.C101_rewritenodes_other_memory",
    "Osm.Props.C101_end_to_end"
   ],
   "note": "every history of interrupted attempts, all six writing commands, and the four of C69 one after the other"
  },
  {
   "property": "C102",
   "status": "proved",
   "theorems": [
    "Osm.Props.C102_nodes_sound",
    "Osm.Props.C102_nodes_history",
    "Osm.Props.C102_rewrite_sound",
    "Osm.Props.C102_rewrite_history",
    "Osm.Props.C102_rewrite_history_passes",
    "Osm.Props.C102_nodes_false",
    "Osm.Props.C102_ways_sound",
    "Osm.Props.C102_ways_history",
    "Osm.Props.C102_ways_false"
   ],
   "note": "Soundness for every order; completeness for ids that never go down; completeness fails otherwise (C102_nodes_false, C102_ways_false), as the statement says."
  },
  {
   "property": "C103",
   "status": "proved",
   "theorems": [
    "Osm.Props.C103_any_index",
    "Osm.Props.C103_unsorted",
    "Osm.Props.C103_history",
    "Osm.Props.C103_passes_cover",
    "Osm.Props.C103_false"
   ],
   "note": "whatever way index file that opens: exactly when relindex completes and what it writes; soundness for unsorted sources, completeness for history files"
  },
  {
   "property": "C104",
   "status": "proved",
   "theorems": [
    "Osm.Props.C104_sound",
    "Osm.Props.C104_history",
    "Osm.Props.C104_no_target"
   ],
   "note": "C104_sound for any order, C104_history when ids never go down (any memory target whose passes cover the node index), C104_no_target: without a memory target they do."
  },
  {
   "property": "C105",
   "status": "partial",
   "theorems": [
    "Osm.Props.C105_bytes_decompress",
    "Osm.Props.C105_bytes_tagfilter",
    "Osm.Props.C105_bytes_rewritenodes",
    "Osm.Props.C105_bytes_relindex",
    "Osm.Props.C105_rewritenodes_partial",
    "Osm.Props.C105_tagfilter_partial",
    "Osm.Props.C105_decompress_partial",
    "Osm.Props.C105_false"
   ],
   "note": "False of the code: zeros inside a block are not noticed (C105_false, for every page size). Proved: nothing but what was written or zeros, for all four commands that write data (C105_bytes_*), and if no block header is on two pages, what is accepted has the first blocks, of the same kinds and lengths, with bytes spoiled only by zeros (C105_decompress_partial, C105_tagfilter_partial, C105_rewritenodes_partial)."
  },
  {
   "property": "C106",
   "status": "proved",
   "theorems": [
    "Osm.Props.C106_noticed",
    "Osm.Props.C106_full_disk",
    "Osm.Props.C106_complete_or_panic",
    "Osm.Props.C106_write",
    "Osm.Props.C106_write_slice",
    "Osm.Props.C106_nodeindex",
    "Osm.Props.C106_wayindex",
    "Osm.Props.C106_decompress",
    "Osm.Props.C106_tagfilter",
    "Osm.Props.C106_decompress_full_disk",
    "Osm.Props.C106_rewritenodes_stuck",
    "Osm.Props.C106_relindex_stuck",
    "Osm.Props.C106_rewritenodes",
    "Osm.Props.C106_relindex",
    "Osm.Props.C106_left_over"
   ],
   "note": "C106_noticed / C106_full_disk for any program in Code form (every command is one: C83_*, rewritenodesStuck_code, relindexStuck_code). Failing Close/Unmap and errors of writing profiles are not modelled; stuck files between passes in C106_rewritenodes_stuck, C106_relindex_stuck, C106_left_over."
  },
  {
   "property": "C107",
   "status": "proved",
   "theorems": [
    "Osm.Props.C107_same_memory",
    "Osm.Props.C107_any_memory",
    "Osm.Props.C107_nothing_left",
    "Osm.Props.C107_false_of_bytes"
   ],
   "note": "content of the outputs, block by block; for one memory target, or two whose passes cover the index; the bytes differ in general (C107_false_of_bytes)"
  },
  {
   "property": "C108",
   "status": "proved",
   "theorems": [
    "Osm.Props.C108_nodeindex",
    "Osm.Props.C108_wayindex",
    "Osm.Props.C108_relindex",
    "Osm.Props.C108_tagfilter",
    "Osm.Props.C108_rewritenodes",
    "Osm.Props.C108_entitycount",
    "Osm.Props.C108_entityfind",
    "Osm.Props.C108_decompressed"
   ],
   "note": "all commands; of rewritenodes the content of the outputs, of the others the bytes"
  },
  {
   "property": "C109",
   "status": "proved",
   "theorems": [
    "Osm.Props.C109_relindex",
    "Osm.Props.C109_rewritenodes"
   ],
   "note": "Every crash point of every run; the example shows the bound is attained."
  },
  {
   "property": "C110",
   "status": "proved",
   "theorems": [
    "Osm.Props.C110_wayindex",
    "Osm.Props.C110_relindex",
    "Osm.Props.C110_header",
    "Osm.Props.C110_entitycount"
   ],
   "note": "wayindex and relindex on a file and on what tagfilter made of it; C110_header: the filtered file is not empty if there is a header. Complete (not cancelled) runs."
  },
  {
   "property": "C111",
   "status": "proved",
   "theorems": [
    "Osm.Props.C111_nodeindex",
    "Osm.Props.C111_relindex",
    "Osm.Props.C111_entitycount"
   ],
   "note": "nodeindex and relindex on a file and on what rewritenodes made of it, also cancelled at the same block."
  },
  {
   "property": "C112",
   "status": "proved",
   "theorems": [
    "Osm.Props.C112_format",
    "Osm.Props.C112_relindex",
    "Osm.Props.C112_entities",
    "Osm.Props.C112_entitycount",
    "Osm.Props.C112_wayindex",
    "Osm.Props.C112_nodeindex"
   ],
   "note": "Histories of decompress, tagfilter and rewritenodes; C112_format, C112_relindex, C112_entities, C112_entitycount; C112_wayindex without rewritenodes, C112_nodeindex without tagfilter among the commands."
  }
 ]
}