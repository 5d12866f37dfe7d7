{
 "claims": [
  {
   "property": "C01",
   "status": "proved",
   "theorems": [
    "Verif.Doc.C01_signingBytes_injective",
    "Verif.Doc.C01_signingBytes_determined",
    "Verif.Doc.C01_newline_forges",
    "Verif.Doc.C01_nanoseconds_not_signed",
    "Verif.Doc.C01_signableBytes_injective",
    "Verif.Doc.C01_signableBytes_error_iff"
   ],
   "note": "Every pair of datasets without newlines in the signed strings; the newline forgery and the unsigned nanoseconds are witnessed."
  },
  {
   "property": "C02",
   "status": "proved",
   "theorems": [
    "Verif.Doc.C02_commit",
    "Verif.Doc.C02_meta",
    "Verif.Doc.C02_structure",
    "Verif.Doc.C02_stats",
    "Verif.Doc.C02_readme",
    "Verif.Doc.C02_viz",
    "Verif.Doc.C02_transform",
    "Verif.Doc.C02_dataset",
    "Verif.Doc.C02_dataset_component_field",
    "Verif.Doc.C02_dataset_title_schema",
    "Verif.Doc.C02_two_calls",
    "Verif.Doc.C02_nil_skipped",
    "Verif.Doc.C02_assign_twice",
    "Verif.Doc.C02_commit_laws",
    "Verif.Doc.C02_meta_laws",
    "Verif.Doc.C02_structure_laws",
    "Verif.Doc.C02_stats_laws",
    "Verif.Doc.C02_transform_laws",
    "Verif.Doc.C02_readme_laws",
    "Verif.Doc.C02_viz_laws"
   ],
   "note": "All fields of all components, argument lists of any length; components as values (pointer sharing is C03)."
  },
  {
   "property": "C03",
   "status": "proved",
   "theorems": [
    "Verif.Doc.C03_assign1_frame",
    "Verif.Doc.C03_assign_frame_full",
    "Verif.Doc.C03_refines_value_assign",
    "Verif.Doc.C03_two_sources_violated",
    "Verif.Doc.C03_two_calls_violated",
    "Verif.Doc.C03_repeated_source_breaks_merge"
   ],
   "note": "Frame and refinement for every store; the damage with two sources is witnessed."
  },
  {
   "property": "C04",
   "status": "proved",
   "theorems": [
    "Verif.Doc.C04_transform_secrets_do_not_show",
    "Verif.Doc.C04_transform_has_no_secrets_member",
    "Verif.Doc.C04_dataset_secrets_do_not_show",
    "Verif.Doc.C04_presence_shows_only_for_references",
    "Verif.Doc.C04_presence_can_show"
   ],
   "note": "Every transform and dataset, on the JSON tree; whether secrets are nil can show in the choice of reference or object form."
  },
  {
   "property": "C05",
   "status": "proved",
   "theorems": [
    "Verif.Doc.C05_dataset_transient",
    "Verif.Doc.C05_dataset_derived",
    "Verif.Doc.C05_commit_transient",
    "Verif.Doc.C05_commit_derived",
    "Verif.Doc.C05_meta_transient",
    "Verif.Doc.C05_meta_derived",
    "Verif.Doc.C05_structure_transient",
    "Verif.Doc.C05_structure_derived",
    "Verif.Doc.C05_stats_derived",
    "Verif.Doc.C05_transform_transient",
    "Verif.Doc.C05_transform_derived",
    "Verif.Doc.C05_readme_transient",
    "Verif.Doc.C05_readme_derived",
    "Verif.Doc.C05_viz_transient",
    "Verif.Doc.C05_viz_derived",
    "Verif.Doc.C05_commute",
    "Verif.Doc.C05_idempotent",
    "Verif.Doc.C05_emptiness_kept"
   ],
   "note": "Every dataset and component."
  },
  {
   "property": "C06",
   "status": "proved",
   "theorems": [
    "Verif.Doc.C06_commit_round_trip",
    "Verif.Doc.C06_commit_fails_iff",
    "Verif.Doc.C06_stats_round_trip",
    "Verif.Doc.C06_structure_round_trip",
    "Verif.Doc.C06_transform_round_trip",
    "Verif.Doc.C06_readme_round_trip",
    "Verif.Doc.C06_viz_round_trip",
    "Verif.Doc.C06_dataset_round_trip",
    "Verif.Doc.C06_commit_identity",
    "Verif.Doc.C06_commit_injective",
    "Verif.Doc.C06_dataset_injective",
    "Verif.Doc.C06_structure_identity",
    "Verif.Doc.C06_structure_with_path_loses_fields",
    "Verif.Doc.C06_structure_second_trip_loses_more",
    "Verif.Doc.C06_readme_loses_path",
    "Verif.Doc.C06_viz_loses_path",
    "Verif.Doc.C06_dataset_reference_loses_versions"
   ],
   "note": "Every value JSON can carry, on the level of JSON trees with Go's case-insensitive field matching; times in UTC."
  },
  {
   "property": "C07",
   "status": "proved",
   "theorems": [
    "Verif.Doc.C07_meta_round_trip",
    "Verif.Doc.C07_standard_fields_kept",
    "Verif.Doc.C07_arbitrary_entries",
    "Verif.Doc.C07_keywords_gain_an_entry",
    "Verif.Doc.C07_reserved_entries_lost",
    "Verif.Doc.C07_entries_beside_path_lost",
    "Verif.Doc.C07_case_variant_unreadable",
    "Verif.Doc.C07_case_variant_sets_field"
   ],
   "note": "Every meta whose arbitrary keys do not read as field names; the other cases are witnessed."
  },
  {
   "property": "C08",
   "status": "proved",
   "theorems": [
    "Verif.Doc.C08_pathMap",
    "Verif.Doc.C08_pathMap_keys",
    "Verif.Doc.C08_pathMap_dropDerived"
   ],
   "note": "Every dataset, ignore list and key."
  },
  {
   "property": "C09",
   "status": "proved",
   "theorems": [
    "Verif.Names.C09_round_trip",
    "Verif.Names.C09_detected_iff",
    "Verif.Names.C09_names_tell_apart",
    "Verif.Names.C09_no_format"
   ],
   "note": "Every base name, format spelling and compression spelling."
  },
  {
   "property": "C10",
   "status": "proved",
   "theorems": [
    "Verif.Names.C10_names_are_words",
    "Verif.Names.C10_distinct",
    "Verif.Names.C10_collisions",
    "Verif.Names.C10_bound_is_sharp"
   ],
   "note": "Distinctness below 702 by digit arithmetic; a family of collisions beyond."
  },
  {
   "property": "C11",
   "status": "proved",
   "theorems": [
    "Verif.Names.C11_letters",
    "Verif.Names.C11_distinct",
    "Verif.Names.C11_unique",
    "Verif.Names.C11_bound_is_sharp"
   ],
   "note": "Every index below 26^3, and the failure at 26^3. No overflow of the powers of 26."
  },
  {
   "property": "C12",
   "status": "proved",
   "theorems": [
    "Verif.Streams.C12_full_page",
    "Verif.Streams.C12_partial_page",
    "Verif.Streams.C12_unlimited",
    "Verif.Streams.C12_negative_offset"
   ],
   "note": "Every reader, offset and limit."
  },
  {
   "property": "C13",
   "status": "proved",
   "theorems": [
    "Verif.Streams.C13_copy_ok_iff",
    "Verif.Streams.C13_copy_readErr_iff",
    "Verif.Streams.C13_copy_writeErr_iff",
    "Verif.Streams.C13_copy_terminates",
    "Verif.Streams.C13_each_ok_iff",
    "Verif.Streams.C13_each_readErr_iff",
    "Verif.Streams.C13_copy_and_each_differ"
   ],
   "note": "Every reader, writer and callback."
  },
  {
   "property": "C14",
   "status": "proved",
   "theorems": [
    "Verif.Streams.C14_complete",
    "Verif.Streams.C14_window",
    "Verif.Streams.C14_read_error_dropped",
    "Verif.Streams.C14_write_error_dropped",
    "Verif.Streams.C14_fails_only_on_close",
    "Verif.Streams.C14_false_witness"
   ],
   "note": "The title's claim is false (witness and general theorems about dropped errors); complete conversions are characterised."
  },
  {
   "property": "C15",
   "status": "proved",
   "theorems": [
    "Verif.Identity.C15_in_order",
    "Verif.Identity.C15_prefix",
    "Verif.Identity.C15_results",
    "Verif.Identity.C15_eof_after_all",
    "Verif.Identity.C15_array",
    "Verif.Identity.C15_map",
    "Verif.Identity.C15_accepts",
    "Verif.Identity.C15_stuck_iff",
    "Verif.Identity.C15_no_hang_before_end",
    "Verif.Identity.C15_finite",
    "Verif.Identity.C15_outcome",
    "Verif.Identity.C15_read_can_hang",
    "Verif.Identity.C15_close_can_hang",
    "Verif.Identity.C15_read_can_complete",
    "Verif.Identity.C15_after_done",
    "Verif.Identity.C15_after_done_stale_witness"
   ],
   "note": "Every container, script of calls and interleaving, also with racy reads of the flag."
  },
  {
   "property": "C16",
   "status": "proved",
   "theorems": [
    "Verif.Json.C16_array_roundtrip",
    "Verif.Json.C16_object_roundtrip",
    "Verif.Json.C16_array_normalised",
    "Verif.Json.C16_large_float_unreadable"
   ],
   "note": "Round trip for all entries in the stated domain, any indent; also what other values turn into, and that floats printed as 2^63 or more plain digits cannot be read back."
  },
  {
   "property": "C17",
   "status": "proved",
   "theorems": [
    "Verif.Json.C17_output_wellformed",
    "Verif.Json.C17_first_rejected_malformed"
   ],
   "note": "Every sequence of writes: well-formed unless the first write is rejected and a later one accepted; then proved not to be JSON."
  },
  {
   "property": "C18",
   "status": "proved",
   "theorems": [
    "Verif.JsonBuf.C18_clean",
    "Verif.JsonBuf.C18_array_delivered",
    "Verif.JsonBuf.C18_object_delivered",
    "Verif.JsonBuf.C18_written_array",
    "Verif.JsonBuf.C18_whole",
    "Verif.JsonBuf.C18_panic_at_every_size",
    "Verif.JsonBuf.C18_error_depends_on_buffer",
    "Verif.JsonBuf.C18_cut_escape_depends_on_buffer",
    "Verif.JsonBuf.C18_not_function_of_bytes"
   ],
   "note": "Every size, portioning and input; the source delivers at least a byte per read and fails only by ending; the capacity of appended slices is arbitrary."
  },
  {
   "property": "C19",
   "status": "proved",
   "theorems": [
    "Verif.Json.C19_silent_loss",
    "Verif.Json.C19_surrogate_pair_lost",
    "Verif.Json.C19_array_delivered",
    "Verif.Json.C19_object_delivered"
   ],
   "note": "False in general (witnesses); proved for every well-formed document whose integers fit 64 bits and that uses no surrogate pair escapes."
  },
  {
   "property": "C20",
   "status": "proved",
   "theorems": [
    "Verif.Cbor.C20_array_roundtrip",
    "Verif.Cbor.C20_object_roundtrip",
    "Verif.Cbor.C20_rejected_entries_leave_no_trace",
    "Verif.Cbor.C20_negative_int_rejected",
    "Verif.Cbor.C20_long_string_rejected"
   ],
   "note": "Round trip for all supported values; rejected integers below -24 and strings over 4096 bytes are proved to fail."
  },
  {
   "property": "C21",
   "status": "proved",
   "theorems": [
    "Verif.Cbor.C21_reader_total",
    "Verif.Cbor.C21_depth_bounded",
    "Verif.Cbor.C21_wrong_container_rejected",
    "Verif.Cbor.C21_crash_witness"
   ],
   "note": "Termination, progress and depth proved for every input; a crash is witnessed."
  },
  {
   "property": "C22",
   "status": "proved",
   "theorems": [
    "Verif.Cbor.C22_truncation_undetected_array",
    "Verif.Cbor.C22_truncation_undetected_object"
   ],
   "note": "The claim of the title is false for every body and cut position (proved universally); entries delivered are a prefix."
  },
  {
   "property": "C23",
   "status": "proved",
   "theorems": [
    "Verif.Ndjson.C23_one_line_each",
    "Verif.Ndjson.C23_accepts",
    "Verif.Ndjson.C23_round_trip",
    "Verif.Ndjson.C23_same",
    "Verif.Ndjson.C23_never_integers",
    "Verif.Ndjson.C23_integer_becomes_float",
    "Verif.Ndjson.C23_unterminated_line_dropped",
    "Verif.Ndjson.C23_bad_line",
    "Verif.Ndjson.C23_empty_line",
    "Verif.Ndjson.C23_too_deep",
    "Verif.Ndjson.C23_opens",
    "Verif.Ndjson.C23_lines"
   ],
   "note": "Every list of entries; json.Unmarshal is modelled on bytes; float text is a parameter."
  },
  {
   "property": "C24",
   "status": "proved",
   "theorems": [
    "Verif.CsvIO.C24_cell",
    "Verif.CsvIO.C24_literal_unique",
    "Verif.CsvIO.C24_row",
    "Verif.CsvIO.C24_other_types",
    "Verif.CsvIO.C24_open"
   ],
   "note": "Every row and list of types; float text is a parameter."
  },
  {
   "property": "C25",
   "status": "proved",
   "theorems": [
    "Verif.CsvIO.C25_written",
    "Verif.CsvIO.C25_closed_form",
    "Verif.CsvIO.C25_cell",
    "Verif.CsvIO.C25_row",
    "Verif.CsvIO.C25_round_trip",
    "Verif.CsvIO.C25_carriage_return_lost",
    "Verif.CsvIO.C25_one_read",
    "Verif.CsvIO.C25_blank_rows_lost",
    "Verif.CsvIO.C25_lost_header",
    "Verif.CsvIO.C25_null_lost",
    "Verif.CsvIO.C25_text_retyped",
    "Verif.CsvIO.C25_other_cells",
    "Verif.CsvIO.C25_ragged",
    "Verif.CsvIO.C25_unusable_separator",
    "Verif.CsvIO.C25_separators",
    "Verif.CsvIO.C25_refused",
    "Verif.CsvIO.C25_header_error_costs_a_row",
    "Verif.CsvIO.C25_bare_quotes",
    "Verif.CsvIO.C25_lazy_quotes",
    "Verif.CsvIO.C25_defaults",
    "Verif.CsvIO.C25_options",
    "Verif.CsvIO.C25_line_ends"
   ],
   "note": "Every list of rows, header, separator and read sizes; encoding/csv is modelled on bytes; the closed form assumes that no read of the carriage return repair ends in a carriage return."
  },
  {
   "property": "C26",
   "status": "proved",
   "theorems": [
    "Verif.ReplaceCr.C26_read",
    "Verif.ReplaceCr.C26_one_read",
    "Verif.ReplaceCr.C26_transparent",
    "Verif.ReplaceCr.C26_only_line_feeds",
    "Verif.ReplaceCr.C26_false_for_every_size",
    "Verif.ReplaceCr.C26_reads_repair"
   ],
   "note": "Every input and every sequence of read sizes."
  },
  {
   "property": "C27",
   "status": "proved",
   "theorems": [
    "Verif.Streams.C27_count",
    "Verif.Streams.C27_transparent"
   ],
   "note": "Every byte reader and history of reads."
  },
  {
   "property": "C28",
   "status": "proved",
   "theorems": [
    "Verif.Stats.C28_reads",
    "Verif.Stats.C28_no_bins",
    "Verif.Stats.C28_numbers",
    "Verif.Stats.C28_number_of_value",
    "Verif.Stats.C28_mean",
    "Verif.Stats.C28_median",
    "Verif.Stats.C28_histogram",
    "Verif.Stats.C28_mass",
    "Verif.Stats.C28_extrema_wrong",
    "Verif.Stats.C28_median_missing",
    "Verif.Stats.C28_median_wrong",
    "Verif.Stats.C28_negative_frequency",
    "Verif.Stats.C28_closed_twice"
   ],
   "note": "Every reader and every sequence of values; float64 arithmetic on bits; int32 and float32 values are not modelled."
  },
  {
   "property": "C29",
   "status": "proved",
   "theorems": [
    "Verif.Stats.C29_empty",
    "Verif.Stats.C29_rows",
    "Verif.Stats.C29_fields",
    "Verif.Stats.C29_values",
    "Verif.Stats.C29_arrays",
    "Verif.Stats.C29_objects",
    "Verif.Stats.C29_order",
    "Verif.Stats.C29_strings",
    "Verif.Stats.C29_frequencies",
    "Verif.Stats.C29_booleans",
    "Verif.Stats.C29_nulls",
    "Verif.Stats.C29_first_value_decides",
    "Verif.Stats.C29_overwritten",
    "Verif.Stats.C29_cut"
   ],
   "note": "Every sequence of values; hyperloglog's estimate and go-topk's counts are arbitrary functions of the strings inserted."
  },
  {
   "property": "C30",
   "status": "proved",
   "theorems": [
    "Verif.Sketch.C30_size",
    "Verif.Sketch.C30_mass",
    "Verif.Sketch.C30_extrema",
    "Verif.Sketch.C30_exact",
    "Verif.Sketch.C30_closest",
    "Verif.Sketch.C30_ordered",
    "Verif.Sketch.C30_merge",
    "Verif.Sketch.C30_not_within",
    "Verif.Sketch.C30_overflow",
    "Verif.Sketch.C30_nan",
    "Verif.Sketch.C30_saturated",
    "Verif.Sketch.C30_merge_extrema"
   ],
   "note": "Every sequence of insertions of positive counts; float64 arithmetic is modelled on bits (rounding to nearest even, without fused multiply-add); order, range and mean in real arithmetic."
  },
  {
   "property": "C31",
   "status": "proved",
   "theorems": [
    "Verif.Sketch.C31_load",
    "Verif.Sketch.C31_load_only",
    "Verif.Sketch.C31_count",
    "Verif.Sketch.C31_lost",
    "Verif.Sketch.C31_empty",
    "Verif.Sketch.C31_text",
    "Verif.Sketch.C31_text_values",
    "Verif.Sketch.C31_more",
    "Verif.Sketch.C31_cut",
    "Verif.Sketch.C31_cut_value",
    "Verif.Sketch.C31_failed",
    "Verif.Sketch.C31_panic",
    "Verif.Sketch.C31_long_line",
    "Verif.Sketch.C31_long_extrema"
   ],
   "note": "On values of lines over any arithmetic, and on bytes with the scanner of fmt (Go/Scan). That the count is wrong after merging and that some cuts go unnoticed is part of the statement."
  },
  {
   "property": "C32",
   "status": "proved",
   "theorems": [
    "Verif.Tabular.C32_column",
    "Verif.Tabular.C32_accepts",
    "Verif.Tabular.C32_columns",
    "Verif.Tabular.C32_order_independent",
    "Verif.Tabular.C32_problems"
   ],
   "note": "Every schema; the order of iteration is an arbitrary permutation chosen for every column."
  },
  {
   "property": "C33",
   "status": "proved",
   "theorems": [
    "Verif.Tabular.C33_problems",
    "Verif.Tabular.C33_valid_iff",
    "Verif.Tabular.C33_generated_titles_valid",
    "Verif.Tabular.C33_generated_title_can_clash"
   ],
   "note": "Every list of columns; the regular expression is run by a small matcher."
  },
  {
   "property": "C34",
   "status": "proved",
   "theorems": [
    "Verif.Detect.C34_body",
    "Verif.Detect.C34_kept",
    "Verif.Detect.C34_filled",
    "Verif.Detect.C34_new",
    "Verif.Detect.C34_by_format",
    "Verif.Detect.C34_readable",
    "Verif.Detect.C34_complete",
    "Verif.Detect.C34_no_body",
    "Verif.Detect.C34_failed",
    "Verif.Detect.C34_failure_loses_bytes",
    "Verif.Detect.C34_fails_iff",
    "Verif.Detect.C34_again",
    "Verif.Detect.C34_compressed_refused"
   ],
   "note": "Every structure and body; how much of a body CSV detection has taken is a parameter; the schema maps shared between structures are not modelled as shared."
  },
  {
   "property": "C35",
   "status": "proved",
   "theorems": [
    "Verif.Detect.C35_closed_form",
    "Verif.Detect.C35_arrival",
    "Verif.Detect.C35_arrival_matters",
    "Verif.Detect.C35_failing",
    "Verif.Detect.C35_bytes"
   ],
   "note": "Every text and every division into reads."
  },
  {
   "property": "C36",
   "status": "proved",
   "theorems": [
    "Verif.Detect.C36_detect",
    "Verif.Detect.C36_reader",
    "Verif.Detect.C36_opened",
    "Verif.Detect.C36_reserved"
   ],
   "note": "Every body that delivers something in 100 reads."
  },
  {
   "property": "C37",
   "status": "proved",
   "theorems": [
    "Verif.Config.C37_round_trip_iff",
    "Verif.Config.C37_steps",
    "Verif.Config.C37_read_write",
    "Verif.Config.C37_script_kinds"
   ],
   "note": "Every list of scripts and every file content; reads and writes of the file itself do not fail."
  },
  {
   "property": "C38",
   "status": "proved",
   "theorems": [
    "Verif.Validate.C38_ok_iff",
    "Verif.Validate.C38_schema_first",
    "Verif.Validate.C38_read_error_iff",
    "Verif.Validate.C38_parse_error_iff",
    "Verif.Validate.C38_write_error",
    "Verif.Validate.C38_earlier_parse_error",
    "Verif.Validate.C38_terminates",
    "Verif.Validate.C38_rowwise",
    "Verif.Validate.C38_rowwise_at_once",
    "Verif.Validate.C38_empty_not_validated",
    "Verif.Validate.C38_not_at_once",
    "Verif.Validate.C38_repeated_key_unnoticed"
   ],
   "note": "Every reader and validator; json.Marshal and json.Unmarshal are modelled on bytes."
  },
  {
   "property": "C39",
   "status": "proved",
   "theorems": [
    "Verif.Config.C39_valid_name",
    "Verif.Config.C39_consequences"
   ],
   "note": "Every byte string; the regular expression is run by a small matcher."
  },
  {
   "property": "C40",
   "status": "proved",
   "theorems": [
    "Verif.Preview.C40_body_iff",
    "Verif.Preview.C40_rows",
    "Verif.Preview.C40_stops",
    "Verif.Preview.C40_json_array",
    "Verif.Preview.C40_json_object",
    "Verif.Preview.C40_object_bad_key",
    "Verif.Preview.C40_refused",
    "Verif.Preview.C40_body_file_alone_refused",
    "Verif.Preview.C40_readme",
    "Verif.Preview.C40_ellipsis_without_cut",
    "Verif.Preview.C40_readme_text_kept",
    "Verif.Preview.C40_readme_unreadable",
    "Verif.Preview.C40_frame",
    "Verif.Preview.C40_body",
    "Verif.Preview.C40_body_kept"
   ],
   "note": "Every dataset, file content and entry reader; files are contents that end well or with an error reported on its own."
  },
  {
   "property": "C41",
   "status": "proved",
   "theorems": [
    "Verif.Vals.C41_print_parse",
    "Verif.Vals.C41_printable",
    "Verif.Vals.C41_parsed_integers_do_not_print",
    "Verif.Vals.C41_parsed_others_print"
   ],
   "note": "For floats the hypothesis is that strconv's shortest text parses back."
  },
  {
   "property": "C42",
   "status": "proved",
   "theorems": [
    "Verif.Vals.C42_compare",
    "Verif.Vals.C42_reflexive",
    "Verif.Vals.C42_antisymmetric",
    "Verif.Vals.C42_transitive",
    "Verif.Vals.C42_nan",
    "Verif.Vals.C42_other_types"
   ],
   "note": "Float comparison on IEEE bits; parsing of float text is a parameter."
  },
  {
   "property": "C43",
   "status": "proved",
   "theorems": [
    "Verif.Vals.C43_boolean",
    "Verif.Vals.C43_number",
    "Verif.Vals.C43_integer",
    "Verif.Vals.C43_null_never_parses",
    "Verif.Vals.C43_large_integers_fail",
    "Verif.Vals.C43_integers_recognised",
    "Verif.Vals.C43_plus_is_text"
   ],
   "note": "Float text parsing is a parameter; the number case assumes that text accepted as float32 is accepted as float64."
  },
  {
   "property": "C44",
   "status": "proved",
   "theorems": [
    "Verif.Names.C44_format_parse_print",
    "Verif.Names.C44_format_spellings",
    "Verif.Names.C44_format_json",
    "Verif.Names.C44_compression_parse_print",
    "Verif.Vals.C44_type_parse_print",
    "Verif.Vals.C44_type_unknown",
    "Verif.Vals.C44_type_json"
   ],
   "note": "Every enumeration value and every string."
  },
  {
   "property": "C45",
   "status": "proved",
   "theorems": [
    "Verif.Config.C45_round_trip",
    "Verif.Config.C45_csv_accepted",
    "Verif.Config.C45_csv_values"
   ],
   "note": "Every options value and map."
  },
  {
   "property": "C46",
   "status": "proved",
   "theorems": [
    "Verif.Diff.C46_equal",
    "Verif.Diff.C46_deltas",
    "Verif.Diff.C46_agree",
    "Verif.Diff.C46_texts",
    "Verif.Diff.C46_json",
    "Verif.Diff.C46_arrays_fail",
    "Verif.Diff.C46_fields",
    "Verif.Diff.C46_structure",
    "Verif.Diff.C46_missing_is_empty",
    "Verif.Diff.C46_transform",
    "Verif.Diff.C46_script_path_incidental",
    "Verif.Diff.C46_same_path_hides",
    "Verif.Diff.C46_meta",
    "Verif.Diff.C46_viz",
    "Verif.Diff.C46_rounded_length",
    "Verif.Diff.C46_dataset",
    "Verif.Diff.C46_body_not_compared",
    "Verif.Diff.C46_summary",
    "Verif.Diff.C46_kinds",
    "Verif.Diff.C46_simple"
   ],
   "note": "Every pair of datasets; json.Marshal and Unmarshal on bytes.  gojsondiff is modelled as comparing two objects member by member with reflect.DeepEqual; its printing is a parameter."
  },
  {
   "property": "C47",
   "status": "proved",
   "theorems": [
    "Verif.Generate.C47_rows",
    "Verif.Generate.C47_exactly",
    "Verif.Generate.C47_schema",
    "Verif.Generate.C47_always_true",
    "Verif.Generate.C47_no_length",
    "Verif.Generate.C47_csv",
    "Verif.Generate.C47_csv_one_column"
   ],
   "note": "Every random source with Intn below its bound and finite NormFloat64; the CSV round trip assumes that ParseFloat inverts FormatFloat on finite numbers."
  },
  {
   "property": "C48",
   "status": "proved",
   "theorems": [
    "Verif.Render.C48_page",
    "Verif.Render.C48_all",
    "Verif.Render.C48_errors",
    "Verif.Render.C48_json",
    "Verif.Render.C48_json_no_entries",
    "Verif.Render.C48_json_large",
    "Verif.Render.C48_template",
    "Verif.Render.C48_template_large",
    "Verif.Render.C48_template_lost",
    "Verif.Render.C48_call_fails",
    "Verif.Render.C48_render",
    "Verif.Render.C48_render_errors",
    "Verif.Render.C48_render_json",
    "Verif.Render.C48_tree",
    "Verif.Render.C48_sizes",
    "Verif.Render.C48_isType",
    "Verif.Render.C48_title"
   ],
   "note": "The comment on Render promises a dataset safe for reuse; that fails for failing calls, for pages of no entries, and for bodies larger than the buffer. Templates are any sequence of calls; the library that parses them is a parameter."
  },
  {
   "property": "C49",
   "status": "proved",
   "theorems": [
    "Verif.Streams.C49_array",
    "Verif.Streams.C49_object"
   ],
   "note": "Every reader; errors whose text is EOF count as the end."
  },
  {
   "property": "C50",
   "status": "proved",
   "theorems": [
    "Verif.Doc.C50_fields_complete",
    "Verif.Doc.C50_only_the_named_field_changes",
    "Verif.Doc.C50_set_accepted",
    "Verif.Doc.C50_set_accepts_only_fitting",
    "Verif.Doc.C50_set_arbitrary",
    "Verif.Doc.C50_set_arbitrary_directly",
    "Verif.Doc.C50_path_is_arbitrary",
    "Verif.Doc.C50_rejected_string_clears_field",
    "Verif.Doc.C50_rejected_list_clears_field",
    "Verif.Doc.C50_rejected_citations_leave_gaps",
    "Verif.Doc.C50_rejected_unchanged_false",
    "Verif.Doc.C50_key_spelling",
    "Verif.Doc.C50_keys",
    "Verif.Doc.C50_rejected_license",
    "Verif.Doc.C50_rejected_citations",
    "Verif.Doc.C50_rejected_contributors"
   ],
   "note": "Every meta, key and JSON value."
  },
  {
   "property": "C51",
   "status": "proved",
   "theorems": [
    "Verif.Json.C51_reader_total",
    "Verif.JsonBuf.C51_buffered_total"
   ],
   "note": "Every input; C51_buffered_total is about the reader with its buffer."
  },
  {
   "property": "C52",
   "status": "proved",
   "theorems": [
    "Verif.JsonBuf.C52_buffered_array",
    "Verif.JsonBuf.C52_buffered_object",
    "Verif.JsonBuf.C52_fitting",
    "Verif.JsonBuf.C52_swallowed",
    "Verif.Json.C52_array_truncation",
    "Verif.Json.C52_object_truncation",
    "Verif.Json.C52_written_array_truncation"
   ],
   "note": "Every document and every cut before the closing bracket, for the reader with its buffer; the last three for the reader without one, and for what the writer wrote. C52_swallowed is the exception: [[9999999999999999999] reads as a complete body, because readArray swallows an error in its first element."
  },
  {
   "property": "C53",
   "status": "proved",
   "theorems": [
    "Verif.Streams.C53_json_to_cbor_array",
    "Verif.Streams.C53_cbor_to_json_array",
    "Verif.Streams.C53_json_to_cbor_object",
    "Verif.Streams.C53_any",
    "Verif.Streams.C53_chain",
    "Verif.Streams.C53_chain_every"
   ],
   "note": "Every list of entries the formats carry: the values of C16, C20, C23_same and C25_round_trip. CSV bodies arrive through the carriage return repair in blocks of any sizes that suffice for the text. Uncompressed bodies."
  },
  {
   "property": "C54",
   "status": "proved",
   "theorems": [
    "Verif.Names.C54_accepted_kinds_split",
    "Verif.Names.C54_accepted_iff",
    "Verif.Names.C54_prefix",
    "Verif.Names.C54_kinds",
    "Verif.Names.C54_separator_not_checked"
   ],
   "note": "Every string."
  },
  {
   "property": "C55",
   "status": "proved",
   "theorems": [
    "Verif.Vals.C55_convert_iff",
    "Verif.Vals.C55_equal_iff",
    "Verif.Vals.C55_pointers_differ"
   ],
   "note": "Every decoded value; the values compared are built separately, so no pointers are shared."
  },
  {
   "property": "C56",
   "status": "proved",
   "theorems": [
    "Verif.Tabular.C56_round_trip",
    "Verif.Tabular.C56_accepted",
    "Verif.Tabular.C56_read",
    "Verif.Tabular.C56_hasType",
    "Verif.Tabular.C56_unwritable_column"
   ],
   "note": "Every list of types and every JSON tree."
  },
  {
   "property": "C57",
   "status": "proved",
   "theorems": [
    "Verif.CsvIO.C57_progress",
    "Verif.CsvIO.C57_reading_ends",
    "Verif.CsvIO.C57_end_is_final"
   ],
   "note": "Every text."
  },
  {
   "property": "C58",
   "status": "proved",
   "theorems": [
    "Verif.CsvIO.C58_encode",
    "Verif.CsvIO.C58_refused",
    "Verif.CsvIO.C58_cells",
    "Verif.CsvIO.C58_addresses",
    "Verif.CsvIO.C58_read",
    "Verif.CsvIO.C58_round_trip"
   ],
   "note": "Calls of the spreadsheet library are observed; the library itself is not modelled."
  },
  {
   "property": "C59",
   "status": "proved",
   "theorems": [
    "Verif.Detect.C59_detected",
    "Verif.Detect.C59_fails",
    "Verif.Detect.C59_homogeneous",
    "Verif.Detect.C59_examined",
    "Verif.Detect.C59_written",
    "Verif.Detect.C59_opens",
    "Verif.Detect.C59_spaces"
   ],
   "note": "Every text; float parsing and the making of variable names are parameters."
  },
  {
   "property": "C60",
   "status": "proved",
   "theorems": [
    "Verif.Detect.C60_described",
    "Verif.Detect.C60_others"
   ],
   "note": "Every value."
  },
  {
   "property": "C61",
   "status": "proved",
   "theorems": [
    "Verif.Sketch.C61_exact",
    "Verif.Sketch.C61_bounds",
    "Verif.Sketch.C61_not_monotone"
   ],
   "note": "Exact values in float64 arithmetic, bounds after merging in real arithmetic."
  },
  {
   "property": "C62",
   "status": "proved",
   "theorems": [
    "Verif.Sketch.C62_exact",
    "Verif.Sketch.C62_median",
    "Verif.Sketch.C62_within",
    "Verif.Sketch.C62_median_wrong"
   ],
   "note": "Exact values in float64 arithmetic, bounds after merging in real arithmetic."
  },
  {
   "property": "C63",
   "status": "proved",
   "theorems": [
    "Verif.Sketch.C63_add_many",
    "Verif.Sketch.C63_rounding"
   ],
   "note": "Equality in real arithmetic; the difference in float64 arithmetic by a concrete witness."
  },
  {
   "property": "C64",
   "status": "proved",
   "theorems": [
    "Verif.Validate.C64_ok_iff",
    "Verif.Validate.C64_length_iff",
    "Verif.Validate.C64_unreadable_iff",
    "Verif.Validate.C64_written"
   ],
   "note": "Every byte string; what the csv package reads is Go/Csv."
  },
  {
   "property": "C65",
   "status": "proved",
   "theorems": [
    "Verif.Validate.C65_dataset_iff",
    "Verif.Validate.C65_first_error"
   ],
   "note": "Every dataset."
  },
  {
   "property": "C66",
   "status": "proved",
   "theorems": [
    "Verif.Sketch.C66_defined",
    "Verif.Sketch.C66_parts",
    "Verif.Sketch.C66_extrema",
    "Verif.Sketch.C66_optimal",
    "Verif.Sketch.C66_small",
    "Verif.Sketch.C66_small_counts",
    "Verif.Sketch.C66_marked",
    "Verif.Sketch.C66_overflow"
   ],
   "note": "Optimality is proved over real numbers (the source's own claim, which rounding of float64 does not keep to the last bit); shape, counts and extrema are proved for float64."
  },
  {
   "property": "C67",
   "status": "proved",
   "theorems": [
    "Verif.Files.C67_open",
    "Verif.Files.C67_inline",
    "Verif.Files.C67_open_keeps",
    "Verif.Files.C67_reopen",
    "Verif.Files.C67_lost",
    "Verif.Files.C67_inline_keeps",
    "Verif.Files.C67_inline_settles",
    "Verif.Files.C67_lost_readme",
    "Verif.Files.C67_rendered",
    "Verif.Files.C67_body_value",
    "Verif.Files.C67_body_bytes",
    "Verif.Files.C67_body_path",
    "Verif.Files.C67_body_error"
   ],
   "note": "Resolvers are arbitrary functions of the path and of the files there are; contexts are not modelled."
  },
  {
   "property": "C68",
   "status": "proved",
   "theorems": [
    "Verif.Doc.C68_shallow",
    "Verif.Doc.C68_shallow_transform",
    "Verif.Doc.C68_shallow_equivalence",
    "Verif.Doc.C68_commits",
    "Verif.Doc.C68_metas",
    "Verif.Doc.C68_structures",
    "Verif.Doc.C68_datasets",
    "Verif.Doc.C68_datasets_drop",
    "Verif.Doc.C68_drop_self",
    "Verif.Doc.C68_violated",
    "Verif.Doc.C68_pure"
   ],
   "note": "Two promises of comments in dstest/compare.go are refuted by C68_violated. reflect.DeepEqual's shortcut for identical maps is not modelled (it matters only for NaN)."
  },
  {
   "property": "C69",
   "status": "proved",
   "theorems": [
    "Verif.Formats.C69_writer",
    "Verif.Formats.C69_reader",
    "Verif.Formats.C69_panics",
    "Verif.Formats.C69_written_readable",
    "Verif.Formats.C69_readable_writable",
    "Verif.Formats.C69_compression",
    "Verif.Formats.C69_round_trip",
    "Verif.Formats.C69_convert",
    "Verif.Formats.C69_convert_window",
    "Verif.Formats.C69_convert_error",
    "Verif.Formats.C69_convert_json",
    "Verif.Formats.C69_convert_written",
    "Verif.Formats.C69_buffer"
   ],
   "note": "Codecs and the spreadsheet library are parameters (Env); that gzip readers refuse an empty source and excelize an empty file are hypotheses of C69_buffer. A decompressor failing in the middle is not represented."
  },
  {
   "property": "C70",
   "status": "proved",
   "theorems": [
    "Verif.Vals.C70_values",
    "Verif.Vals.C70_text",
    "Verif.Vals.C70_invalid",
    "Verif.Vals.C70_strings",
    "Verif.Vals.C70_integers",
    "Verif.Vals.C70_unread_numbers",
    "Verif.Vals.C70_whitespace",
    "Verif.Vals.C70_never_equal"
   ],
   "note": "encoding/json's scanner is modelled on bytes and proved to accept exactly the RFC grammar (checkValid_iff); strconv's float parsing is a parameter, that it accepts no whitespace is a hypothesis (NoSpaces)."
  },
  {
   "property": "C71",
   "status": "proved",
   "theorems": [
    "Verif.Hash.C71_form",
    "Verif.Hash.C71_decodes",
    "Verif.Hash.C71_injective",
    "Verif.Hash.C71_structure_text",
    "Verif.Hash.C71_structure_hash",
    "Verif.Hash.C71_reference_hash",
    "Verif.Hash.C71_hash_fails",
    "Verif.Hash.C71_abstract",
    "Verif.Hash.C71_tabular"
   ],
   "note": "SHA-256 and base58 are written out (Go/Sha256) and checked against the hashes in the repository's tests; that SHA-256 does not collide on the two texts compared is a hypothesis. Floats in maps must print to what parses back (Textual)."
  },
  {
   "property": "C72",
   "status": "proved",
   "theorems": [
    "Verif.Accrual.C72_known",
    "Verif.Accrual.C72_duration",
    "Verif.Accrual.C72_wrong"
   ],
   "note": ""
  },
  {
   "property": "C73",
   "status": "proved",
   "theorems": [
    "Verif.CborBuf.C73_same",
    "Verif.CborBuf.C73_no_bytes",
    "Verif.CborBuf.C73_at_once",
    "Verif.CborBuf.C73_small",
    "Verif.CborBuf.C73_small_all",
    "Verif.CborBuf.C73_array_roundtrip",
    "Verif.CborBuf.C73_object_roundtrip",
    "Verif.CborBuf.C73_overwritten",
    "Verif.CborBuf.C73_row_overwritten",
    "Verif.CborBuf.C73_overwritten_witness"
   ],
   "note": "Read errors of the source other than end of file are not modelled. NewCBORReader given a bufio.Reader that is already larger than 4096 bytes uses that; this is not modelled."
  },
  {
   "property": "C74",
   "status": "proved",
   "theorems": [
    "Verif.DocText.C74_read_iff",
    "Verif.DocText.C74_same_value",
    "Verif.DocText.C74_dataset_round_trip",
    "Verif.DocText.C74_commit_round_trip",
    "Verif.DocText.C74_structure_round_trip",
    "Verif.DocText.C74_stats_round_trip",
    "Verif.DocText.C74_transform_round_trip",
    "Verif.DocText.C74_meta_round_trip",
    "Verif.DocText.C74_readme_round_trip",
    "Verif.DocText.C74_viz_round_trip",
    "Verif.DocText.C74_text_determines",
    "Verif.DocText.C74_has_text",
    "Verif.DocText.C74_secrets_do_not_show",
    "Verif.DocText.C74_members",
    "Verif.DocText.C74_dataset_strings",
    "Verif.DocText.C74_dataset_type_errors",
    "Verif.DocText.C74_dataset_body",
    "Verif.DocText.C74_components_replaced",
    "Verif.DocText.C74_reference",
    "Verif.DocText.C74_meta_unknown_kept",
    "Verif.DocText.C74_null",
    "Verif.DocText.C74_maps_merged",
    "Verif.DocText.C74_secrets_merged",
    "Verif.DocText.C74_sources",
    "Verif.DocText.C74_trees"
   ],
   "note": "Float formatting and parsing are parameters. Spellings of times on which versions of Go differ, and arrays that come twice for one list field, are reported as outside the model."
  },
  {
   "property": "C75",
   "status": "proved",
   "theorems": [
    "Verif.Vals.C75_fits",
    "Verif.Vals.C75_panic_text",
    "Verif.Vals.C75_isNull",
    "Verif.Vals.C75_rebuild",
    "Verif.Vals.C75_converted",
    "Verif.Vals.C75_missing",
    "Verif.Vals.C75_text",
    "Verif.Vals.C75_keyed_equal",
    "Verif.Vals.C75_plain_equal",
    "Verif.Vals.C75_json",
    "Verif.Vals.C75_kind_lost",
    "Verif.Vals.C75_number",
    "Verif.Vals.C75_names"
   ],
   "note": "The order of Keys is a parameter, as are float formatting and parsing."
  },
  {
   "property": "C76",
   "status": "proved",
   "theorems": [
    "Verif.Doc.C76_read",
    "Verif.Doc.C76_same_instant",
    "Verif.Doc.C76_write",
    "Verif.Doc.C76_refused",
    "Verif.Doc.C76_utc",
    "Verif.Doc.C76_signed"
   ],
   "note": "Offsets are whole minutes below a day. Texts on which versions of Go differ (one-digit hours, more than nine digits of a fraction, offsets of a day or more) count as not understood."
  },
  {
   "property": "C77",
   "status": "proved",
   "theorems": [
    "Verif.Doc.C77_empty_iff",
    "Verif.Doc.C77_reference_iff",
    "Verif.Doc.C77_reference_read",
    "Verif.Doc.C77_kinds"
   ],
   "note": "Kinds are stated for what JSON can carry; C06 and C07 say what else comes back."
  },
  {
   "property": "C78",
   "status": "proved",
   "theorems": [
    "Verif.Formats.C78_stats",
    "Verif.Formats.C78_validation",
    "Verif.Formats.C78_read_all",
    "Verif.Formats.C78_read_all_object",
    "Verif.Formats.C78_window",
    "Verif.Formats.C78_preview",
    "Verif.Formats.C78_convert",
    "Verif.Formats.C78_convert_object"
   ],
   "note": "Structures that can hold a body are those of C69 (spreadsheets are written and read by a library and not among them). Validation is compared under the same schema, for arrays."
  },
  {
   "property": "C79",
   "status": "proved",
   "theorems": [
    "Verif.Formats.C79_json",
    "Verif.Formats.C79_cbor",
    "Verif.Formats.C79_cbor_empty",
    "Verif.Formats.C79_ndjson",
    "Verif.Formats.C79_converted",
    "Verif.Formats.C79_csv"
   ],
   "note": "CSV: what the carriage return repair delivers to detection is taken to be the repaired text (C26 says when)."
  },
  {
   "property": "C80",
   "status": "proved",
   "theorems": [
    "Verif.Vals.C80_parse",
    "Verif.Vals.C80_grammar",
    "Verif.Vals.C80_print_parse",
    "Verif.Vals.C80_others_print",
    "Verif.Vals.C80_guess",
    "Verif.Vals.C80_guess_sound",
    "Verif.Vals.C80_guess_complete"
   ],
   "note": "encoding/json is the decoder model of Go/JsonParse (hypothesis Std), its encoder that of Go/JsonText."
  },
  {
   "property": "C81",
   "status": "proved",
   "theorems": [
    "Verif.FloatText.C81_nearest",
    "Verif.FloatText.C81_range",
    "Verif.FloatText.C81_syntax",
    "Verif.FloatText.C81_round_trip",
    "Verif.FloatText.C81_special",
    "Verif.FloatText.C81_shortest",
    "Verif.FloatText.C81_form",
    "Verif.FloatText.C81_underscores",
    "Verif.FloatText.C81_hexadecimal",
    "Verif.FloatText.C81_texts"
   ],
   "note": "strconv and the float encoder of encoding/json are modelled in Go/FloatText: exact fractions rounded once, digits by search for the shortest."
  },
  {
   "property": "C82",
   "status": "proved",
   "theorems": [
    "Verif.FloatText.C82_json_float",
    "Verif.FloatText.C82_json_text",
    "Verif.FloatText.C82_json_whole",
    "Verif.FloatText.C82_json_large",
    "Verif.FloatText.C82_json_body",
    "Verif.FloatText.C82_changed",
    "Verif.FloatText.C82_kept",
    "Verif.FloatText.C82_csv",
    "Verif.FloatText.C82_widen",
    "Verif.FloatText.C82_no_spaces",
    "Verif.FloatText.C82_integers",
    "Verif.FloatText.C82_range32",
    "Verif.FloatText.C82_guess",
    "Verif.FloatText.C82_guessed_text",
    "Verif.FloatText.C82_cells",
    "Verif.FloatText.C82_generated"
   ],
   "note": "The float text parameters of C15, C16, C25, C41, C43, C47, C70 and C75 instantiated with Go/FloatText. Large whole floats changing or becoming unreadable in JSON bodies are proved as found."
  },
  {
   "property": "C83",
   "status": "proved",
   "theorems": [
    "Verif.TextForms.C83_base64",
    "Verif.TextForms.C83_base64_read",
    "Verif.TextForms.C83_string",
    "Verif.TextForms.C83_stray",
    "Verif.TextForms.C83_value",
    "Verif.TextForms.C83_body",
    "Verif.TextForms.C83_csv"
   ],
   "note": "The models of encoding/json, encoding/base64 and encoding/csv output (Go/JsonText, Go/Base64, Go/Csv) against independent descriptions."
  },
  {
   "property": "C84",
   "status": "proved",
   "theorems": [
    "Verif.Disk.C84_golden_check",
    "Verif.Disk.C84_golden_update"
   ],
   "note": "json.MarshalIndent of the dataset is the indented form of the same value as json.Marshal writes; ioutil.WriteFile writes all or panics."
  },
  {
   "property": "C85",
   "status": "proved",
   "theorems": [
    "Verif.Disk.C85_loads",
    "Verif.Disk.C85_case",
    "Verif.Disk.C85_all",
    "Verif.Disk.C85_body_path",
    "Verif.Disk.C85_body_path_differs",
    "Verif.Disk.C85_files",
    "Verif.Disk.C85_from_file",
    "Verif.Disk.C85_json_file",
    "Verif.Disk.C85_step_file"
   ],
   "note": "A disk is a function from paths to nothing, something that cannot be opened, directories and files; paths are not cleaned."
  },
  {
   "property": "C86",
   "status": "proved",
   "theorems": [
    "Verif.Dsgen.C86_number",
    "Verif.Dsgen.C86_number_underscores",
    "Verif.Dsgen.C86_flags",
    "Verif.Dsgen.C86_usage",
    "Verif.Dsgen.C86_usage_before",
    "Verif.Dsgen.C86_main",
    "Verif.Dsgen.C86_generate",
    "Verif.Dsgen.C86_rows",
    "Verif.Dsgen.C86_separator",
    "Verif.Dsgen.C86_fixed_text",
    "Verif.Dsgen.C86_fixed_size",
    "Verif.Dsgen.C86_fixed_default",
    "Verif.Dsgen.C86_fixed_read",
    "Verif.Dsgen.C86_fixed_distinct",
    "Verif.Dsgen.C86_fixed_diff"
   ],
   "note": "Standard output never fails; flag.Parse and strconv.ParseInt with base 0 are modelled; the texts of help and errors are not."
  },
  {
   "property": "C87",
   "status": "proved",
   "theorems": [
    "Verif.CborItem.C87_item",
    "Verif.CborItem.C87_aligned",
    "Verif.CborItem.C87_array",
    "Verif.CborItem.C87_object",
    "Verif.CborItem.C87_tag",
    "Verif.CborItem.C87_simple",
    "Verif.CborItem.C87_short_floats",
    "Verif.CborItem.C87_written",
    "Verif.CborItem.C87_read_back",
    "Verif.CborItem.C87_shortest"
   ],
   "note": "Items (Spec/CborItem) are data items with the choices of their encoding; what they stand for is stated from RFC 8949 and IEEE 754, not from the reader. That short floats, tags, long negative integers and large unsigned integers are misread or rejected is part of the statement."
  },
  {
   "property": "C88",
   "status": "proved",
   "theorems": [
    "Verif.JsonBuf.C88_array",
    "Verif.JsonBuf.C88_object",
    "Verif.JsonBuf.C88_question_marks",
    "Verif.JsonBuf.C88_question_keys",
    "Verif.JsonBuf.C88_integers",
    "Verif.JsonBuf.C88_fractions",
    "Verif.JsonBuf.C88_dialect"
   ],
   "note": "What a text stands for (Spec/JsonMeaning) is stated from RFC 8259; that surrogates become question marks is part of the statement (Go 1.17 and later; before, each was U+FFFD). The bound for fractions is for texts up to 9000 bytes, as in C81."
  },
  {
   "property": "C89",
   "status": "proved",
   "theorems": [
    "Verif.Ndjson.C89_line",
    "Verif.Ndjson.C89_lone_surrogates",
    "Verif.Ndjson.C89_out_of_range",
    "Verif.Ndjson.C89_body",
    "Verif.Ndjson.C89_range",
    "Verif.Ndjson.C89_numbers"
   ],
   "note": "What a text stands for (Spec/JsonSays) is stated from RFC 8259, for numbers as floats. encoding/json is modelled from its documentation. Range and nearest are for texts up to 9000 bytes, as in C81. That an unterminated last line is lost is part of the statement."
  },
  {
   "property": "C90",
   "status": "proved",
   "theorems": [
    "Verif.CsvIO.C90_text",
    "Verif.CsvIO.C90_one_read",
    "Verif.CsvIO.C90_any_reads",
    "Verif.CsvIO.C90_every_table",
    "Verif.CsvIO.C90_unique"
   ],
   "note": "Spec/CsvText gives the grammar. encoding/csv is modelled from its documentation; a read that ends in a lone carriage return is the case C26 shows to fail."
  },
  {
   "property": "C91",
   "status": "proved",
   "theorems": [
    "Verif.Fuzz.C91_total",
    "Verif.Fuzz.C91_no_panic",
    "Verif.Fuzz.C91_objects",
    "Verif.Fuzz.C91_other",
    "Verif.Fuzz.C91_cut",
    "Verif.Fuzz.C91_cut_panics"
   ],
   "note": "The reader is the buffered one (Model/JsonBuf) with the buffer of NewJSONReader and a source that delivers all it has. The panic is the defect C18 shows for all sizes, here for objects; the repository's comment promises 0 or 1."
  },
  {
   "property": "C92",
   "status": "proved",
   "theorems": [
    "Verif.EntryBuffer.C92_ndjson",
    "Verif.EntryBuffer.C92_ndjson_bytes",
    "Verif.EntryBuffer.C92_json",
    "Verif.EntryBuffer.C92_json_refused",
    "Verif.EntryBuffer.C92_json_object",
    "Verif.EntryBuffer.C92_cbor",
    "Verif.EntryBuffer.C92_cbor_object",
    "Verif.EntryBuffer.C92_csv",
    "Verif.EntryBuffer.C92_csv_cut"
   ],
   "note": "Uncompressed structures. Each theorem says that the answers to all calls are those of a queue. The bufio.Reader between the buffer and the reader is modelled for newline-delimited JSON; JSON and CBOR are read as they are when everything pending fits the buffer of their reader. The writer of the CSV library holds text back in a bufio.Writer; how much has left it early is a parameter, of which C92_csv assumes that nothing leaves up to 4092 bytes, and C92_csv_cut (a witness) that full buffers of 4096 bytes leave. Values are the normalised ones of C16 and C23, those of C20, and rows as in C25."
  }
 ]
}