{
 "claims": [
  {
   "property": "C01",
   "status": "proved",
   "theorems": [
    "FT.Props.C01_u8",
    "FT.Props.C01_u16",
    "FT.Props.C01_u32",
    "FT.Props.C01_i8",
    "FT.Props.C01_i16",
    "FT.Props.C01_i32",
    "FT.Props.C01_i64",
    "FT.Props.C01_u24",
    "FT.Props.C01_tag",
    "FT.Props.C01_tag_reader_valid"
   ],
   "note": ""
  },
  {
   "property": "C02",
   "status": "proved",
   "theorems": [
    "FT.Props.C02_counted",
    "FT.Props.C02_counted32",
    "FT.Props.C02_counted_truncates",
    "FT.Props.C02_counted_65536_lost"
   ],
   "note": ""
  },
  {
   "property": "C03",
   "status": "proved",
   "theorems": [
    "FT.Props.C03_u8",
    "FT.Props.C03_u16",
    "FT.Props.C03_u32",
    "FT.Props.C03_i8",
    "FT.Props.C03_i16",
    "FT.Props.C03_i32",
    "FT.Props.C03_i64",
    "FT.Props.C03_counted"
   ],
   "note": ""
  },
  {
   "property": "C04",
   "status": "proved",
   "theorems": [
    "FT.Props.C04_rounding_exact",
    "FT.Props.C04_rounding_error",
    "FT.Props.C04_f2dot14",
    "FT.Props.C04_f2dot14_value",
    "FT.Props.C04_f2dot14_bytes",
    "FT.Props.C04_fixed",
    "FT.Props.C04_fixed_bytes",
    "FT.Props.C04_fixed_values",
    "FT.Props.C04_fixed_whole",
    "FT.Props.C04_fixed_large_odd_changes",
    "FT.Props.C04_f2dot14_two_refused",
    "FT.Props.C04_f2dot14_range",
    "FT.Props.C04_fixed_nearest",
    "FT.Props.C04_fixed_far",
    "FT.Props.C04_fixed_saturates",
    "FT.Props.C04_f2dot14_nearest",
    "FT.Props.C04_fixed_not_nearest"
   ],
   "note": "single precision modelled as round-to-nearest-even over the rationals"
  },
  {
   "property": "C05",
   "status": "proved",
   "theorems": [
    "FT.Props.C05_offsets_right",
    "FT.Props.C05_outcome",
    "FT.Props.C05_small_succeeds"
   ],
   "note": "any table shape, given as the sequence of what its fields write; an optional offset field that overflows panics instead of returning an error"
  },
  {
   "property": "C06",
   "status": "proved",
   "theorems": [
    "FT.Props.C06_offset16",
    "FT.Props.C06_offset32"
   ],
   "note": ""
  },
  {
   "property": "C07",
   "status": "proved",
   "theorems": [
    "FT.Props.C07_roundtrip",
    "FT.Props.C07_any_list",
    "FT.Props.C07_last_glyph_panics",
    "FT.Props.C07_max_inside_panics",
    "FT.Props.C07_index",
    "FT.Props.C07_size"
   ],
   "note": ""
  },
  {
   "property": "C08",
   "status": "proved",
   "theorems": [
    "FT.Props.C08_roundtrip",
    "FT.Props.C08_empty",
    "FT.Props.C08_too_big_panics",
    "FT.Props.C08_get_glyphs",
    "FT.Props.C08_class_zero_glyphs_change"
   ],
   "note": ""
  },
  {
   "property": "C09",
   "status": "proved",
   "theorems": [
    "FT.Props.C09_roundtrip",
    "FT.Props.C09_equal_iff_fits",
    "FT.Props.C09_other_formats_panic",
    "FT.Props.C09_suggested_format_loses",
    "FT.Props.C09_suggested_format_ok",
    "FT.Props.C09_suggested_format_iff"
   ],
   "note": ""
  },
  {
   "property": "C10",
   "status": "proved",
   "theorems": [
    "FT.Props.C10_roundtrip",
    "FT.Props.C10_roundtrip_plain",
    "FT.Props.C10_y_device_follows_x",
    "FT.Props.C10_simplify",
    "FT.Props.C10_coerce",
    "FT.Props.C10_devices_not_coerced"
   ],
   "note": ""
  },
  {
   "property": "C100",
   "status": "proved",
   "theorems": [
    "FT.Props.C100_stretches",
    "FT.Props.C100_lost",
    "FT.Props.C100_kept",
    "FT.Props.C100_polygon",
    "FT.Props.C100_panics",
    "FT.Props.C100_circle_cut",
    "FT.Props.C100_variable",
    "FT.Props.C100_accepts",
    "FT.Props.C100_no_glyphs",
    "FT.Props.C100_tables",
    "FT.Props.C100_file",
    "FT.Props.C100_ends"
   ],
   "note": ""
  },
  {
   "property": "C101",
   "status": "proved",
   "theorems": [
    "FT.Props.C101_prints",
    "FT.Props.C101_dump",
    "FT.Props.C101_load",
    "FT.Props.C101_ends",
    "FT.Props.C101_lost"
   ],
   "note": ""
  },
  {
   "property": "C102",
   "status": "proved",
   "theorems": [
    "FT.Props.C102_search",
    "FT.Props.C102_declines",
    "FT.Props.C102_breaks",
    "FT.Props.C102_table",
    "FT.Props.C102_optimiser",
    "FT.Props.C102_intersect",
    "FT.Props.C102_best",
    "FT.Props.C102_stored"
   ],
   "note": ""
  },
  {
   "property": "C103",
   "status": "proved",
   "theorems": [
    "FT.Props.C103_equal",
    "FT.Props.C103_equivalence",
    "FT.Props.C103_lookup_differs",
    "FT.Props.C103_lookup_again",
    "FT.Props.C103_lookup",
    "FT.Props.C103_font",
    "FT.Props.C103_counting",
    "FT.Props.C103_bytes_differ"
   ],
   "note": ""
  },
  {
   "property": "C104",
   "status": "proved",
   "theorems": [
    "FT.Props.C104_adds",
    "FT.Props.C104_refuses",
    "FT.Props.C104_panics",
    "FT.Props.C104_location",
    "FT.Props.C104_own_name",
    "FT.Props.C104_same_tag",
    "FT.Props.C104_names",
    "FT.Props.C104_unambiguous",
    "FT.Props.C104_numbers",
    "FT.Props.C104_clash",
    "FT.Props.C104_segment",
    "FT.Props.C104_default_master",
    "FT.Props.C104_unmentioned",
    "FT.Props.C104_fraction",
    "FT.Props.C104_master_location",
    "FT.Props.C104_default_place",
    "FT.Props.C104_off_origin",
    "FT.Props.C104_masters"
   ],
   "note": ""
  },
  {
   "property": "C105",
   "status": "proved",
   "theorems": [
    "FT.Props.C105_macro",
    "FT.Props.C105_content",
    "FT.Props.C105_from_raw",
    "FT.Props.C105_quotes_dropped",
    "FT.Props.C105_form_feed",
    "FT.Props.C105_skips",
    "FT.Props.C105_two_digits",
    "FT.Props.C105_text",
    "FT.Props.C105_same",
    "FT.Props.C105_order",
    "FT.Props.C105_hash"
   ],
   "note": "Hashing is that of Rust's standard library."
  },
  {
   "property": "C106",
   "status": "proved",
   "theorems": [
    "FT.Props.C106_survives",
    "FT.Props.C106_writes",
    "FT.Props.C106_round_trip",
    "FT.Props.C106_no_panic",
    "FT.Props.C106_declarations",
    "FT.Props.C106_unbased",
    "FT.Props.C106_unembedded",
    "FT.Props.C106_inline",
    "FT.Props.C106_cleared"
   ],
   "note": "Maybe(..) and plain Vec fields are left out."
  },
  {
   "property": "C107",
   "status": "proved",
   "theorems": [
    "FT.Props.C107_written",
    "FT.Props.C107_read",
    "FT.Props.C107_only"
   ],
   "note": ""
  },
  {
   "property": "C108",
   "status": "proved",
   "theorems": [
    "FT.Props.C108_head",
    "FT.Props.C108_maxp",
    "FT.Props.C108_set_num_glyphs",
    "FT.Props.C108_post",
    "FT.Props.C108_set_version",
    "FT.Props.C108_version_panics",
    "FT.Props.C108_just_above_two",
    "FT.Props.C108_made_iff",
    "FT.Props.C108_stat"
   ],
   "note": ""
  },
  {
   "property": "C109",
   "status": "proved",
   "theorems": [
    "FT.Props.C109_same_bytes",
    "FT.Props.C109_script_list",
    "FT.Props.C109_feature_list",
    "FT.Props.C109_gsub_subtables",
    "FT.Props.C109_cursive",
    "FT.Props.C109_mark_array",
    "FT.Props.C109_reads_script_list",
    "FT.Props.C109_reads_feature_list",
    "FT.Props.C109_reads_gsub",
    "FT.Props.C109_reads_single",
    "FT.Props.C109_reads_contextual",
    "FT.Props.C109_reads_chaining",
    "FT.Props.C109_reads_cursive",
    "FT.Props.C109_reads_mark_array",
    "FT.Props.C109_reads_math_construction",
    "FT.Props.C109_reads_math",
    "FT.Props.C109_reads_gdef",
    "FT.Props.C109_reads_cmap",
    "FT.Props.C109_reads_header",
    "FT.Props.C109_cmap14",
    "FT.Props.C109_cmap12",
    "FT.Props.C109_attach_list",
    "FT.Props.C109_mark_sets",
    "FT.Props.C109_gdef12",
    "FT.Props.C109_gdef13",
    "FT.Props.C109_reads_gdefcore",
    "FT.Props.C109_store",
    "FT.Props.C109_store_data",
    "FT.Props.C109_reads_store",
    "FT.Props.C109_avar",
    "FT.Props.C109_reads_avar",
    "FT.Props.C109_coverage",
    "FT.Props.C109_reads_coverage",
    "FT.Props.C109_classdef",
    "FT.Props.C109_reads_classdef"
   ],
   "note": "The two models were written independently; coverage, class definitions, anchors, rules, carets, lookups, item variation stores and two structures of MATH are types with own code. C109_gdef12 and C109_gdef13 do not cover carets of format 3, whose hand-written code lists an offset to a device."
  },
  {
   "property": "C11",
   "status": "proved",
   "theorems": [
    "FT.Props.C11_roundtrip",
    "FT.Props.C11_bytes",
    "FT.Props.C11_overflow_panics"
   ],
   "note": ""
  },
  {
   "property": "C110",
   "status": "proved",
   "theorems": [
    "FT.Props.C110_declares",
    "FT.Props.C110_only",
    "FT.Props.C110_writes",
    "FT.Props.C110_reads",
    "FT.Props.C110_compiles",
    "FT.Props.C110_ignored",
    "FT.Props.C110_no_parentheses",
    "FT.Props.C110_crates_compile",
    "FT.Props.C110_crates"
   ],
   "note": "Maybe(..) is in the macro model but not in the run of derived code; generics and Self are left out."
  },
  {
   "property": "C111",
   "status": "proved",
   "theorems": [
    "FT.Props.C111_graph",
    "FT.Props.C111_empty_panics"
   ],
   "note": "The depth-first layout is Model/Offsets, whose properties are C05 and others; petgraph is modelled from its documentation."
  },
  {
   "property": "C112",
   "status": "proved",
   "theorems": [
    "FT.Props.C112_equal",
    "FT.Props.C112_order",
    "FT.Props.C112_transitive",
    "FT.Props.C112_hash",
    "FT.Props.C112_outside",
    "FT.Props.C112_three_is_five"
   ],
   "note": "Numbers are rationals that an f32 can be (IsF32); NaN and infinities are not modelled."
  },
  {
   "property": "C113",
   "status": "proved",
   "theorems": [
    "FT.Props.C113_sizes",
    "FT.Props.C113_read",
    "FT.Props.C113_resolved",
    "FT.Props.C113_small",
    "FT.Props.C113_equal",
    "FT.Props.C113_bytes",
    "FT.Props.C113_again"
   ],
   "note": "Over all declarations of Model/Derive, with needs_resolving, total_size_with_descendants, any_offsets_need_resolving and resolve_offsets in Model/DeriveAsk. C113_read and C113_equal need no hypotheses on the declaration; the others need the declaration to be well formed as in C106."
  },
  {
   "property": "C12",
   "status": "proved",
   "theorems": [
    "FT.Props.C12_multiple",
    "FT.Props.C12_alternate",
    "FT.Props.C12_bytes"
   ],
   "note": ""
  },
  {
   "property": "C13",
   "status": "proved",
   "theorems": [
    "FT.Props.C13_roundtrip",
    "FT.Props.C13_longest",
    "FT.Props.C13_empty_key_panics",
    "FT.Props.C13_bytes"
   ],
   "note": ""
  },
  {
   "property": "C14",
   "status": "proved",
   "theorems": [
    "FT.Props.C14_collation",
    "FT.Props.C14_positions",
    "FT.Props.C14_record_order_lost",
    "FT.Props.C14_chained_roundtrip",
    "FT.Props.C14_chained_bytes",
    "FT.Props.C14_plain_never_written",
    "FT.Props.C14_plain_low_never_written",
    "FT.Props.C14_reverse"
   ],
   "note": ""
  },
  {
   "property": "C15",
   "status": "proved",
   "theorems": [
    "FT.Props.C15_roundtrip",
    "FT.Props.C15_mixed_formats_corrupt"
   ],
   "note": "The guard is the one in the statement; records with different fields are shown to corrupt."
  },
  {
   "property": "C16",
   "status": "proved",
   "theorems": [
    "FT.Props.C16_mark_to_base",
    "FT.Props.C16_mark_to_mark",
    "FT.Props.C16_anchors",
    "FT.Props.C16_last_class_panics"
   ],
   "note": ""
  },
  {
   "property": "C17",
   "status": "proved",
   "theorems": [
    "FT.Props.C17_language_exact",
    "FT.Props.C17_sentinel_lost",
    "FT.Props.C17_scripts",
    "FT.Props.C17_features",
    "FT.Props.C17_null_record_panics"
   ],
   "note": ""
  },
  {
   "property": "C18",
   "status": "proved",
   "theorems": [
    "FT.Props.C18_file_checksum",
    "FT.Props.C18_saving_succeeds_iff",
    "FT.Props.C18_checksum"
   ],
   "note": ""
  },
  {
   "property": "C19",
   "status": "proved",
   "theorems": [
    "FT.Props.C19_save_reload"
   ],
   "note": ""
  },
  {
   "property": "C20",
   "status": "proved",
   "theorems": [
    "FT.Props.C20_directory"
   ],
   "note": ""
  },
  {
   "property": "C21",
   "status": "proved",
   "theorems": [
    "FT.Props.C21_search_fields",
    "FT.Props.C21_overflow",
    "FT.Props.C21_written"
   ],
   "note": ""
  },
  {
   "property": "C22",
   "status": "proved",
   "theorems": [
    "FT.Props.C22_load_outcome",
    "FT.Props.C22_malformed_crashes"
   ],
   "note": "the panic of head date parsing on out-of-range dates is C52"
  },
  {
   "property": "C23",
   "status": "proved",
   "theorems": [
    "FT.Props.C23_unmodified"
   ],
   "note": "the whole table store as a state machine with explicit heap and reference counts"
  },
  {
   "property": "C24",
   "status": "proved",
   "theorems": [
    "FT.Props.C24_sharing_invisible",
    "FT.Props.C24_modify_local",
    "FT.Props.C24_last_insert",
    "FT.Props.C24_last_insert_raw",
    "FT.Props.C24_removed"
   ],
   "note": "refinement to a machine of independent values, for every operation history"
  },
  {
   "property": "C25",
   "status": "proved",
   "theorems": [
    "FT.Props.C25_saved",
    "FT.Props.C25_count_kept",
    "FT.Props.C25_count_wrong"
   ],
   "note": "parametric in the glyph codec; the original wish (saved glyph count is right) is refuted by C25_count_wrong"
  },
  {
   "property": "C26",
   "status": "proved",
   "theorems": [
    "FT.Props.C26_layout",
    "FT.Props.C26_too_big",
    "FT.Props.C26_reload"
   ],
   "note": "generic over the glyph type and its serializer; instantiated for real glyphs by C28"
  },
  {
   "property": "C27",
   "status": "proved",
   "theorems": [
    "FT.Props.C27_roundtrip",
    "FT.Props.C27_count_minimal",
    "FT.Props.C27_empty_panics",
    "FT.Props.C27_65536_lost"
   ],
   "note": ""
  },
  {
   "property": "C28",
   "status": "proved",
   "theorems": [
    "FT.Props.C28_reads_any",
    "FT.Props.C28_writes",
    "FT.Props.C28_roundtrip",
    "FT.Props.C28_reread",
    "FT.Props.C28_step_overflow",
    "FT.Props.C28_too_many_points",
    "FT.Props.C28_empty",
    "FT.Props.C28_first_contour_empty",
    "FT.Props.C28_overlap_lost"
   ],
   "note": "the overlap mark is lost on writing (refuted by C28_overlap_lost); everything else survives"
  },
  {
   "property": "C29",
   "status": "proved",
   "theorems": [
    "FT.Props.C29_reads_any",
    "FT.Props.C29_writes",
    "FT.Props.C29_roundtrip",
    "FT.Props.C29_reread",
    "FT.Props.C29_fraction_refuted",
    "FT.Props.C29_points_offset_dropped",
    "FT.Props.C29_contours_dropped"
   ],
   "note": ""
  },
  {
   "property": "C30",
   "status": "proved",
   "theorems": [
    "FT.Props.C30_explicit",
    "FT.Props.C30_empty_panics",
    "FT.Props.C30_explicit_keeps",
    "FT.Props.C30_closing_pair_left",
    "FT.Props.C30_remove_after_explicit",
    "FT.Props.C30_remove",
    "FT.Props.C30_outline"
   ],
   "note": ""
  },
  {
   "property": "C31",
   "status": "proved",
   "theorems": [
    "FT.Props.C31_simple",
    "FT.Props.C31_use_my_metrics",
    "FT.Props.C31_composite",
    "FT.Props.C31_composite_tight",
    "FT.Props.C31_fraction_outside"
   ],
   "note": "kurbo's f64 arithmetic is modelled by exact rationals"
  },
  {
   "property": "C32",
   "status": "proved",
   "theorems": [
    "FT.Props.C32_expands_unique",
    "FT.Props.C32_flat",
    "FT.Props.C32_flat_total",
    "FT.Props.C32_cycle_dropped",
    "FT.Props.C32_dangling_panics",
    "FT.Props.C32_flat_exact",
    "FT.Props.C32_within_unique",
    "FT.Props.C32_table"
   ],
   "note": "kurbo's f64 arithmetic is modelled by exact rationals"
  },
  {
   "property": "C33",
   "status": "proved",
   "theorems": [
    "FT.Props.C33_saves_iff",
    "FT.Props.C33_meaning",
    "FT.Props.C33_exact",
    "FT.Props.C33_unreadable",
    "FT.Props.C33_refuted"
   ],
   "note": "the original wish (every map survives) is refuted; the exact guard is proved"
  },
  {
   "property": "C34",
   "status": "proved",
   "theorems": [
    "FT.Props.C34_roundtrip",
    "FT.Props.C34_small",
    "FT.Props.C34_panics",
    "FT.Props.C34_glyph_65535_panics",
    "FT.Props.C34_meaning",
    "FT.Props.C34_header",
    "FT.Props.C34_too_big",
    "FT.Props.C34_refuted"
   ],
   "note": "size guard is exact among maps that can be saved"
  },
  {
   "property": "C35",
   "status": "proved",
   "theorems": [
    "FT.Props.C35_mapping",
    "FT.Props.C35_best"
   ],
   "note": ""
  },
  {
   "property": "C36",
   "status": "proved",
   "theorems": [
    "FT.Props.C36_reversed"
   ],
   "note": ""
  },
  {
   "property": "C37",
   "status": "proved",
   "theorems": [
    "FT.Props.C37_reads_any",
    "FT.Props.C37_writes",
    "FT.Props.C37_roundtrip",
    "FT.Props.C37_succeeds_iff",
    "FT.Props.C37_long_zero_run_panics"
   ],
   "note": "panic describes debug builds; release wraps the u8 run length"
  },
  {
   "property": "C38",
   "status": "proved",
   "theorems": [
    "FT.Props.C38_reads_any",
    "FT.Props.C38_writes",
    "FT.Props.C38_roundtrip",
    "FT.Props.C38_all_points",
    "FT.Props.C38_medium_counts_never_roundtrip",
    "FT.Props.C38_large_step_counterexample",
    "FT.Props.C38_empty_becomes_all",
    "FT.Props.C38_decreasing_panics",
    "FT.Props.C38_writes_iff",
    "FT.Props.C38_exact"
   ],
   "note": ""
  },
  {
   "property": "C39",
   "status": "proved",
   "theorems": [
    "FT.Props.C39_reads_any",
    "FT.Props.C39_writes",
    "FT.Props.C39_roundtrip",
    "FT.Props.C39_stable",
    "FT.Props.C39_missing_panics",
    "FT.Props.C39_outcome",
    "FT.Props.C39_stale_index"
   ],
   "note": ""
  },
  {
   "property": "C40",
   "status": "proved",
   "theorems": [
    "FT.Props.C40_reads_any",
    "FT.Props.C40_writes",
    "FT.Props.C40_roundtrip",
    "FT.Props.C40_all_omitted",
    "FT.Props.C40_private_flag_kept"
   ],
   "note": ""
  },
  {
   "property": "C41",
   "status": "proved",
   "theorems": [
    "FT.Props.C41_contour",
    "FT.Props.C41_returns",
    "FT.Props.C41_stays_between",
    "FT.Props.C41_same_place",
    "FT.Props.C41_far_apart_panics",
    "FT.Props.C41_scalar_panics"
   ],
   "note": ""
  },
  {
   "property": "C42",
   "status": "proved",
   "theorems": [
    "FT.Props.C42_contour",
    "FT.Props.C42_glyph",
    "FT.Props.C42_returns",
    "FT.Props.C42_returns_exactly",
    "FT.Props.C42_long_panics",
    "FT.Props.C42_far_apart_panics"
   ],
   "note": ""
  },
  {
   "property": "C43",
   "status": "proved",
   "theorems": [
    "FT.Props.C43_range",
    "FT.Props.C43_peak",
    "FT.Props.C43_outside",
    "FT.Props.C43_near_peak",
    "FT.Props.C43_exact",
    "FT.Props.C43_precision"
   ],
   "note": "Range, peak and outside for the single-precision code; exactness for the same computation without rounding, and the distance between the two on F2DOT14 coordinates."
  },
  {
   "property": "C44",
   "status": "proved",
   "theorems": [
    "FT.Props.C44_masters",
    "FT.Props.C44_sparse",
    "FT.Props.C44_single_axis",
    "FT.Props.C44_needs_staircase"
   ],
   "note": "Exact arithmetic. The claim for all layouts is refuted by a concrete layout; it is proved for layouts with the staircase condition, which holds for single-axis masters and for layouts where no master has two others in its box."
  },
  {
   "property": "C45",
   "status": "proved",
   "theorems": [
    "FT.Props.C45_data_layout",
    "FT.Props.C45_data",
    "FT.Props.C45_data_wrong_width",
    "FT.Props.C45_data_many_rows",
    "FT.Props.C45_regions_rounded",
    "FT.Props.C45_regions",
    "FT.Props.C45_store",
    "FT.Props.C45_store_writes",
    "FT.Props.C45_store_written",
    "FT.Props.C45_store_far",
    "FT.Props.C45_store_range",
    "FT.Props.C45_null_regions",
    "FT.Props.C45_null_data"
   ],
   "note": "rows of the wrong width, more than 65535 rows and subtables beyond 65535 bytes are shown not to survive"
  },
  {
   "property": "C46",
   "status": "proved",
   "theorems": [
    "FT.Props.C46_pin",
    "FT.Props.C46_glyph",
    "FT.Props.C46_font",
    "FT.Props.C46_returns",
    "FT.Props.C46_no_influence",
    "FT.Props.C46_free_axis",
    "FT.Props.C46_range",
    "FT.Props.C46_components",
    "FT.Props.C46_default_moves"
   ],
   "note": "The error bound counts f32 rounding of every operation; panics outside the guard are proved."
  },
  {
   "property": "C47",
   "status": "proved",
   "theorems": [
    "FT.Props.C47_segment_total",
    "FT.Props.C47_segment_points",
    "FT.Props.C47_segment_monotone",
    "FT.Props.C47_segment_line",
    "FT.Props.C47_segment_new",
    "FT.Props.C47_segment_unsorted",
    "FT.Props.C47_design_empty",
    "FT.Props.C47_design_points",
    "FT.Props.C47_design_total",
    "FT.Props.C47_design_monotone",
    "FT.Props.C47_design_outside",
    "FT.Props.C47_design_line",
    "FT.Props.C47_axis_to_design",
    "FT.Props.C47_axis_to_user",
    "FT.Props.C47_fraction_lost"
   ],
   "note": "In f32 arithmetic. Lines are met within a stated bound; listed points exactly."
  },
  {
   "property": "C48",
   "status": "proved",
   "theorems": [
    "FT.Props.C48_avar_rounded",
    "FT.Props.C48_avar",
    "FT.Props.C48_avar_refused",
    "FT.Props.C48_avar_outcome",
    "FT.Props.C48_fvar",
    "FT.Props.C48_fvar_axis_layout",
    "FT.Props.C48_fvar_mixed_names",
    "FT.Props.C48_fvar_coordinates",
    "FT.Props.C48_fvar_flags"
   ],
   "note": "Fixed values are those of C04."
  },
  {
   "property": "C49",
   "status": "proved",
   "theorems": [
    "FT.Props.C49_range",
    "FT.Props.C49_minimum",
    "FT.Props.C49_maximum",
    "FT.Props.C49_monotone",
    "FT.Props.C49_precision",
    "FT.Props.C49_default_not_zero",
    "FT.Props.C49_weight_axis",
    "FT.Props.C49_avar_ends",
    "FT.Props.C49_disordered",
    "FT.Props.C49_design_value",
    "FT.Props.C49_mapped_axis_panics"
   ],
   "note": "The code ignores the axis default; the statement says what it does instead."
  },
  {
   "property": "C50",
   "status": "proved",
   "theorems": [
    "FT.Props.C50_utf16",
    "FT.Props.C50_round_trip",
    "FT.Props.C50_points",
    "FT.Props.C50_storage_offset_ignored",
    "FT.Props.C50_gap_misread",
    "FT.Props.C50_windows_unicode",
    "FT.Props.C50_utf16_records",
    "FT.Props.C50_unsupported",
    "FT.Props.C50_too_many",
    "FT.Props.C50_too_many_lost",
    "FT.Props.C50_long_string_lost"
   ],
   "note": "The legacy encodings belong to an external crate and are arbitrary functions; UTF-16 is modelled."
  },
  {
   "property": "C51",
   "status": "proved",
   "theorems": [
    "FT.Props.C51_names",
    "FT.Props.C51_other_versions",
    "FT.Props.C51_names_missing",
    "FT.Props.C51_dangling_name_panics",
    "FT.Props.C51_missing_name_panics",
    "FT.Props.C51_long_names_lost"
   ],
   "note": "Names are Lean strings, i.e. valid UTF-8 as in Rust."
  },
  {
   "property": "C52",
   "status": "proved",
   "theorems": [
    "FT.Props.C52_date",
    "FT.Props.C52_date_out_of_range_panics",
    "FT.Props.C52_head",
    "FT.Props.C52_head_any",
    "FT.Props.C52_hhea",
    "FT.Props.C52_maxp",
    "FT.Props.C52_maxp_inconsistent",
    "FT.Props.C52_gasp",
    "FT.Props.C52_cvt",
    "FT.Props.C52_program"
   ],
   "note": ""
  },
  {
   "property": "C53",
   "status": "proved",
   "theorems": [
    "FT.Props.C53_layout",
    "FT.Props.C53_roundtrip",
    "FT.Props.C53_writes",
    "FT.Props.C53_small_glyph",
    "FT.Props.C53_room",
    "FT.Props.C53_too_short",
    "FT.Props.C53_too_short_example",
    "FT.Props.C53_no_sets",
    "FT.Props.C53_all_glyphs",
    "FT.Props.C53_short_offsets",
    "FT.Props.C53_never_longer"
   ],
   "note": "The order of equally frequent peaks is left open, as it is in the code."
  },
  {
   "property": "C54",
   "status": "proved",
   "theorems": [
    "FT.Props.C54_range",
    "FT.Props.C54_default",
    "FT.Props.C54_minimum",
    "FT.Props.C54_maximum",
    "FT.Props.C54_monotone",
    "FT.Props.C54_precision",
    "FT.Props.C54_large"
   ],
   "note": "In f32 arithmetic."
  },
  {
   "property": "C55",
   "status": "proved",
   "theorems": [
    "FT.Props.C55_plain_glyphs",
    "FT.Props.C55_plain_coverages",
    "FT.Props.C55_plain_classes",
    "FT.Props.C55_chained_glyphs",
    "FT.Props.C55_chained_coverages",
    "FT.Props.C55_chained_classes",
    "FT.Props.C55_coverage_ignored",
    "FT.Props.C55_explicit_class_zero"
   ],
   "note": ""
  },
  {
   "property": "C56",
   "status": "proved",
   "theorems": [
    "FT.Props.C56_roundtrip",
    "FT.Props.C56_second_cycle",
    "FT.Props.C56_plain_context_never_written",
    "FT.Props.C56_writes",
    "FT.Props.C56_small"
   ],
   "note": ""
  },
  {
   "property": "C57",
   "status": "proved",
   "theorems": [
    "FT.Props.C57_same_rule",
    "FT.Props.C57_table",
    "FT.Props.C57_type_above_6_rejected",
    "FT.Props.C57_empty_panics",
    "FT.Props.C57_mixed_panics"
   ],
   "note": ""
  },
  {
   "property": "C58",
   "status": "proved",
   "theorems": [
    "FT.Props.C58_metrics",
    "FT.Props.C58_metrics_grow"
   ],
   "note": "the exact condition under which metrics survive, with a witness where they do not"
  },
  {
   "property": "C59",
   "status": "proved",
   "theorems": [
    "FT.Props.C59_never_saved"
   ],
   "note": ""
  },
  {
   "property": "C60",
   "status": "proved",
   "theorems": [
    "FT.Props.C60_unmodified",
    "FT.Props.C60_needs_maxp"
   ],
   "note": ""
  },
  {
   "property": "C61",
   "status": "proved",
   "theorems": [
    "FT.Props.C61_points",
    "FT.Props.C61_empty_panics"
   ],
   "note": ""
  },
  {
   "property": "C62",
   "status": "proved",
   "theorems": [
    "FT.Props.C62_gdef",
    "FT.Props.C62_gdef_writes",
    "FT.Props.C62_gap_becomes_base",
    "FT.Props.C62_mark_sets_lost",
    "FT.Props.C62_device_panics",
    "FT.Props.C62_device_misread",
    "FT.Props.C62_store_lost"
   ],
   "note": "Mark glyph sets, devices of carets and item variation stores are shown not to survive."
  },
  {
   "property": "C63",
   "status": "proved",
   "theorems": [
    "FT.Props.C63_removed",
    "FT.Props.C63_instances"
   ],
   "note": ""
  },
  {
   "property": "C64",
   "status": "proved",
   "theorems": [
    "FT.Props.C64_removed",
    "FT.Props.C64_kept",
    "FT.Props.C64_needs_valid",
    "FT.Props.C64_range"
   ],
   "note": ""
  },
  {
   "property": "C65",
   "status": "proved",
   "theorems": [
    "FT.Props.C65_roundtrip",
    "FT.Props.C65_empty_panics",
    "FT.Props.C65_devices_fail"
   ],
   "note": ""
  },
  {
   "property": "C66",
   "status": "proved",
   "theorems": [
    "FT.Props.C66_roundtrip"
   ],
   "note": ""
  },
  {
   "property": "C67",
   "status": "proved",
   "theorems": [
    "FT.Props.C67_one_ligature",
    "FT.Props.C67_two_ligatures_fail"
   ],
   "note": "Rules for two or more ligatures are shown not to survive by examples."
  },
  {
   "property": "C68",
   "status": "proved",
   "theorems": [
    "FT.Props.C68_class_pairs",
    "FT.Props.C68_coverage_ignored"
   ],
   "note": ""
  },
  {
   "property": "C69",
   "status": "proved",
   "theorems": [
    "FT.Props.C69_roundtrip",
    "FT.Props.C69_mark_to_mark_panics",
    "FT.Props.C69_unwritable",
    "FT.Props.C69_writes",
    "FT.Props.C69_small"
   ],
   "note": ""
  },
  {
   "property": "C70",
   "status": "proved",
   "theorems": [
    "FT.Props.C70_table",
    "FT.Props.C70_context_rejected",
    "FT.Props.C70_empty_panics"
   ],
   "note": ""
  },
  {
   "property": "C71",
   "status": "proved",
   "theorems": [
    "FT.Props.Stat.C71_roundtrip",
    "FT.Props.Stat.C71_plain",
    "FT.Props.Stat.C71_read_plain",
    "FT.Props.Stat.C71_reread",
    "FT.Props.Stat.C71_no_axis",
    "FT.Props.Stat.C71_too_big",
    "FT.Props.Stat.C71_long_location"
   ],
   "note": ""
  },
  {
   "property": "C72",
   "status": "proved",
   "theorems": [
    "FT.Props.C72_stat",
    "FT.Props.C72_font",
    "FT.Props.C72_bad_axis"
   ],
   "note": ""
  },
  {
   "property": "C73",
   "status": "proved",
   "theorems": [
    "FT.Props.Os2.C73_roundtrip",
    "FT.Props.Os2.C73_plain",
    "FT.Props.Os2.C73_reread",
    "FT.Props.Os2.C73_vendor"
   ],
   "note": ""
  },
  {
   "property": "C74",
   "status": "proved",
   "theorems": [
    "FT.Props.Os2.C74_bits",
    "FT.Props.Os2.C74_sound",
    "FT.Props.Os2.C74_mono",
    "FT.Props.Os2.C74_one",
    "FT.Props.Os2.C74_phoenician",
    "FT.Props.Os2.C74_search152",
    "FT.Props.Os2.C74_search184",
    "FT.Props.Os2.C74_missed",
    "FT.Props.Os2.C74_missed_blocks",
    "FT.Props.Os2.C74_missed_font",
    "FT.Props.Os2.C74_found"
   ],
   "note": ""
  },
  {
   "property": "C75",
   "status": "proved",
   "theorems": [
    "FT.Props.Os2.C75_bitset",
    "FT.Props.Os2.C75_twice",
    "FT.Props.Os2.C75_list",
    "FT.Props.Os2.C75_list_panic"
   ],
   "note": ""
  },
  {
   "property": "C76",
   "status": "proved",
   "theorems": [
    "FT.Props.Os2.C76_pages",
    "FT.Props.Os2.C76_some",
    "FT.Props.Os2.C76_mono",
    "FT.Props.Os2.C76_latin"
   ],
   "note": ""
  },
  {
   "property": "C77",
   "status": "proved",
   "theorems": [
    "FT.Props.C77_saves",
    "FT.Props.C77_meaning",
    "FT.Props.C77_roundtrip",
    "FT.Props.C77_small",
    "FT.Props.C77_none"
   ],
   "note": ""
  },
  {
   "property": "C78",
   "status": "proved",
   "theorems": [
    "FT.Props.C78_layout",
    "FT.Props.C78_reread",
    "FT.Props.C78_roundtrip",
    "FT.Props.C78_saves",
    "FT.Props.C78_format_lost",
    "FT.Props.C78_format_lost_saves",
    "FT.Props.C78_sequences_lost"
   ],
   "note": ""
  },
  {
   "property": "C79",
   "status": "proved",
   "theorems": [
    "FT.Props.C79_describes",
    "FT.Props.C79_succeeds",
    "FT.Props.C79_outcome",
    "FT.Props.C79_unique",
    "FT.Props.C79_cycle_panics",
    "FT.Props.C79_wraps",
    "FT.Props.C79_flattened"
   ],
   "note": ""
  },
  {
   "property": "C80",
   "status": "proved",
   "theorems": [
    "FT.Props.C80_decompose",
    "FT.Props.C80_flattened",
    "FT.Props.C80_nested_lost",
    "FT.Props.C80_drawn_unique"
   ],
   "note": ""
  },
  {
   "property": "C81",
   "status": "proved",
   "theorems": [
    "FT.Props.C81_head",
    "FT.Props.C81_hhea",
    "FT.Props.C81_maxp",
    "FT.Props.C81_gasp",
    "FT.Props.C81_cvt",
    "FT.Props.C81_program",
    "FT.Props.C81_os2",
    "FT.Props.C81_hmtx",
    "FT.Props.C81_avar",
    "FT.Props.C81_fvar",
    "FT.Props.C81_name",
    "FT.Props.C81_post",
    "FT.Props.C81_stat",
    "FT.Props.C81_cmap4",
    "FT.Props.C81_cmap12"
   ],
   "note": ""
  },
  {
   "property": "C82",
   "status": "proved",
   "theorems": [
    "FT.Props.C82_gsub",
    "FT.Props.C82_gpos",
    "FT.Props.C82_gdef",
    "FT.Props.C82_item_store"
   ],
   "note": ""
  },
  {
   "property": "C83",
   "status": "proved",
   "theorems": [
    "FT.Props.C83_checksum_accepts",
    "FT.Props.C83_checksum_writes",
    "FT.Props.C83_checksum_again",
    "FT.Props.C83_signature_accepts",
    "FT.Props.C83_signature_writes",
    "FT.Props.C83_signature_again",
    "FT.Props.C83_unhinted_accepts",
    "FT.Props.C83_unhinted_writes",
    "FT.Props.C83_unhinted_again",
    "FT.Props.C83_tags",
    "FT.Props.C83_ends"
   ],
   "note": ""
  },
  {
   "property": "C84",
   "status": "proved",
   "theorems": [
    "FT.Props.C84_runs",
    "FT.Props.C84_accepts",
    "FT.Props.C84_writes",
    "FT.Props.C84_names",
    "FT.Props.C84_name_unique",
    "FT.Props.C84_drop_accepts",
    "FT.Props.C84_drop_writes"
   ],
   "note": ""
  },
  {
   "property": "C85",
   "status": "proved",
   "theorems": [
    "FT.Props.C85_gvar_accepts",
    "FT.Props.C85_gvar_writes",
    "FT.Props.C85_gvar_same"
   ],
   "note": ""
  },
  {
   "property": "C86",
   "status": "proved",
   "theorems": [
    "FT.Props.C86_accepts",
    "FT.Props.C86_glyphs",
    "FT.Props.C86_drawn",
    "FT.Props.C86_tables",
    "FT.Props.C86_metrics",
    "FT.Props.C86_metrics_grow",
    "FT.Props.C86_fraction_refuted"
   ],
   "note": ""
  },
  {
   "property": "C87",
   "status": "proved",
   "theorems": [
    "FT.Props.C87_argument",
    "FT.Props.C87_bad_argument",
    "FT.Props.C87_duplicate",
    "FT.Props.C87_limits",
    "FT.Props.C87_not_variable",
    "FT.Props.C87_tables",
    "FT.Props.C87_pinned",
    "FT.Props.C87_stat",
    "FT.Props.C87_all_pinned",
    "FT.Props.C87_influenced",
    "FT.Props.C87_default_moves"
   ],
   "note": ""
  },
  {
   "property": "C88",
   "status": "proved",
   "theorems": [
    "FT.Props.C88_gsub",
    "FT.Props.C88_delta_overflow",
    "FT.Props.C88_ligature_order",
    "FT.Props.C88_reverse_extension_rejected",
    "FT.Props.C88_empty_extension",
    "FT.Props.C88_version",
    "FT.Props.C55_coverage_ignored",
    "FT.Props.C55_explicit_class_zero"
   ],
   "note": ""
  },
  {
   "property": "C89",
   "status": "proved",
   "theorems": [
    "FT.Props.C89_gpos",
    "FT.Props.C89_mark_to_mark",
    "FT.Props.C89_context_extension_rejected",
    "FT.Props.C89_anchor_devices_rejected",
    "FT.Props.C89_class_zero_uncovered",
    "FT.Props.C89_zero_cells_dropped",
    "FT.Props.C89_pair_devices",
    "FT.Props.C89_null_mark_anchor",
    "FT.Props.C89_empty_extension",
    "FT.Props.C89_version",
    "FT.Props.C67_two_ligatures_fail"
   ],
   "note": ""
  },
  {
   "property": "C90",
   "status": "proved",
   "theorems": [
    "FT.Props.C90_gdef",
    "FT.Props.C90_mark_sets",
    "FT.Props.C90_store",
    "FT.Props.C90_caret_device",
    "FT.Props.C90_class_zero",
    "FT.Props.C90_null_attach"
   ],
   "note": ""
  },
  {
   "property": "C91",
   "status": "proved",
   "theorems": [
    "FT.Props.C91_head",
    "FT.Props.C91_hhea",
    "FT.Props.C91_maxp",
    "FT.Props.C91_maxp_version",
    "FT.Props.C91_gasp",
    "FT.Props.C91_cvt",
    "FT.Props.C91_program",
    "FT.Props.C91_os2",
    "FT.Props.C91_hmtx",
    "FT.Props.C91_hmtx_none",
    "FT.Props.C91_avar",
    "FT.Props.C91_fvar",
    "FT.Props.C91_head_date",
    "FT.Props.C91_fixed",
    "FT.Props.C91_fixed_rounds",
    "FT.Props.C91_fvar_axes",
    "FT.Props.C91_name",
    "FT.Props.C91_name_storage",
    "FT.Props.C91_name_platform",
    "FT.Props.C91_name_any",
    "FT.Props.C91_name_first_bad",
    "FT.Props.C91_head_modified",
    "FT.Props.C91_post",
    "FT.Props.C91_post_names",
    "FT.Props.C91_stat"
   ],
   "note": ""
  },
  {
   "property": "C92",
   "status": "proved",
   "theorems": [
    "FT.Props.C92_cmap",
    "FT.Props.C92_subtable",
    "FT.Props.C92_format_0",
    "FT.Props.C92_other_format",
    "FT.Props.C92_format_6",
    "FT.Props.C92_overflow",
    "FT.Props.C92_default_sequences",
    "FT.Props.C92_wide_glyph",
    "FT.Props.C92_wide_glyphs",
    "FT.Props.C92_wide_panics",
    "FT.Props.C92_sum_panics"
   ],
   "note": ""
  },
  {
   "property": "C93",
   "status": "proved",
   "theorems": [
    "FT.Props.C93_outlines",
    "FT.Props.C93_overflow",
    "FT.Props.C93_many_instructions",
    "FT.Props.C93_no_contours",
    "FT.Props.C93_outside"
   ],
   "note": ""
  },
  {
   "property": "C94",
   "status": "proved",
   "theorems": [
    "FT.Props.C94_gvar",
    "FT.Props.C94_points",
    "FT.Props.C94_region_to_end",
    "FT.Props.C94_inner_peak",
    "FT.Props.C94_gap",
    "FT.Props.C94_many_points",
    "FT.Props.C94_no_room",
    "FT.Props.C94_many_glyphs",
    "FT.Props.C94_far_offsets",
    "FT.Props.C94_many_tuples"
   ],
   "note": ""
  },
  {
   "property": "C95",
   "status": "proved",
   "theorems": [
    "FT.Props.C95_math",
    "FT.Props.C95_outer",
    "FT.Props.C95_italics_lost",
    "FT.Props.C95_italics_misread",
    "FT.Props.C95_device_panics"
   ],
   "note": ""
  },
  {
   "property": "C96",
   "status": "proved",
   "theorems": [
    "FT.Props.C96_tables",
    "FT.Props.C96_reads",
    "FT.Props.C96_opens",
    "FT.Props.C96_needs_head",
    "FT.Props.C96_not_font"
   ],
   "note": ""
  },
  {
   "property": "C97",
   "status": "proved",
   "theorems": [
    "FT.Props.C97_outcome",
    "FT.Props.C97_reads_all",
    "FT.Props.C97_count",
    "FT.Props.C97_count_again",
    "FT.Props.C97_count_panics",
    "FT.Props.C97_stale"
   ],
   "note": ""
  },
  {
   "property": "C98",
   "status": "proved",
   "theorems": [
    "FT.Props.C98_to_path",
    "FT.Props.C98_middle_near",
    "FT.Props.C98_to_path_panics",
    "FT.Props.C98_off_first",
    "FT.Props.C98_off_first_wrong",
    "FT.Props.C98_from_path",
    "FT.Props.C98_cut_whole",
    "FT.Props.C98_subpaths_merge",
    "FT.Props.C98_from_path_panics",
    "FT.Props.C98_there_and_back"
   ],
   "note": ""
  },
  {
   "property": "C99",
   "status": "proved",
   "theorems": [
    "FT.Props.C99_read",
    "FT.Props.C99_open_lost",
    "FT.Props.C99_cubic_wrong",
    "FT.Props.C99_glyph",
    "FT.Props.C99_unchanged",
    "FT.Props.C99_kept",
    "FT.Props.C99_off_first",
    "FT.Props.C99_panics",
    "FT.Props.C99_accepts",
    "FT.Props.C99_tables",
    "FT.Props.C99_file",
    "FT.Props.C99_ends"
   ],
   "note": ""
  }
 ]
}