{
 "claims": [
  {
   "property": "C01",
   "status": "proved",
   "theorems": [
    "JKD.PitchClass.C01_ofInt",
    "JKD.PitchClass.C01_canonical_names",
    "JKD.PitchClass.C01_all"
   ],
   "note": ""
  },
  {
   "property": "C02",
   "status": "proved",
   "theorems": [
    "JKD.PitchClass.C02_ofString",
    "JKD.PitchClass.C02_language"
   ],
   "note": ""
  },
  {
   "property": "C03",
   "status": "proved",
   "theorems": [
    "JKD.PitchClass.C03_int_roundtrip",
    "JKD.PitchClass.C03_string_roundtrip"
   ],
   "note": ""
  },
  {
   "property": "C04",
   "status": "proved",
   "theorems": [
    "JKD.PitchClass.C04_compare",
    "JKD.PitchClass.C04_order",
    "JKD.PitchClass.C04_enharmonic",
    "JKD.PitchClass.C04_at_most_twelve"
   ],
   "note": ""
  },
  {
   "property": "C05",
   "status": "proved",
   "theorems": [
    "JKD.Key.C05_ofString",
    "JKD.Key.C05_mode"
   ],
   "note": ""
  },
  {
   "property": "C06",
   "status": "proved",
   "theorems": [
    "JKD.Key.C06_ofInt",
    "JKD.Key.C06_roundtrip",
    "JKD.Key.C06_all",
    "JKD.Key.C06_canonical_names"
   ],
   "note": ""
  },
  {
   "property": "C07",
   "status": "proved",
   "theorems": [
    "JKD.Key.C07_major_xor_minor"
   ],
   "note": ""
  },
  {
   "property": "C08",
   "status": "proved",
   "theorems": [
    "JKD.Key.C08_relative"
   ],
   "note": ""
  },
  {
   "property": "C09",
   "status": "proved",
   "theorems": [
    "JKD.Key.C09_parallel"
   ],
   "note": ""
  },
  {
   "property": "C10",
   "status": "proved",
   "theorems": [
    "JKD.Key.C10_fifths",
    "JKD.Key.C10_iterate",
    "JKD.Key.C10_circle"
   ],
   "note": ""
  },
  {
   "property": "C11",
   "status": "proved",
   "theorems": [
    "JKD.Key.C11_commute",
    "JKD.Key.C11_disjoint"
   ],
   "note": ""
  },
  {
   "property": "C12",
   "status": "proved",
   "theorems": [
    "JKD.KeyProfile.C12_selection",
    "JKD.KeyProfile.C12_isValid",
    "JKD.KeyProfile.C12_default",
    "JKD.KeyProfile.C12_empty_name_history"
   ],
   "note": "Selection and validity hold after any call history; the answer about the empty name is history dependent (C12_empty_name_history), see Disagreements."
  },
  {
   "property": "C13",
   "status": "proved",
   "theorems": [
    "JKD.KeyProfile.C13_emission",
    "JKD.KeyProfile.C13_equivariant"
   ],
   "note": ""
  },
  {
   "property": "C14",
   "status": "proved",
   "theorems": [
    "JKD.KeyProfile.C14_row_perm",
    "JKD.KeyProfile.C14_builtin_profiles",
    "JKD.KeyProfile.C14_row_distribution",
    "JKD.KeyProfile.C14_not_exact"
   ],
   "note": ""
  },
  {
   "property": "C15",
   "status": "proved",
   "theorems": [
    "JKD.KeyTransition.C15_equivariant",
    "JKD.KeyTransition.C15_row_C",
    "JKD.KeyTransition.C15_row_perm",
    "JKD.KeyTransition.C15_row_sum"
   ],
   "note": ""
  },
  {
   "property": "C16",
   "status": "partial",
   "theorems": [
    "JKD.KeyTransition.C16_exchange",
    "JKD.KeyTransition.C16_violated",
    "JKD.KeyTransition.C16_partial",
    "JKD.KeyTransition.C16_builtin_partial"
   ],
   "note": "False for custom tables (C16_violated); holds exactly when slots 12 and 21 agree, hence for all built-in tables."
  },
  {
   "property": "C17",
   "status": "proved",
   "theorems": [
    "JKD.KeyTransition.C17_selection",
    "JKD.KeyTransition.C17_isValid",
    "JKD.KeyTransition.C17_empty_name_history",
    "JKD.KeyTransition.C17_builtin_tables",
    "JKD.KeyTransition.C17_default"
   ],
   "note": "As C12; heatmap is not normalised (sum 108) and is not claimed to be."
  },
  {
   "property": "C18",
   "status": "proved",
   "theorems": [
    "JKD.HMM.C18_constructors",
    "JKD.HMM.C18_one_key_per_observation"
   ],
   "note": ""
  },
  {
   "property": "C19",
   "status": "proved",
   "theorems": [
    "JKD.HMM.C19_optimal",
    "JKD.HMM.C19_binary64",
    "JKD.HMM.C19_exact"
   ],
   "note": ""
  },
  {
   "property": "C20",
   "status": "proved",
   "theorems": [
    "JKD.HMM.C20_probability_vector",
    "JKD.HMM.C20_maximum",
    "JKD.HMM.C20_exact"
   ],
   "note": ""
  },
  {
   "property": "C21",
   "status": "proved",
   "theorems": [
    "JKD.HMM.C21_throws_iff",
    "JKD.HMM.C21_exact"
   ],
   "note": ""
  },
  {
   "property": "C22",
   "status": "partial",
   "theorems": [
    "JKD.HMM.C22_safe_partial",
    "JKD.HMM.C22_empty_violated"
   ],
   "note": "Safe on every non-empty sequence and any number of re-runs; an empty sequence is undefined behaviour (C22_empty_violated)."
  },
  {
   "property": "C23",
   "status": "partial",
   "theorems": [
    "JKD.HMM.C23_rerun_partial",
    "JKD.HMM.C23_rerun_violated"
   ],
   "note": "False: every re-run prepends the best sequence to the reversed old one (C23_rerun_violated); maximum, vector and status are idempotent."
  },
  {
   "property": "C24",
   "status": "proved",
   "theorems": [
    "JKD.Detect.C24_models",
    "JKD.Detect.C24_optimal_sets",
    "JKD.Detect.C24_first_model",
    "JKD.Detect.C24_detection"
   ],
   "note": ""
  },
  {
   "property": "C25",
   "status": "proved",
   "theorems": [
    "JKD.Detect.C25_constant",
    "JKD.Detect.C25_detection",
    "JKD.Detect.C25_exact",
    "JKD.Detect.C25_binary64"
   ],
   "note": ""
  },
  {
   "property": "C26",
   "status": "proved",
   "theorems": [
    "JKD.Detect.C26_order_irrelevant",
    "JKD.Detect.C26_counts",
    "JKD.Detect.C26_same_key"
   ],
   "note": ""
  },
  {
   "property": "C27",
   "status": "proved",
   "theorems": [
    "JKD.HMM.C27_model",
    "JKD.Detect.C27_detection"
   ],
   "note": ""
  },
  {
   "property": "C28",
   "status": "proved",
   "theorems": [
    "JKD.Chromagram.C28_export_import",
    "JKD.Chromagram.C28_round_trip",
    "JKD.Chromagram.C28_export_stable",
    "JKD.Chromagram.C28_same_text_merges",
    "JKD.Chromagram.C28_constructed"
   ],
   "note": "Holds whenever the number text round-trips (C28_round_trip); timestamps that print alike merge (C28_same_text_merges), as default iostream precision makes them."
  },
  {
   "property": "C29",
   "status": "proved",
   "theorems": [
    "JKD.Chromagram.C29_status",
    "JKD.Chromagram.C29_causes"
   ],
   "note": ""
  },
  {
   "property": "C30",
   "status": "proved",
   "theorems": [
    "JKD.Chromagram.C30_csv",
    "JKD.Chromagram.C30_columns",
    "JKD.Chromagram.C30_last_line",
    "JKD.Chromagram.C30_last_wins",
    "JKD.Chromagram.C30_constructed"
   ],
   "note": ""
  },
  {
   "property": "C31",
   "status": "proved",
   "theorems": [
    "JKD.Chromagram.C31_discretize",
    "JKD.Chromagram.C31_constructed",
    "JKD.Chromagram.C31_printed",
    "JKD.Chromagram.C31_floor"
   ],
   "note": ""
  },
  {
   "property": "C32",
   "status": "partial",
   "theorems": [
    "JKD.Chromagram.C32_runs_partial",
    "JKD.Chromagram.C32_sequence_partial",
    "JKD.Chromagram.C32_reads_past_end_violated",
    "JKD.Chromagram.C32_same_vector"
   ],
   "note": "By the standard comparing the last frame with the next one dereferences end() (C32_reads_past_end_violated); for every content of the bytes read there, the sequence is as specified, except that the last run is kept or dropped according to those bytes."
  },
  {
   "property": "C33",
   "status": "partial",
   "theorems": [
    "JKD.Chromagram.C33_negative_violated",
    "JKD.Chromagram.C33_frame_violated",
    "JKD.Chromagram.C33_original_violated",
    "JKD.Chromagram.C33_small_partial"
   ],
   "note": "False: a negative magnitude wraps the loop counter (C33_negative_violated and others); magnitudes that stay non-negative are fine (C33_small_partial)."
  },
  {
   "property": "C34",
   "status": "partial",
   "theorems": [
    "JKD.Midi.C34_events_partial",
    "JKD.Midi.C34_no_return_violated",
    "JKD.Midi.C34_range_partial"
   ],
   "note": "The function has no return statement (C34_no_return_violated); read as returning its vector, it is the specified one."
  },
  {
   "property": "C35",
   "status": "partial",
   "theorems": [
    "JKD.Main.C35_format_ignored_violated",
    "JKD.Main.C35_format_violated"
   ],
   "note": "False: -f is compared with '.wav' etc. but only accepts 'wav' etc., so inputType stays uninitialised (both violated theorems)."
  },
  {
   "property": "C36",
   "status": "partial",
   "theorems": [
    "JKD.Main.C36_extension_partial",
    "JKD.Main.C36_no_dot_violated"
   ],
   "note": "Holds for every name with a dot; a name without a dot throws std::out_of_range (C36_no_dot_violated)."
  },
  {
   "property": "C37",
   "status": "partial",
   "theorems": [
    "JKD.Main.C37_profiles",
    "JKD.Main.C37_transitions_partial",
    "JKD.Main.C37_too_many_violated",
    "JKD.Main.C37_main_profiles",
    "JKD.Main.C37_profiles_message",
    "JKD.Main.C37_transitions_message_partial"
   ],
   "note": "Profiles hold in full; more than 24 transitions overflow the array (C37_too_many_violated). The message names the number of values (C37_profiles_message, C37_transitions_message_partial)."
  },
  {
   "property": "C38",
   "status": "partial",
   "theorems": [
    "JKD.Main.C38_score",
    "JKD.Main.C38_ground_truth",
    "JKD.Main.C38_ground_truth_end",
    "JKD.Main.C38_file_name",
    "JKD.Main.C38_unknown_key_violated",
    "JKD.Main.C38_agree_partial",
    "JKD.Main.C38_disagree_violated"
   ],
   "note": "Score proved for all pairs; C++ and Python differ exactly on subdominant answers (C38_disagree_violated); an unknown key name reads an indeterminate int."
  },
  {
   "property": "C39",
   "status": "proved",
   "theorems": [
    "JKD.Main.C39_line",
    "JKD.Main.C39_parse_label",
    "JKD.Main.C39_injective",
    "JKD.Main.C39_output"
   ],
   "note": ""
  },
  {
   "property": "C40",
   "status": "proved",
   "theorems": [
    "JKD.Detect.C40_general",
    "JKD.Detect.C40_binary64",
    "JKD.Detect.C40_exact",
    "JKD.Main.C40_main",
    "JKD.Main.C40_midi"
   ],
   "note": "Exact and IEEE-754 arithmetic (C library log10 assumed finite and of moderate size, LogOk), any hash order, any content of unfilled custom arrays; C40_main and C40_midi lift it to the program."
  },
  {
   "property": "C41",
   "status": "proved",
   "theorems": [
    "JKD.Main.C41_precedence",
    "JKD.Main.C41_scores"
   ],
   "note": ""
  },
  {
   "property": "C42",
   "status": "partial",
   "theorems": [
    "JKD.Main.C42_after_parsing_partial",
    "JKD.Main.C42_missing_file_violated",
    "JKD.Main.C42_extension_violated",
    "JKD.Main.C42_empty_violated",
    "JKD.Main.C42_unreadable_midi_violated",
    "JKD.Main.C42_messages_partial"
   ],
   "note": "After an accepted command line failures exit with 1 or 2; missing file, unknown extension exit with 0, an empty sequence or an unreadable MIDI file is undefined (violated theorems). The text printed with status 0 is never the line of a key (C42_messages_partial)."
  },
  {
   "property": "C43",
   "status": "proved",
   "theorems": [
    "JKD.Py.C43_transpose",
    "JKD.Py.C43_compose",
    "JKD.Py.C43_inverse",
    "JKD.Py.C43_perm",
    "JKD.Py.C43_label",
    "JKD.Py.C43_augmentation",
    "JKD.Py.C43_bad_length"
   ],
   "note": ""
  },
  {
   "property": "C44",
   "status": "proved",
   "theorems": [
    "JKD.Py.C44_categories",
    "JKD.Py.C44_score",
    "JKD.Py.C44_degenerate"
   ],
   "note": ""
  },
  {
   "property": "C45",
   "status": "partial",
   "theorems": [
    "JKD.Py.C45_plain",
    "JKD.Py.C45_mixed",
    "JKD.Py.C45_flag_violated",
    "JKD.Py.C45_word_violated",
    "JKD.Py.C45_names_violated"
   ],
   "note": "Proved for runs whose 24 printed words are numbers and, when mixing, for stored profiles with unambiguous mixed names (true for the ten built-in ones). Violated: 24 words that are no numbers, ambiguous names, and the flag of a later call."
  },
  {
   "property": "C46",
   "status": "partial",
   "theorems": [
    "JKD.Opt.C46_crossover",
    "JKD.Opt.C46_profiles",
    "JKD.Opt.C46_transitions",
    "JKD.Opt.C46_four_violated",
    "JKD.Opt.C46_duplicates_violated",
    "JKD.Opt.C46_builtin_violated"
   ],
   "note": "Holds for populations of distinct stored tables when the generation finishes. A population of four ends in IndexError, repeated members never end, and mutating a built-in transition is a TypeError (violated theorems). Exact arithmetic."
  },
  {
   "property": "C47",
   "status": "partial",
   "theorems": [
    "JKD.Opt.C47_names",
    "JKD.Opt.C47_given_names",
    "JKD.Opt.C47_builtin_names",
    "JKD.Opt.C47_profile_range",
    "JKD.Opt.C47_stochastic_range",
    "JKD.Opt.C47_profile_reach",
    "JKD.Opt.C47_stochastic_reach",
    "JKD.Opt.C47_profile",
    "JKD.Opt.C47_geometric",
    "JKD.Opt.C47_transition",
    "JKD.Opt.C47_zero_violated"
   ],
   "note": "Holds whenever generation finishes, with the exact set of tables that can be drawn (range and reach); twelve zeros in a row end in ZeroDivisionError (C47_zero_violated). Exact arithmetic."
  },
  {
   "property": "C48",
   "status": "proved",
   "theorems": [
    "JKD.Opt.C48_error_zero",
    "JKD.Opt.C48_monotone"
   ],
   "note": "Exact arithmetic; scores in [-1, 1]."
  },
  {
   "property": "C49",
   "status": "partial",
   "theorems": [
    "JKD.Opt.C49_too_large_violated",
    "JKD.Opt.C49_profile_partial",
    "JKD.Opt.C49_transition_partial"
   ],
   "note": "Only sums below 0.99 are reported; sums above 1.01 are not (C49_too_large_violated)."
  },
  {
   "property": "C50",
   "status": "partial",
   "theorems": [
    "JKD.ChordViterbi.C50_safe",
    "JKD.ChordViterbi.C50_no_frames_violated",
    "JKD.ChordViterbi.C50_short_row_violated",
    "JKD.ChordViterbi.C50_message",
    "JKD.ChordViterbi.C50_optimal",
    "JKD.ChordViterbi.C50_zero_start_violated"
   ],
   "note": "Safety for any numbers and optimality in exact arithmetic for non-negative tables with a possible path; no frames, or sizes the check only warns about, are undefined behaviour, and an impossible first frame makes the answer ignore the data (violated theorems). Rounding is covered by C120."
  },
  {
   "property": "C51",
   "status": "proved",
   "theorems": [
    "JKD.STL.C51_best",
    "JKD.STL.C51_total",
    "JKD.STL.C51_likelihood"
   ],
   "note": "Exact arithmetic for the sum; the best path also under any monotone rounding."
  },
  {
   "property": "C52",
   "status": "partial",
   "theorems": [
    "JKD.HMM.C52_order_independent",
    "JKD.HMM.C52_unique_best",
    "JKD.HMM.C52_ties_violated"
   ],
   "note": "Outcome, vector, maximum are order independent; so is the sequence when the best one is unique; false when there are ties (C52_ties_violated)."
  },
  {
   "property": "C53",
   "status": "partial",
   "theorems": [
    "JKD.Chromagram.C53_blocks",
    "JKD.Chromagram.C53_blocks_cover",
    "JKD.Chromagram.C53_average",
    "JKD.Chromagram.C53_long_file_violated",
    "JKD.Chromagram.C53_features",
    "JKD.Chromagram.C53_whole"
   ],
   "note": "Holds for files of up to INT_MAX frames; longer files overflow an int (C53_long_file_violated)."
  },
  {
   "property": "C54",
   "status": "partial",
   "theorems": [
    "JKD.Detect.C54_second_partial",
    "JKD.Detect.C54_zero_violated"
   ],
   "note": "Holds for every transition array with moderate positive entries; false for a custom array with zeros (C54_zero_violated)."
  },
  {
   "property": "C55",
   "status": "partial",
   "theorems": [
    "JKD.STL.C55_extra_transition_violated",
    "JKD.STL.C55_uniform_partial"
   ],
   "note": "False: an extra transition is applied after the last observation (C55_extra_transition_violated); holds when the transition row maximum is the same for every state (C55_uniform_partial)."
  },
  {
   "property": "C56",
   "status": "proved",
   "theorems": [
    "JKD.Opt.C56_start",
    "JKD.Opt.C56_reported_pair"
   ],
   "note": "Exact arithmetic; distinct stored initial tables. Runs that do not end are covered as still waiting."
  },
  {
   "property": "C57",
   "status": "proved",
   "theorems": [
    "JKD.Opt.C57_imported",
    "JKD.Opt.C57_profiles",
    "JKD.Opt.C57_transitions",
    "JKD.Opt.C57_geometric"
   ],
   "note": ""
  },
  {
   "property": "C58",
   "status": "partial",
   "theorems": [
    "JKD.Py.C58_reads",
    "JKD.Py.C58_rare_violated",
    "JKD.Py.C58_key_name",
    "JKD.Py.C58_key_name_injective",
    "JKD.Py.C58_unknown_violated"
   ],
   "note": "Four rare tonics (Cb, Fb, E#, B#) are not read; unknown annotations become labels printed as major keys (violated theorems). ASCII text."
  },
  {
   "property": "C59",
   "status": "proved",
   "theorems": [
    "JKD.Py.C59_scaling",
    "JKD.Py.C59_stretched",
    "JKD.Py.C59_affine",
    "JKD.Py.C59_commutes",
    "JKD.Py.C59_small_spread_violated"
   ],
   "note": "Exact arithmetic; MinMaxScaler as documented by scikit-learn, with its test for zero spread as a parameter."
  },
  {
   "property": "C60",
   "status": "partial",
   "theorems": [
    "JKD.Py.C60_aligned",
    "JKD.Py.C60_distinct",
    "JKD.Py.C60_missing",
    "JKD.Py.C60_split",
    "JKD.Py.C60_same_base_violated"
   ],
   "note": "Alignment, all-or-nothing and splits proved in general; two files with the same base name lose a row, which one depends on os.listdir (C60_same_base_violated)."
  },
  {
   "property": "C61",
   "status": "partial",
   "theorems": [
    "JKD.Py.C61_round_trip",
    "JKD.Py.C61_collision_violated",
    "JKD.Py.C61_backup_violated",
    "JKD.Py.C61_prefix_violated",
    "JKD.Py.C61_empty_split_violated"
   ],
   "note": "Proved for split names that are non-empty, without line break and without \"_features\", and a directory in which only the written files start with the name. Violated: back-up copies, names that are prefixes of one another, a split without a name, and the shared file names of split b of a and data set a-b."
  },
  {
   "property": "C62",
   "status": "partial",
   "theorems": [
    "JKD.Py.C62_round_trip",
    "JKD.Py.C62_injective",
    "JKD.Py.C62_mixed_violated",
    "JKD.Py.C62_empty_violated"
   ],
   "note": "Proved without mixed profiles; the flag True is never read back (C62_mixed_violated), and an empty list comes back as one empty name."
  },
  {
   "property": "C63",
   "status": "partial",
   "theorems": [
    "JKD.Py.C63_round_trip",
    "JKD.Py.C63_same_label",
    "JKD.Py.C63_unknown_violated",
    "JKD.Py.C63_german_violated"
   ],
   "note": "Holds for annotations the tool reads; others give a file whose evaluation reads an indeterminate int (C63_unknown_violated). ASCII text."
  },
  {
   "property": "C64",
   "status": "proved",
   "theorems": [
    "JKD.Nnls.C64_nnls_returns"
   ],
   "note": "Subscripts, loops and uninitialised variables of nnls.c; mda = m as every caller passes it."
  },
  {
   "property": "C65",
   "status": "proved",
   "theorems": [
    "JKD.Nnls.C65_nnls_nonnegative"
   ],
   "note": "Every operation is an exact one followed by a monotone, odd, idempotent rounding; overflow to infinity is outside."
  },
  {
   "property": "C66",
   "status": "proved",
   "theorems": [
    "JKD.Nnls.C66_nnls_optimal"
   ],
   "note": "Exact real arithmetic."
  },
  {
   "property": "C67",
   "status": "proved",
   "theorems": [
    "JKD.Nnls.C67_nnls_certificate",
    "JKD.Nnls.C67_nnls_rotated"
   ],
   "note": "Exact real arithmetic."
  },
  {
   "property": "C68",
   "status": "proved",
   "theorems": [
    "JKD.Chroma.C68_plugin_runs"
   ],
   "note": "Any carrier with IEEE-like comparisons in which the tuning estimate stays within half a semitone (exact and rounded arithmetic shown to meet this); block size at least 4, frame buffers at least that long."
  },
  {
   "property": "C69",
   "status": "proved",
   "theorems": [
    "JKD.Chroma.C69_plugin_nonnegative"
   ],
   "note": "Monotone, odd, idempotent rounding that keeps 1/2, 3/2, 3 and doubled pi; overflow is outside."
  },
  {
   "property": "C70",
   "status": "proved",
   "theorems": [
    "JKD.Chroma.C70_chroma_folds",
    "JKD.Chroma.C70_plain_semitones",
    "JKD.Chroma.C70_windows"
   ],
   "note": "Exact real arithmetic."
  },
  {
   "property": "C71",
   "status": "proved",
   "theorems": [
    "JKD.Chroma.C71_transcription_best",
    "JKD.Chroma.C71_mixture_recovered"
   ],
   "note": "Exact real arithmetic; the solver giving up for too many iterations is a hypothesis, shown absent for a spectrum with one note."
  },
  {
   "property": "C72",
   "status": "partial",
   "theorems": [
    "JKD.Chroma.C72_convolution_partial",
    "JKD.Chroma.C72_length_violated",
    "JKD.Chroma.C72_long_violated",
    "JKD.Chroma.C72_running_mean"
   ],
   "note": "Holds for convolvees of 256 values, the only ones the plug-in has; the result is always 256 long (C72_length_violated) and longer convolvees are written out of bounds (C72_long_violated)."
  },
  {
   "property": "C73",
   "status": "proved",
   "theorems": [
    "JKD.Chroma.C73_normalised"
   ],
   "note": "Exact real arithmetic."
  },
  {
   "property": "C74",
   "status": "proved",
   "theorems": [
    "JKD.Chroma.C74_tuned_spectrum"
   ],
   "note": "Exact real arithmetic; positive sampling rate, block size at least 4."
  },
  {
   "property": "C75",
   "status": "proved",
   "theorems": [
    "JKD.Chroma.C75_level_scales",
    "JKD.Chroma.C75_level_irrelevant"
   ],
   "note": "Exact real arithmetic. Where the deviation is zero the plug-in leaves the raw value, which does depend on the level; that case is excluded by hypothesis and shown absent for a pure tone."
  },
  {
   "property": "C76",
   "status": "proved",
   "theorems": [
    "JKD.Chroma.C76_silence"
   ],
   "note": "Exact real arithmetic."
  },
  {
   "property": "C77",
   "status": "proved",
   "theorems": [
    "JKD.Chroma.C77_tuning_nearest",
    "JKD.Chroma.C77_sharp_recording_same"
   ],
   "note": "Exact real arithmetic, global tuning. C77_sharp_recording_same is about the spectra that C74 speaks of."
  },
  {
   "property": "C78",
   "status": "partial",
   "theorems": [
    "JKD.Chroma.C78_zero_changes_nothing",
    "JKD.Chroma.C78_threshold_partial",
    "JKD.Chroma.C78_promise_violated"
   ],
   "note": "C78_promise_violated: the count leaves out the two lowest bins and runs two bins ahead, so that a bin with most of the energy can be removed. What the code does instead is characterised in C78_threshold_partial; zero changing nothing holds."
  },
  {
   "property": "C79",
   "status": "proved",
   "theorems": [
    "JKD.Chroma.C79_mapping"
   ],
   "note": "Exact real arithmetic; pitches within 0.0002 semitones, since the source writes 1/12 as 0.083333333333 and, for the last bin, 0.083333."
  },
  {
   "property": "C80",
   "status": "proved",
   "theorems": [
    "JKD.Chroma.C80_reset_forgets"
   ],
   "note": "Any carrier with IEEE-like comparisons in which the tuning estimate stays within half a semitone."
  },
  {
   "property": "C81",
   "status": "proved",
   "theorems": [
    "JKD.Chordino.C81_profiles",
    "JKD.Chordino.C81_no_chord"
   ],
   "note": "Exact real arithmetic."
  },
  {
   "property": "C82",
   "status": "partial",
   "theorems": [
    "JKD.Chordino.C82_labels",
    "JKD.Chordino.C82_notes",
    "JKD.Chordino.C82_doubled_bass_violated",
    "JKD.Chordino.C82_same_label_violated"
   ],
   "note": "Labels and notes proved for any arithmetic that tells 0, 1 and 0.5 apart. C82_doubled_bass_violated: a chord with its root in the bass lists the bass note twice. C82_same_label_violated: major (and minor) with and without a bass note share a label though their notes differ."
  },
  {
   "property": "C83",
   "status": "proved",
   "theorems": [
    "JKD.Chordino.C83_shares",
    "JKD.Chordino.C83_better_fit"
   ],
   "note": "Exact real arithmetic."
  },
  {
   "property": "C84",
   "status": "proved",
   "theorems": [
    "JKD.Chordino.C84_transposition",
    "JKD.Chordino.C84_sequence"
   ],
   "note": "Exact real arithmetic, boost not negative."
  },
  {
   "property": "C85",
   "status": "proved",
   "theorems": [
    "JKD.Chordino.C85_best_sequence"
   ],
   "note": "Exact real arithmetic; normalisation off, as always in this plug-in."
  },
  {
   "property": "C86",
   "status": "partial",
   "theorems": [
    "JKD.Chordino.C86_label_in_force",
    "JKD.Chordino.C86_ends",
    "JKD.Chordino.C86_repeated_label_violated"
   ],
   "note": "C86_repeated_label_violated: a single quiet block is reported as N twice at the same time. The label in force is right at every block but the last."
  },
  {
   "property": "C87",
   "status": "partial",
   "theorems": [
    "JKD.Chordino.C87_piano_roll",
    "JKD.Chordino.C87_empty_notes_violated"
   ],
   "note": "C87_empty_notes_violated: a chord heard in the last frame only is reported with notes of duration zero. Everything else, with durations not negative, is proved."
  },
  {
   "property": "C88",
   "status": "partial",
   "theorems": [
    "JKD.Chordino.C88_plugin_runs",
    "JKD.Chordino.C88_short_dictionary_violated"
   ],
   "note": "C88_short_dictionary_violated: a dictionary file with too few numbers is read past the end of the vector. Proved for dictionaries with 24 numbers per kind."
  },
  {
   "property": "C89",
   "status": "proved",
   "theorems": [
    "JKD.Chordino.C89_silence"
   ],
   "note": "Exact real arithmetic; normalisation off, as always in this plug-in."
  },
  {
   "property": "C90",
   "status": "proved",
   "theorems": [
    "JKD.Chordino.C90_likelihood",
    "JKD.Chordino.C90_total",
    "JKD.Chordino.C90_harmonic_change"
   ],
   "note": "Exact real arithmetic; normalisation off, as always in this plug-in."
  },
  {
   "property": "C91",
   "status": "partial",
   "theorems": [
    "JKD.Chroma.C91_outputs",
    "JKD.Chroma.C91_same_tuning",
    "JKD.Chroma.C91_range_partial",
    "JKD.Chroma.C91_silence",
    "JKD.Chroma.C91_level",
    "JKD.Chroma.C91_sharper",
    "JKD.Chroma.C91_extents_violated"
   ],
   "note": "Exact real arithmetic. The upper end of the announced extents is not kept: C91_extents_violated has a recording of two tones reported at 440*2^(1/24) > 452.89 Hz; C91_range_partial gives the bounds that hold."
  },
  {
   "property": "C92",
   "status": "proved",
   "theorems": [
    "JKD.Chroma.C92_runs",
    "JKD.Chroma.C92_reset_forgets"
   ],
   "note": "Any arithmetic in which the tuning estimate stays within half a semitone and numbers print in at most 46 characters."
  },
  {
   "property": "C93",
   "status": "partial",
   "theorems": [
    "JKD.Extract.C93_text",
    "JKD.Extract.C93_round_trip",
    "JKD.Extract.C93_discrete_iff",
    "JKD.Extract.C93_same_sequence",
    "JKD.Extract.C93_main",
    "JKD.Extract.C93_digits_violated"
   ],
   "note": "Holds whenever no value crosses an integer when printed and read back (C93_discrete_iff says exactly when). It fails otherwise: C93_digits_violated has a value just below 2 that is printed as 2."
  },
  {
   "property": "C94",
   "status": "proved",
   "theorems": [
    "JKD.Extract.C94_lines",
    "JKD.Extract.C94_chords",
    "JKD.Extract.C94_status"
   ],
   "note": "The label is carried as the only value of a feature; the text of timestamps and labels comes from the plug-in."
  },
  {
   "property": "C95",
   "status": "partial",
   "theorems": [
    "JKD.Pipeline.C95_silence_partial",
    "JKD.Pipeline.C95_silence_violated",
    "JKD.Pipeline.C95_quiet_file_violated"
   ],
   "note": "Exact arithmetic inside the plug-in. The chromagram and the (empty) pitch-class sequence are as claimed, C95_silence_partial, but the program then reads the first element of an empty sequence: C95_silence_violated, C95_quiet_file_violated."
  },
  {
   "property": "C96",
   "status": "proved",
   "theorems": [
    "JKD.Pipeline.C96_level"
   ],
   "note": "Exact arithmetic inside the plug-in, any arithmetic outside; the frames must stay within the limiter and on the same side of the silence threshold. The Vamp host adapters are a parameter, linear in the samples; dft_louder shows this for any windowed Fourier transform."
  },
  {
   "property": "C97",
   "status": "partial",
   "theorems": [
    "JKD.DictFile.C97_round_trip",
    "JKD.DictFile.C97_complete",
    "JKD.DictFile.C97_usable",
    "JKD.DictFile.C97_commas_violated",
    "JKD.DictFile.C97_blank_line_violated",
    "JKD.DictFile.C97_lone_word_violated"
   ],
   "note": "Holds for the `type=` form (C97_round_trip, C97_usable, and C97_complete says exactly which dictionaries can be used). It fails for the documented comma form, for lines of blanks and for lines with one word: C97_commas_violated, C97_blank_line_violated, C97_lone_word_violated."
  },
  {
   "property": "C98",
   "status": "partial",
   "theorems": [
    "JKD.DictFile.C98_cut",
    "JKD.DictFile.C98_default_partial",
    "JKD.DictFile.C98_home_violated",
    "JKD.DictFile.C98_vamp_path",
    "JKD.DictFile.C98_first"
   ],
   "note": "Holds unless the name of the home directory contains $HOME, in which case the expansion never ends: C98_home_violated."
  },
  {
   "property": "C99",
   "status": "proved",
   "theorems": [
    "JKD.PluginParams.C99_defaults",
    "JKD.PluginParams.C99_read_back",
    "JKD.PluginParams.C99_restore"
   ],
   "note": "Values are finite floats, taken as rationals; conversion of decimal literals to float is a parameter."
  },
  {
   "property": "C100",
   "status": "proved",
   "theorems": [
    "JKD.Nnls.C100_pythagoras",
    "JKD.Nnls.C100_coefficients"
   ],
   "note": "In exact real arithmetic."
  },
  {
   "property": "C101",
   "status": "proved",
   "theorems": [
    "JKD.Chroma.C101_bounded",
    "JKD.Chroma.C101_fits_int"
   ],
   "note": "In exact real arithmetic, without normalisation (with one, C73 bounds the values by one)."
  },
  {
   "property": "C102",
   "status": "partial",
   "theorems": [
    "JKD.Pipeline.C102_every_recording_partial",
    "JKD.Pipeline.C102_answer_partial"
   ],
   "note": "The read behind the last frame is assumed to deliver some bytes (C32: it is undefined by the standard), and the plug-in computes in exact arithmetic. Recordings without a pitch class end in undefined behaviour (C95, C42)."
  },
  {
   "property": "C103",
   "status": "proved",
   "theorems": [
    "JKD.Pipeline.C103_content"
   ],
   "note": "The plug-in computes in exact real arithmetic."
  },
  {
   "property": "C104",
   "status": "proved",
   "theorems": [
    "JKD.Detect.C104_features",
    "JKD.Detect.C104_training_row"
   ],
   "note": "Program doubles are abstract; the scaler is in exact arithmetic. A piece with two equally good sequences of local keys is outside the claim (C42)."
  },
  {
   "property": "C105",
   "status": "partial",
   "theorems": [
    "JKD.Py.C105_training_set",
    "JKD.Py.C105_test_set",
    "JKD.Py.C105_incompatible",
    "JKD.Py.C105_mixed_violated"
   ],
   "note": "Data made with and without mixed profiles have the same metadata after loading, so the compatibility check passes and the trainer dies of array sizes: C105_mixed_violated. The classifier itself is not modelled."
  },
  {
   "property": "C106",
   "status": "proved",
   "theorems": [
    "JKD.Tools.C106_both",
    "JKD.Tools.C106_first_column",
    "JKD.Tools.C106_read",
    "JKD.Tools.C106_second_run"
   ],
   "note": "For files converted once; C106_second_run says what a second run leaves (the first value of each line)."
  },
  {
   "property": "C107",
   "status": "proved",
   "theorems": [
    "JKD.Py.C107_same_row",
    "JKD.Py.C107_perfect",
    "JKD.Py.C107_directory"
   ],
   "note": "The classifier is an arbitrary function and the scaler in exact arithmetic; annotations are those that parse_label reads (C58)."
  },
  {
   "property": "C108",
   "status": "proved",
   "theorems": [
    "JKD.Tools.C108_duplicates"
   ],
   "note": "Reading MIDI files (mido) is a parameter."
  },
  {
   "property": "C109",
   "status": "partial",
   "theorems": [
    "JKD.Tools.C109_keeps",
    "JKD.Tools.C109_exact",
    "JKD.Tools.C109_usable",
    "JKD.Tools.C109_dots_violated"
   ],
   "note": "With a dot in a base name a file stays because of the annotation of another: C109_dots_violated."
  },
  {
   "property": "C110",
   "status": "partial",
   "theorems": [
    "JKD.Tools.C110_partition",
    "JKD.Tools.C110_splits",
    "JKD.Tools.C110_same_base_violated"
   ],
   "note": "Files that differ in the extension only can be on both sides: C110_same_base_violated."
  },
  {
   "property": "C111",
   "status": "partial",
   "theorems": [
    "JKD.Tools.C111_empty_violated",
    "JKD.Tools.C111_unusable_violated",
    "JKD.Tools.C111_printed_partial"
   ],
   "note": "False: the keys are printed and the key file is left empty (C111_empty_violated), which ends the data-set program with an exception (C111_unusable_violated); what is printed is right (C111_printed_partial)."
  },
  {
   "property": "C112",
   "status": "partial",
   "theorems": [
    "JKD.Script.C112_every_midi_violated",
    "JKD.Script.C112_recording",
    "JKD.Script.C112_midi_violated",
    "JKD.Script.C112_missing_violated"
   ],
   "note": "Proved for recordings whose chromagram survives printing (times stay ordered, floors are kept): C112_recording. False for every MIDI file with a note (C112_midi_violated, C112_every_midi_violated) and for recordings that cannot be opened (C112_missing_violated): one constant answer and exit status 0."
  },
  {
   "property": "C113",
   "status": "proved",
   "theorems": [
    "JKD.Script.C113_features"
   ],
   "note": "The 24 numbers of every table are assumed to be read from the command line (Tables; C37, C49, C50 say when)."
  },
  {
   "property": "C114",
   "status": "proved",
   "theorems": [
    "JKD.Script.C114_row_moved",
    "JKD.Script.C114_transposed_music"
   ],
   "note": "The scaler is in exact arithmetic; undecided members (ties in the first stage) are excluded by hypothesis (Decided), since hash-map order decides there (C24)."
  },
  {
   "property": "C115",
   "status": "partial",
   "theorems": [
    "JKD.Chordino.C115_labels_partial",
    "JKD.Chordino.C115_notes_partial",
    "JKD.Chordino.C115_unnamed_bass_violated"
   ],
   "note": "Proved for chord types whose bass note is absent, the root, or one of the eight intervals that have a name in the tables (C115_labels_partial, C115_notes_partial). False for a bass note a minor second, tritone or minor sixth above the root: C115_unnamed_bass_violated."
  },
  {
   "property": "C116",
   "status": "proved",
   "theorems": [
    "JKD.Outputs.C116_chroma_outputs",
    "JKD.Outputs.C116_bin_names",
    "JKD.Outputs.C116_log_spectrum",
    "JKD.Outputs.C116_chord_outputs"
   ],
   "note": "Sizes and times for any arithmetic as in C68 and C88; contents of the named bins in exact arithmetic. The tuning plug-in, whose announced range is not kept, is C91."
  },
  {
   "property": "C117",
   "status": "partial",
   "theorems": [
    "JKD.Shell.C117_shorten_partial",
    "JKD.Shell.C117_second_run_violated",
    "JKD.Shell.C117_same_stem_violated",
    "JKD.Shell.C117_giantsteps_partial",
    "JKD.Shell.C117_billboard_partial",
    "JKD.Shell.C117_cross_era_partial",
    "JKD.Shell.C117_collision_violated",
    "JKD.Shell.C117_number_trim_partial"
   ],
   "note": "Proved for different stems or numbers that are not new names already; the code loses files otherwise: a second run of shorten_names.sh deletes the whole data set (C117_second_run_violated), a piece in two formats loses an annotation (C117_same_stem_violated), two names with the same number become one file (C117_collision_violated)."
  },
  {
   "property": "C118",
   "status": "partial",
   "theorems": [
    "JKD.Shell.C118_trimmed_splits_violated",
    "JKD.Shell.C118_plain_splits_partial"
   ],
   "note": "False as stated: the lines keep an extension and the program ignores every such split (C118_trimmed_splits_violated). For lines without the extension the split is written in full (C118_plain_splits_partial)."
  },
  {
   "property": "C119",
   "status": "proved",
   "theorems": [
    "JKD.Shell.C119_files",
    "JKD.Shell.C119_labels"
   ],
   "note": "Keys in the sense of C58; names without white space."
  },
  {
   "property": "C120",
   "status": "proved",
   "theorems": [
    "JKD.ChordViterbi.C120_rounding",
    "JKD.ChordViterbi.C120_double",
    "JKD.ChordViterbi.C120_winner"
   ],
   "note": "Any arithmetic with a bounded relative error per operation, and binary64 (round to nearest, ties to even) as an instance. Tables are given as real numbers that are doubles or not."
  },
  {
   "property": "C121",
   "status": "proved",
   "theorems": [
    "JKD.HMM.C121_model",
    "JKD.Detect.C121_program",
    "JKD.Detect.C121_decided"
   ],
   "note": "Assumes the C library log10 to be finite and within an error eta (LogOk, LogClose); shown for the correctly rounded logarithm with eta = 2^-43. For 1000 notes the error of a score is then below 10^-7."
  },
  {
   "property": "C122",
   "status": "proved",
   "theorems": [
    "JKD.Search.C122_list",
    "JKD.Search.C122_error",
    "JKD.Search.C122_zero",
    "JKD.Search.C122_search",
    "JKD.Search.C122_table_text",
    "JKD.Search.C122_numbers"
   ],
   "note": "Assumes that the five scores read back as printed, that float of the empty text fails and that tables written as 24 numbers are read as 24 numbers; Python sums taken in exact arithmetic."
  },
  {
   "property": "C123",
   "status": "partial",
   "theorems": [
    "JKD.Search.C123_copies_partial",
    "JKD.Search.C123_all_violated",
    "JKD.Search.C123_folders_violated"
   ],
   "note": "Proved for the ten lists of copies. Violated by the last list, whose pattern [\\.mid|\\.csv]$ is a set of characters: it also holds the originals (undefined behaviour, C123_all_violated) and folders ending in c (C123_folders_violated)."
  },
  {
   "property": "C124",
   "status": "partial",
   "theorems": [
    "JKD.Search.C124_batch_violated",
    "JKD.Search.C124_lucky_partial",
    "JKD.Search.C124_row"
   ],
   "note": "Violated: the script passes -f csv, which leaves the input type indeterminate (C124_batch_violated). If the bytes happen to say CSV the table is as claimed (C124_lucky_partial)."
  },
  {
   "property": "C125",
   "status": "proved",
   "theorems": [
    "JKD.Phrases.C125_most_probable",
    "JKD.Phrases.C125_textbook",
    "JKD.Phrases.C125_main"
   ],
   "note": "Assumes a logarithm with error at most 2^-30 on the tables (LogOk, LogClose). The potentials that certify the phrases are checked by kernel computation for every phrase and pair of profiles; the step to all pieces and keys is an induction."
  },
  {
   "property": "C126",
   "status": "partial",
   "theorems": [
    "JKD.Opt.C126_turn",
    "JKD.Opt.C126_alternate",
    "JKD.Opt.C126_start",
    "JKD.Opt.C126_count",
    "JKD.Opt.C126_replaces_violated"
   ],
   "note": "The turn, the alternation and the count are proved. The last sentence is false: after a change of sides the stored sum belongs to the other population, and C126_replaces_violated exhibits a run from the start of the search in which a population is replaced by one with the same lowest error and a greater sum."
  },
  {
   "property": "C127",
   "status": "proved",
   "theorems": [
    "JKD.Opt.C127_profile",
    "JKD.Opt.C127_stochastic",
    "JKD.Opt.C127_geometric"
   ],
   "note": "A geometric table without a stored ratio raises TypeError instead (C47); the theorem assumes the ratio is stored."
  },
  {
   "property": "C128",
   "status": "partial",
   "theorems": [
    "JKD.Chroma.C128_channels",
    "JKD.Chroma.C128_chroma_again_violated",
    "JKD.Chroma.C128_chords_again_violated"
   ],
   "note": "Accepting exactly one channel is proved for new instances. Setting up again is false: the window weights are appended, so their number is even and an assertion fails as soon as features are collected (C128_chroma_again_violated for every arithmetic and recording; the chord plug-in delivers nothing either)."
  },
  {
   "property": "C129",
   "status": "proved",
   "theorems": [
    "JKD.Detect.C129_evidence",
    "JKD.Detect.C129_krumhansl"
   ],
   "note": "In double arithmetic; the logarithm is assumed monotone and accurate (LogOk, LogClose). The second sentence is C129_krumhansl."
  },
  {
   "property": "C130",
   "status": "partial",
   "theorems": [
    "JKD.Detect.C130_single_partial",
    "JKD.Phrases.C130_default_violated",
    "JKD.Phrases.C130_profiles_violated"
   ],
   "note": "True for profiles other than sapp that are not both aarden_essen (C130_single_partial) and false for every other choice (C130_profiles_violated), among them the default (C130_default_violated: a C sharp between two C major scales)."
  },
  {
   "property": "C131",
   "status": "partial",
   "theorems": [
    "JKD.Phrases.C131_found",
    "JKD.Phrases.C131_exercise_partial",
    "JKD.Phrases.C131_default_violated",
    "JKD.Phrases.C131_main_violated"
   ],
   "note": "Proved for one and the same profile for both modes, except sapp in major keys (C131_exercise_partial). C131_found gives the answer for all pairs of profiles except one tie. With the default major profile every repetition in every major key is heard in the key a fourth above (C131_default_violated), and the whole program prints it (C131_main_violated)."
  },
  {
   "property": "C132",
   "status": "proved",
   "theorems": [
    "JKD.Detect.C132_backwards",
    "JKD.Detect.C132_decided"
   ],
   "note": "In double arithmetic. Pieces with several equally good sequences of keys are covered by C132_backwards only."
  },
  {
   "property": "C133",
   "status": "proved",
   "theorems": [
    "JKD.Phrases.C133_improvable",
    "JKD.Phrases.C133_passage",
    "JKD.Phrases.C133_main",
    "JKD.Phrases.C133_modulation"
   ],
   "note": "Default profiles and transitions, in double arithmetic. The number 16 is what the potentials give; it is not claimed to be the smallest possible."
  },
  {
   "property": "C134",
   "status": "partial",
   "theorems": [
    "JKD.Shell.C134_copied_partial",
    "JKD.Shell.C134_lost_violated",
    "JKD.Shell.C134_twice_violated",
    "JKD.Shell.C134_duplicates",
    "JKD.Shell.C134_renamed_partial",
    "JKD.Shell.C134_extracted_partial",
    "JKD.Shell.C134_case_violated"
   ],
   "note": "The code violates the claim: copy_bothchroma.sh removes folders that hold no chromagram, and on a second run all chromagrams it has collected; batch_chromagram.sh writes a.wav and a.WAV to the same file. Proved otherwise, for folders whose tracks all have chromagrams and whose names do not clash."
  },
  {
   "property": "C135",
   "status": "partial",
   "theorems": [
    "JKD.Main.C135_heard",
    "JKD.Main.C135_percussion_violated"
   ],
   "note": "The first sentence is proved (C135_heard). The second is false: strokes on channel 10 are taken for notes, and for every melody and key there is a percussion part that makes the program print the key (C135_percussion_violated, default options, double arithmetic)."
  },
  {
   "property": "C136",
   "status": "proved",
   "theorems": [
    "JKD.Main.C136_agree",
    "JKD.Main.C136_read"
   ],
   "note": "C136_agree compares the numbers before printing; C136_read compares what is on paper, for printing that does not reverse the order. Six printed digits may make two scores look equal; then only \"greatest\", not \"the only greatest\", is claimed."
  },
  {
   "property": "C137",
   "status": "proved",
   "theorems": [
    "JKD.Main.C137_sounds"
   ],
   "note": "Both files are read by the same run-time surroundings; in particular the bytes behind the last frame, which the program reads (C32_reads_past_end_violated), are the same for both. Sounds with NaN are excluded, because NaN differs from itself."
  },
  {
   "property": "C138",
   "status": "partial",
   "theorems": [
    "JKD.Phrases.C138_joined_partial",
    "JKD.Phrases.C138_repeat_violated"
   ],
   "note": "The first sentence is false: with the default options E E D E C C# D E is in A minor when played once and in D minor when repeated (C138_repeat_violated, whole program, double arithmetic). The second sentence is proved for all tables the command line offers (C138_joined_partial)."
  },
  {
   "property": "C139",
   "status": "partial",
   "theorems": [
    "JKD.Phrases.C139_phrases_partial",
    "JKD.Phrases.C139_notes_partial",
    "JKD.Phrases.C139_closing_violated"
   ],
   "note": "The first sentence is false: with the default options G B F# F C is in G major, and in C major when the tonic triad G B D G is added (C139_closing_violated, whole program, double arithmetic). The second sentence is proved: textbook phrases for the transition table exponential10 (C139_phrases_partial), tonics and dominants for both tables (C139_notes_partial)."
  },
  {
   "property": "C140",
   "status": "partial",
   "theorems": [
    "JKD.Phrases.C140_one_key_partial",
    "JKD.Phrases.C140_order_violated"
   ],
   "note": "The first sentence is false: with the default options the chords D, G7, A minor are in G major when G7 is listed G B D F, and in C major when it is listed D F G B (C140_order_violated, whole program, double arithmetic). The second sentence is proved for all tables the command line offers (C140_one_key_partial)."
  },
  {
   "property": "C141",
   "status": "partial",
   "theorems": [
    "JKD.Phrases.C141_melody_partial",
    "JKD.Phrases.C141_chroma_violated"
   ],
   "note": "The first sentence is false: with the default options a chroma file with the chords E minor, C7 is in C major, and in G major when everything is a whole tone higher (C141_chroma_violated, whole program, double arithmetic). The second sentence is C141_melody_partial."
  },
  {
   "property": "C142",
   "status": "partial",
   "theorems": [
    "JKD.Shell.C142_midi_partial",
    "JKD.Shell.C142_audio_partial",
    "JKD.Shell.C142_twice_violated",
    "JKD.Shell.C142_stem_violated"
   ],
   "note": "Holds for one run in a folder of scores with distinct stems and extensions of three letters (C142_midi_partial, C142_audio_partial). False for a second run, which converts the products of the first one (C142_twice_violated), and for scores that differ in the extension only (C142_stem_violated)."
  },
  {
   "property": "C143",
   "status": "partial",
   "theorems": [
    "JKD.Shell.C143_collected_partial",
    "JKD.Shell.C143_name_violated"
   ],
   "note": "Holds when no two wanted recordings have the same name and none of the folders is features (C143_collected_partial). Of two recordings with the same name in different folders only the last one is kept (C143_name_violated)."
  },
  {
   "property": "C144",
   "status": "partial",
   "theorems": [
    "JKD.Maps.C144_names_partial",
    "JKD.Maps.C144_keys_partial",
    "JKD.Maps.C144_notice_violated"
   ],
   "note": "Key signatures: holds without restriction (C144_keys_partial). Names: holds when no file has a copyright notice as its first track name (C144_names_partial); otherwise the script stops with an IndexError at the first such file (C144_notice_violated)."
  },
  {
   "property": "C145",
   "status": "proved",
   "theorems": [
    "JKD.Main.C145_profiles",
    "JKD.Main.C145_transitions"
   ],
   "note": "That the text is read as the numbers of the table is a hypothesis (reading numbers is outside the model)."
  },
  {
   "property": "C146",
   "status": "proved",
   "theorems": [
    "JKD.Main.C146_key",
    "JKD.Main.C146_score"
   ],
   "note": "Whole program. The function that reads the notes is taken to return its vector (C34). Undecided: one of the two stages has no strictly best sequence."
  },
  {
   "property": "C147",
   "status": "partial",
   "theorems": [
    "JKD.Phrases.C147_accepted_partial",
    "JKD.Phrases.C147_text_violated",
    "JKD.Phrases.C147_long_violated",
    "JKD.Phrases.C147_short_violated"
   ],
   "note": "Well-formed files are read (C147_accepted_partial). Malformed ones are not refused: a field that is no number ends the program with an uncaught exception (C147_text_violated), a thirteenth number replaces the first one (C147_long_violated), missing numbers count as zeros (C147_short_violated)."
  },
  {
   "property": "C148",
   "status": "partial",
   "theorems": [
    "JKD.Phrases.C148_units_partial",
    "JKD.Phrases.C148_quiet_violated",
    "JKD.Phrases.C148_every_violated",
    "JKD.Phrases.C148_loud_violated"
   ],
   "note": "Holds for files that are the same in whole units (C148_units_partial). Otherwise it fails: a file with all values below two has undefined behaviour (C148_quiet_violated), so every file loses its key from some level downwards (C148_every_violated); a chord that is in C major is in F major when it is three times as loud (C148_loud_violated)."
  },
  {
   "property": "C149",
   "status": "partial",
   "theorems": [
    "JKD.Main.C149_score_partial",
    "JKD.Main.C149_name_violated",
    "JKD.Main.C149_midi_violated",
    "JKD.Main.C149_chroma_partial"
   ],
   "note": "Holds with -e for file names that end in a key (C149_score_partial) and with -c for recordings and chroma files (C149_chroma_partial). It fails with -e for other names: undefined behaviour when the last part is no key, no output without an underscore (C149_name_violated); and -c is ignored for MIDI files (C149_midi_violated)."
  },
  {
   "property": "C150",
   "status": "partial",
   "theorems": [
    "JKD.Phrases.C150_same_partial",
    "JKD.Phrases.C150_repeated_violated"
   ],
   "note": "Holds for pieces in which every chord differs from the one before and the MIDI file lists the notes of each chord in keyboard order (C150_same_partial; the read behind the last frame is assumed to deliver other bytes, C32). Fails for repeated notes: C, E, E, E, G is in C major as a chroma file and in E minor as a MIDI file (C150_repeated_violated)."
  },
  {
   "property": "C151",
   "status": "proved",
   "theorems": [
    "JKD.Detect.C151_tables",
    "JKD.Main.C151_typed"
   ],
   "note": "In binary64; log10 is assumed off by at most eta on normal doubles, and the typed numbers to be stored with a relative error of at most 2^-53."
  },
  {
   "property": "C152",
   "status": "proved",
   "theorems": [
    "JKD.Main.C152_decided",
    "JKD.Main.C152_units"
   ],
   "note": "In binary64; log10 is assumed off by at most eta on normal doubles, and the typed numbers to be stored with a relative error of at most 2^-53."
  },
  {
   "property": "C153",
   "status": "proved",
   "theorems": [
    "JKD.Py.C153_decision",
    "JKD.Py.C153_answer",
    "JKD.Py.C153_exact",
    "JKD.Py.C153_no_evidence",
    "JKD.Py.C153_classes",
    "JKD.Script.C153_transposed_music"
   ],
   "note": "The objective of the documented logistic regression (multinomial, l2, no intercept) in real numbers is in the trusted base; the solver is assumed to end within epsilon of its minimum, which is shown to exist."
  },
  {
   "property": "C154",
   "status": "proved",
   "theorems": [
    "JKD.Py.C154_same_classifier",
    "JKD.Script.C154_same_answers"
   ],
   "note": "Classifier as in C153. Pieces may be transposed if no member of the ensemble is undecided about them."
  },
  {
   "property": "C155",
   "status": "partial",
   "theorems": [
    "JKD.Library.C155_library",
    "JKD.Library.C155_parameters_partial",
    "JKD.Library.C155_use_hmm_violated",
    "JKD.Library.C155_undescribed_violated",
    "JKD.Library.C155_chroma_outputs",
    "JKD.Library.C155_chord_outputs",
    "JKD.Library.C155_local_tuning_partial",
    "JKD.Library.C155_tuning_violated",
    "JKD.Library.C155_tuning_announced"
   ],
   "note": "The list of plug-ins, the outputs of the chroma plug-in, the described outputs of the chord plug-in, the local tuning and all parameters but one are right. Wrong: the chord plug-in has no parameter useHMM, and setting it does nothing (C155_use_hmm_violated); the output tuning is described without values and always has one (C155_tuning_violated); two parameters and two outputs of the chord plug-in are not described (C155_undescribed_violated). Extents and units of outputs are left out; for the extents of the tuning see C91."
  },
  {
   "property": "C156",
   "status": "proved",
   "theorems": [
    "JKD.Pipeline.C156_list",
    "JKD.Pipeline.C156_silence",
    "JKD.Pipeline.C156_level"
   ],
   "note": "In exact arithmetic inside the plug-in; the adapters of the Vamp host library are a parameter, linear for the level, whose frames stay within the limits (Playable). The list is stated for the built-in dictionary, the level also for a dictionary of the user."
  },
  {
   "property": "C157",
   "status": "proved",
   "theorems": [
    "JKD.Chordino.C157_sequence",
    "JKD.Chordino.C157_order",
    "JKD.Chordino.C157_same_list",
    "JKD.Chordino.C157_file",
    "JKD.Chordino.C157_silence"
   ],
   "note": "In exact arithmetic, without normalisation of the chroma. A dictionary is the list of its entries, each a name and 24 numbers, held as the reader of chord.dict holds it; C157_file starts from the lines of the file."
  },
  {
   "property": "C158",
   "status": "proved",
   "theorems": [
    "JKD.Chordino.C158_shares",
    "JKD.Chordino.C158_effect",
    "JKD.Chordino.C158_sequence",
    "JKD.Chordino.C158_no_chord"
   ],
   "note": "In exact arithmetic. The shares for any dictionary; strict growth, the sequence and the recording without chords for the built-in one. How much is left without a chord is measured by how much better N fits the blocks, not by their number."
  },
  {
   "property": "C159",
   "status": "proved",
   "theorems": [
    "JKD.Chroma.C159_spectrum",
    "JKD.Chroma.C159_semitones",
    "JKD.Chroma.C159_plain"
   ],
   "note": "For every arithmetic whose comparison is an order and whose tuning is in range: the exact one and every rounding that keeps halves (examples of both are in PluginProps.lean). A frame with not-a-number is outside. Block size at least 4 and complete blocks, as the host delivers them."
  },
  {
   "property": "C160",
   "status": "proved",
   "theorems": [
    "JKD.Chordino.C160_spelling",
    "JKD.Chordino.C160_names"
   ],
   "note": "No hypothesis on the arithmetic for the first theorem; the one on the names needs an arithmetic that tells the numbers 0 and 1 of the table apart. That two chords of the built-in dictionary share a name is C82."
  },
  {
   "property": "C161",
   "status": "proved",
   "theorems": [
    "JKD.Chordino.C161_normalisation",
    "JKD.Chordino.C161_plain",
    "JKD.Chordino.C161_chords",
    "JKD.Chordino.C161_silence"
   ],
   "note": "The normalised chroma of Chordino.cpp:456-487 go into a list nothing reads; the model leaves that list out (see the head of Chordino.lean), the theorem is about everything else the parameter could reach. Block size at least 4 and complete blocks."
  },
  {
   "property": "C162",
   "status": "proved",
   "theorems": [
    "JKD.Nearest.C162_nearest",
    "JKD.Nearest.C162_scores",
    "JKD.Nearest.C162_quarters",
    "JKD.Nearest.C162_more",
    "JKD.Nearest.C162_tables",
    "JKD.Nearest.C162_passage",
    "JKD.Nearest.C162_main",
    "JKD.Nearest.C162_neither"
   ],
   "note": "Given the local keys of the run; C162_neither is shown for phrases of C133 (profiles sapp, table exponential10)."
  },
  {
   "property": "C163",
   "status": "partial",
   "theorems": [
    "JKD.Tools.C163_lines",
    "JKD.Tools.C163_splits_partial",
    "JKD.Tools.C163_last_line_violated",
    "JKD.Tools.C163_overlap_violated",
    "JKD.Tools.C163_hidden_violated"
   ],
   "note": "True if the lines of the split files are complete, distinct and name pieces, and the annotations belong to pieces (C163_splits_partial). Without this both directions fail: a last line without a line feed is not counted (C163_last_line_violated), and the numbers agree when a piece is in both splits and another in none (C163_overlap_violated); a hidden file is not counted and ends the data-set program (C163_hidden_violated)."
  },
  {
   "property": "C164",
   "status": "partial",
   "theorems": [
    "JKD.Phrases.C164_files",
    "JKD.Phrases.C164_found",
    "JKD.Phrases.C164_test_files_partial",
    "JKD.Phrases.C164_profiles_violated"
   ],
   "note": "What is found is stated for all 25 pairs of profiles (C164_found). The property holds for 22 of them (C164_test_files_partial), among them the default; with krumhansl_kessler for major and aarden_essen, sapp or temperley for minor all twelve files in major keys get the relative minor key and the score 0.3 (C164_profiles_violated). The contents of the files are transcribed in testFiles; that the MIDI library reads them so is a hypothesis (Reads)."
  },
  {
   "property": "C165",
   "status": "proved",
   "theorems": [
    "JKD.Detect.C165_passage",
    "JKD.Detect.C165_decided",
    "JKD.Detect.C165_same"
   ],
   "note": "For every passage (C165_passage), decided passages (C165_decided) and two pieces (C165_same)."
  },
  {
   "property": "C166",
   "status": "partial",
   "theorems": [
    "JKD.Phrases.C166_modes",
    "JKD.Phrases.C166_natural_minor_partial",
    "JKD.Phrases.C166_natural_minor_violated",
    "JKD.Phrases.C166_fourth_violated",
    "JKD.Phrases.C166_natural_minor",
    "JKD.Phrases.C166_main_violated"
   ],
   "note": "With the default tables the scale from every degree is heard in the major key (C166_modes), also from the sixth. All 25 pairs of profiles are settled for the natural minor scale: it is heard in its own key with 9 of them and no others (C166_natural_minor, C166_natural_minor_partial), in the relative major key with 15, among them the default (C166_natural_minor_violated, C166_main_violated), and in the minor key of its fourth with one (C166_fourth_violated)."
  },
  {
   "property": "C167",
   "status": "partial",
   "theorems": [
    "JKD.Phrases.C167_slower",
    "JKD.Phrases.C167_struck_partial",
    "JKD.Phrases.C167_struck_violated"
   ],
   "note": "One direction holds for all pieces and tables: what stays in a key by a factor for every stroke when struck d times stays in it when struck once (C167_slower), and the program finds that key both times (C167_struck_partial). The other direction is false: with the default tables C G C F# is heard in G major, and in C major when every note is struck twice (C167_struck_violated)."
  },
  {
   "property": "C168",
   "status": "partial",
   "theorems": [
    "JKD.Phrases.C168_route",
    "JKD.Phrases.C168_related_partial",
    "JKD.Phrases.C168_majority",
    "JKD.Phrases.C168_tritone_violated",
    "JKD.Phrases.C168_main_violated"
   ],
   "note": "Between closely related keys no route of any length is more probable than the direct change (C168_route), so the local keys of any passage between them explain its notes at least as well as a direct change at any place (C168_related_partial); a key with more than half of the notes wins if the other local keys are closely related to it (C168_majority). False for other keys: the transition tables do not satisfy the triangle inequality, and C major triads followed by F# major triads are heard in E flat major (C168_tritone_violated, C168_main_violated)."
  },
  {
   "property": "C169",
   "status": "partial",
   "theorems": [
    "JKD.Phrases.C169_tunes_partial",
    "JKD.Phrases.C169_tunes_violated",
    "JKD.Phrases.C169_verses_violated",
    "JKD.Phrases.C169_main_partial",
    "JKD.Phrases.C169_main_violated",
    "JKD.Phrases.C169_midi_partial",
    "JKD.Phrases.C169_midi_violated",
    "JKD.Phrases.C169_score"
   ],
   "note": "Proved for medleys of five tunes and textbook pieces in the major key, in any number and order on any tonic (C169_tunes_partial; whole program C169_main_partial, MIDI files C169_midi_partial). False for three other tunes: \"Alle meine Entchen\" is heard in the minor key of the second degree, \"Mary had a little lamb\" in the key of the dominant, the first half of the chorus of \"Jingle bells\" in the relative minor key (C169_tunes_violated, C169_main_violated, C169_midi_violated), however many verses are sung (C169_verses_violated). The printed scores are in C169_score. The tunes are entered from memory as sequences of scale steps; only the default tables are covered."
  }
 ]
}