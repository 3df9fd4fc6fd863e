{
 "claims": [
  {
   "property": "C01",
   "status": "proved",
   "theorems": [
    "Big.Heap.C01_copy_is_priority_queue",
    "Big.Heap.C01_errors_leave_heap_unchanged",
    "Big.Heap.C01_heap_is_priority_queue"
   ],
   "note": "Heap with CPython heapq transcribed; refinement to a bag specification for every history."
  },
  {
   "property": "C02",
   "status": "proved",
   "theorems": [
    "Big.Heap.C02_iteration_sorted",
    "Big.Heap.C02_iterator_invalidated",
    "Big.Heap.C02_next_keeps_version",
    "Big.Heap.C02_queue_sorted"
   ],
   "note": ""
  },
  {
   "property": "C03",
   "status": "proved",
   "theorems": [
    "Big.Heap.C03_raises_iff",
    "Big.Heap.C03_slice",
    "Big.Heap.C03_slice_any_step"
   ],
   "note": ""
  },
  {
   "property": "C04",
   "status": "proved",
   "theorems": [
    "Big.Heap.C04_append_and_popleft",
    "Big.Heap.C04_append_and_popleft_eq",
    "Big.Heap.C04_popleft_and_append"
   ],
   "note": ""
  },
  {
   "property": "C05",
   "status": "proved",
   "theorems": [
    "Big.Scheduler.C05_schedule_due_time",
    "Big.Scheduler.C05_yields_least_due"
   ],
   "note": ""
  },
  {
   "property": "C06",
   "status": "proved",
   "theorems": [
    "Big.Scheduler.C06_exactly_one",
    "Big.Scheduler.C06_never_broken",
    "Big.Scheduler.C06_no_loss_no_duplication"
   ],
   "note": ""
  },
  {
   "property": "C07",
   "status": "proved",
   "theorems": [
    "Big.Scheduler.C07_cancel_gone",
    "Big.Scheduler.C07_cancel_queued"
   ],
   "note": ""
  },
  {
   "property": "C08",
   "status": "proved",
   "theorems": [
    "Big.Scheduler.C08_non_blocking_drain"
   ],
   "note": ""
  },
  {
   "property": "C09",
   "status": "proved",
   "theorems": [
    "Big.Scheduler.C09_queue_predicts",
    "Big.Scheduler.C09_stop_iff_empty"
   ],
   "note": ""
  },
  {
   "property": "C10",
   "status": "proved",
   "theorems": [
    "Big.Scheduler.C10_waiting_is_woken"
   ],
   "note": ""
  },
  {
   "property": "C11",
   "status": "partial",
   "theorems": [
    "Big.Graph.C11_ready_after_predecessors_partial",
    "Big.Graph.C11_violated_by_repeated_argument"
   ],
   "note": "False of the code when done() is given a repeated argument (C11_violated_by_repeated_argument); proved in every history for every view whose own done() calls, since it was made or reset, named no node twice and, if refused, released nothing. Other views, and the graph, may be used in any way."
  },
  {
   "property": "C12",
   "status": "proved",
   "theorems": [
    "Big.Graph.C12_yield_at_most_once"
   ],
   "note": ""
  },
  {
   "property": "C13",
   "status": "proved",
   "theorems": [
    "Big.Graph.C13_static_order",
    "Big.Graph.C13_static_order_cycle"
   ],
   "note": ""
  },
  {
   "property": "C14",
   "status": "proved",
   "theorems": [
    "Big.Graph.C14_counting_terminates",
    "Big.Graph.C14_cycle_sound_complete",
    "Big.Graph.C14_search_terminates"
   ],
   "note": ""
  },
  {
   "property": "C15",
   "status": "proved",
   "theorems": [
    "Big.Graph.C15_graph_is_union",
    "Big.Graph.C15_repetition_irrelevant"
   ],
   "note": ""
  },
  {
   "property": "C16",
   "status": "proved",
   "theorems": [
    "Big.Graph.C16_remove_absent",
    "Big.Graph.C16_remove_exact",
    "Big.Graph.C16_scan_finds_all"
   ],
   "note": ""
  },
  {
   "property": "C17",
   "status": "partial",
   "theorems": [
    "Big.Graph.C17_loop_finishes_partial",
    "Big.Graph.C17_progress_partial",
    "Big.Graph.C17_violated_by_late_edge"
   ],
   "note": "False when a dependency on an already-done node is added (C17_violated_by_late_edge); for every view with clean done() calls it is proved exactly how far progress goes: something is ready or outstanding, or everything left waits for such late nodes, which ready() never returns (C21_ready_exact_partial)."
  },
  {
   "property": "C18",
   "status": "proved",
   "theorems": [
    "Big.Graph.C18_message_true",
    "Big.Graph.C18_never_on_coherent",
    "Big.Graph.C18_remove_restores"
   ],
   "note": ""
  },
  {
   "property": "C19",
   "status": "proved",
   "theorems": [
    "Big.Graph.C19_reset_is_fresh",
    "Big.Graph.C19_views_independent"
   ],
   "note": ""
  },
  {
   "property": "C20",
   "status": "proved",
   "theorems": [
    "Big.Graph.C20_original_unaffected"
   ],
   "note": "Full, for every reachable graph and every interleaving of operations on the two."
  },
  {
   "property": "C21",
   "status": "partial",
   "theorems": [
    "Big.Graph.C21_ready_exact_partial",
    "Big.Graph.C21_violated_by_invalid_argument"
   ],
   "note": "False of the code for repeated or invalid arguments (C21_violated_by_invalid_argument, C11_violated_by_repeated_argument); for every view with clean done() calls what ready() returns is proved exactly, late dependencies included."
  },
  {
   "property": "C22",
   "status": "proved",
   "theorems": [
    "Big.Version.C22_eq_equivalence",
    "Big.Version.C22_eq_is_documented",
    "Big.Version.C22_order_is_documented",
    "Big.Version.C22_transitive",
    "Big.Version.C22_trichotomy"
   ],
   "note": ""
  },
  {
   "property": "C23",
   "status": "proved",
   "theorems": [
    "Big.Version.C23_hash_iff",
    "Big.Version.C23_hash_written_alike",
    "Big.Version.C23_violated"
   ],
   "note": "C23_hash_iff is the property; C23_violated is the pair 1.0 and 0!1.0."
  },
  {
   "property": "C24",
   "status": "proved",
   "theorems": [
    "Big.Version.C24_str_roundtrip"
   ],
   "note": ""
  },
  {
   "property": "C25",
   "status": "proved",
   "theorems": [
    "Big.Version.C25_case",
    "Big.Version.C25_lower_case_never_asserts",
    "Big.Version.C25_same_fields_equal",
    "Big.Version.C25_spelling"
   ],
   "note": ""
  },
  {
   "property": "C26",
   "status": "proved",
   "theorems": [
    "Big.Version.C26_fields",
    "Big.Version.C26_keywords_iff",
    "Big.Version.C26_keywords_survive",
    "Big.Version.C26_violated"
   ],
   "note": "C26_keywords_iff is the property; C26_violated has an example of each failure."
  },
  {
   "property": "C27",
   "status": "proved",
   "theorems": [
    "Big.Pushback.C27_exception_swallowed",
    "Big.Pushback.C27_false_iterator_ignored",
    "Big.Pushback.C27_finite",
    "Big.Pushback.C27_nested",
    "Big.Pushback.C27_none",
    "Big.Pushback.C27_pushback_is_stack"
   ],
   "note": "Proved for every iterator that raises only StopIteration and is not false while it has values; C27_exception_swallowed and C27_false_iterator_ignored show what happens otherwise."
  },
  {
   "property": "C28",
   "status": "proved",
   "theorems": [
    "Big.State.C28_constructor",
    "Big.State.C28_locked_while_transitioning",
    "Big.State.C28_protocol",
    "Big.State.C28_reads",
    "Big.State.C28_refused",
    "Big.State.C28_result"
   ],
   "note": ""
  },
  {
   "property": "C29",
   "status": "proved",
   "theorems": [
    "Big.State.C29_old_state"
   ],
   "note": ""
  },
  {
   "property": "C30",
   "status": "proved",
   "theorems": [
    "Big.State.C30_accessor_set",
    "Big.State.C30_dispatch_calls",
    "Big.State.C30_dispatch_follows_state",
    "Big.State.C30_state_is_last_switch"
   ],
   "note": ""
  },
  {
   "property": "C31",
   "status": "proved",
   "theorems": [
    "Big.Log.C31_elapsed",
    "Big.Log.C31_end",
    "Big.Log.C31_end_reading",
    "Big.Log.C31_end_stale",
    "Big.Log.C31_enter",
    "Big.Log.C31_exit",
    "Big.Log.C31_exit_unmatched",
    "Big.Log.C31_log",
    "Big.Log.C31_start",
    "Big.Log.C31_starts_sorted"
   ],
   "note": "C31_end, C31_end_reading; C31_end_stale: a reset leaves log.end as it was."
  },
  {
   "property": "C32",
   "status": "proved",
   "theorems": [
    "Big.Log.C32_negative",
    "Big.Log.C32_print",
    "Big.Log.C32_right_iff",
    "Big.Log.C32_shown",
    "Big.Log.C32_violated"
   ],
   "note": "C32_right_iff is the property; C32_shown is what is shown, C32_violated that it is wrong for whole seconds, C32_negative what is shown for a negative time."
  },
  {
   "property": "C33",
   "status": "proved",
   "theorems": [
    "Big.File.C33_exfat_iff",
    "Big.File.C33_exfat_legal",
    "Big.File.C33_nonempty",
    "Big.File.C33_violated"
   ],
   "note": "C33_exfat_iff is the property; C33_violated: with a control character the result always has a question mark."
  },
  {
   "property": "C34",
   "status": "proved",
   "theorems": [
    "Big.File.C34_unix"
   ],
   "note": ""
  },
  {
   "property": "C35",
   "status": "proved",
   "theorems": [
    "Big.File.C35_fgrep",
    "Big.File.C35_fgrep_ci",
    "Big.File.C35_grep",
    "Big.File.C35_numbered_unique"
   ],
   "note": "Contents are what f.read() returned; str.lower is any function that handles lines separately (LowerOk)."
  },
  {
   "property": "C36",
   "status": "proved",
   "theorems": [
    "Big.File.Fs.C36_pushd",
    "Big.File.Fs.C36_pushd_enter",
    "Big.File.Fs.C36_pushd_exception",
    "Big.File.Fs.C36_pushd_records",
    "Big.File.Fs.C36_safe_mkdir",
    "Big.File.Fs.C36_safe_mkdir_succeeds",
    "Big.File.Fs.C36_safe_unlink",
    "Big.File.Fs.C36_touch",
    "Big.File.Fs.C36_touch_succeeds"
   ],
   "note": "No symbolic links, permissions or concurrent processes in the model."
  },
  {
   "property": "C37",
   "status": "proved",
   "theorems": [
    "Big.MS.C37_multisplit_item_shape",
    "Big.MS.C37_multisplit_keep_lossless"
   ],
   "note": ""
  },
  {
   "property": "C38",
   "status": "proved",
   "theorems": [
    "Big.MS.C38_inner_texts_nonempty",
    "Big.MS.C38_multipartition_set",
    "Big.MS.C38_multisplit_set",
    "Big.MS.C38_multisplit_splits_exactly",
    "Big.MS.C38_multistrip_set",
    "Big.MS.C38_separator_pieces",
    "Big.MS.C38_splits_unique",
    "Big.MS.C38_texts_contain_no_separator"
   ],
   "note": ""
  },
  {
   "property": "C39",
   "status": "proved",
   "theorems": [
    "Big.MS.C39_at_most_maxsplit_splits",
    "Big.MS.C39_maxsplit_makes_the_first_splits",
    "Big.MS.C39_maxsplit_none",
    "Big.MS.C39_maxsplit_zero_or_negative"
   ],
   "note": ""
  },
  {
   "property": "C40",
   "status": "proved",
   "theorems": [
    "Big.MS.C40_reverse_irrelevant_for_single_characters",
    "Big.MS.C40_reverse_matters_for_long_separators",
    "Big.MS.C40_reverse_mirrors_forward"
   ],
   "note": ""
  },
  {
   "property": "C41",
   "status": "proved",
   "theorems": [
    "Big.MS.C41_errors",
    "Big.MS.C41_multistrip_general",
    "Big.MS.C41_strips"
   ],
   "note": ""
  },
  {
   "property": "C42",
   "status": "proved",
   "theorems": [
    "Big.MS.C42_multipartition_is_multisplit",
    "Big.MS.C42_multipartition_rejoins",
    "Big.MS.C42_multirpartition",
    "Big.MS.C42_negative_count_raises"
   ],
   "note": ""
  },
  {
   "property": "C43",
   "status": "proved",
   "theorems": [
    "Big.MS.C43_errors",
    "Big.MS.C43_fast_path_agrees",
    "Big.MS.C43_idempotent",
    "Big.MS.C43_runs_become_the_replacement",
    "Big.MS.C43_whitespace_tables"
   ],
   "note": "str.isspace is taken to be the table str_whitespace (true of CPython)."
  },
  {
   "property": "C44",
   "status": "proved",
   "theorems": [
    "Big.Words.C44_split_title_case",
    "Big.Words.C44_splits_before_capitals"
   ],
   "note": ""
  },
  {
   "property": "C45",
   "status": "proved",
   "theorems": [
    "Big.Words.C45_combine_splits",
    "Big.Words.C45_counterexample_unnoticed",
    "Big.Words.C45_too_long",
    "Big.Words.C45_union_of_boundaries"
   ],
   "note": "heapq transcribed (Verif.Heap); C45_too_long characterizes exactly when ValueError is raised; C45_counterexample_unnoticed shows a too-long array the early return hides (outside the claim)."
  },
  {
   "property": "C46",
   "status": "proved",
   "theorems": [
    "Big.Words.C46_only_word_initial"
   ],
   "note": ""
  },
  {
   "property": "C47",
   "status": "proved",
   "theorems": [
    "Big.SQ.C47_raises_iff",
    "Big.SQ.C47_split_quoted_strings"
   ],
   "note": "Rejoining, matching quotes and the token-level statement proved for all inputs."
  },
  {
   "property": "C48",
   "status": "proved",
   "theorems": [
    "Big.SD.C48_delimiters_nest",
    "Big.SD.C48_raises_iff",
    "Big.SD.C48_single_character_parser"
   ],
   "note": "Nesting, quoting, termination and the only exceptions proved for all delimiters (C48_delimiters_nest, C48_raises_iff); with single-character delimiters the result is exactly the obvious parser's (C48_single_character_parser)."
  },
  {
   "property": "C49",
   "status": "proved",
   "theorems": [
    "Big.Lines.C49_lines_of_iterable",
    "Big.Lines.C49_lines_of_text"
   ],
   "note": ""
  },
  {
   "property": "C50",
   "status": "proved",
   "theorems": [
    "Big.Lines.C50_assertion_fails_without_tab_width",
    "Big.Lines.C50_chains_keep_lines_whole",
    "Big.Lines.C50_convert_tabs_changes_lines",
    "Big.Lines.C50_no_assertion_fails"
   ],
   "note": "Proved for chains, of any length, of every modifier except lines_convert_tabs_to_spaces, which the property does not list and which rewrites the line (C50_convert_tabs_changes_lines). If tab_width > 0 no assertion fails either (C50_no_assertion_fails); for tab_width <= 0 one does (C50_assertion_fails_without_tab_width), so that nothing is yielded."
  },
  {
   "property": "C51",
   "status": "proved",
   "theorems": [
    "Big.Lines.C51_blank_lines",
    "Big.Lines.C51_hypotheses_hold",
    "Big.Lines.C51_indent_is_the_number_of_levels",
    "Big.Lines.C51_refused"
   ],
   "note": ""
  },
  {
   "property": "C52",
   "status": "proved",
   "theorems": [
    "Big.Wrap.C52_greedy",
    "Big.Wrap.C52_words_kept"
   ],
   "note": ""
  },
  {
   "property": "C53",
   "status": "proved",
   "theorems": [
    "Big.Wrap.C53_counterexample_assertion",
    "Big.Wrap.C53_counterexample_code_again",
    "Big.Wrap.C53_counterexample_last_line",
    "Big.Wrap.C53_elements",
    "Big.Wrap.C53_exact",
    "Big.Wrap.C53_layout",
    "Big.Wrap.C53_layout_iff",
    "Big.Wrap.C53_loses_nothing",
    "Big.Wrap.C53_raises"
   ],
   "note": "C53_exact and C53_raises give the result for every text, C53_layout_iff says when it is the layout; three counterexample theorems show the rest."
  },
  {
   "property": "C54",
   "status": "proved",
   "theorems": [
    "Big.Wrap.C54_no_overflow",
    "Big.Wrap.C54_raises",
    "Big.Wrap.C54_rows"
   ],
   "note": "C54_rows, C54_no_overflow and C54_raises hold in full for every strategy."
  },
  {
   "property": "C55",
   "status": "proved",
   "theorems": [
    "Big.IntWords.C55_injective",
    "Big.IntWords.C55_letters",
    "Big.IntWords.C55_outside",
    "Big.IntWords.C55_reads",
    "Big.IntWords.C55_spelling"
   ],
   "note": ""
  },
  {
   "property": "C56",
   "status": "proved",
   "theorems": [
    "Big.RePart.C56_empty_match",
    "Big.RePart.C56_partition",
    "Big.RePart.C56_raises",
    "Big.RePart.C56_rpartition",
    "Big.RePart.C56_rraises"
   ],
   "note": "Shape, number of elements, rejoining and the exact condition for ValueError hold for every matcher, in both directions."
  },
  {
   "property": "C57",
   "status": "proved",
   "theorems": [
    "Big.RePart.C57_complete",
    "Big.RePart.C57_disjoint",
    "Big.RePart.C57_not_rightmost",
    "Big.RePart.C57_nothing",
    "Big.RePart.C57_terminates",
    "Big.RePart.C57_true_matches"
   ],
   "note": "Holds for every lawful matcher. C57_not_rightmost: the first match yielded is not always the one that ends last."
  },
  {
   "property": "C58",
   "status": "proved",
   "theorems": [
    "Big.Time.C58_format",
    "Big.Time.C58_human_default",
    "Big.Time.C58_human_local",
    "Big.Time.C58_human_reads",
    "Big.Time.C58_order",
    "Big.Time.C58_raises",
    "Big.Time.C58_reads",
    "Big.Time.C58_timezone",
    "Big.Time.C58_utc",
    "Big.Time.C58_year_999"
   ],
   "note": "Years before 1000 are not padded to four digits (C58_year_999)."
  },
  {
   "property": "C59",
   "status": "proved",
   "theorems": [
    "Big.Builtin.C59_get_float",
    "Big.Builtin.C59_get_int",
    "Big.Builtin.C59_try_float",
    "Big.Builtin.C59_try_int"
   ],
   "note": "try_* and get_* are characterised exactly, also when they raise."
  },
  {
   "property": "C60",
   "status": "proved",
   "theorems": [
    "Big.BoundInner.C60_class",
    "Big.BoundInner.C60_mro",
    "Big.BoundInner.C60_super",
    "Big.BoundInner.C60_unbound"
   ],
   "note": "C60_mro and C60_super hold for all class hierarchies (C3 linearization included) in which each decorated class is an attribute under its own name."
  },
  {
   "property": "C61",
   "status": "proved",
   "theorems": [
    "Big.Encode.C61_errors",
    "Big.Encode.C61_no_str",
    "Big.Encode.C61_ok",
    "Big.Encode.C61_subclass",
    "Big.Encode.C61_type_error"
   ],
   "note": "The exceptions are characterised exactly (C61_errors, C61_ok, C61_type_error); C61_subclass: subclasses such as defaultdict and namedtuple raise TypeError."
  },
  {
   "property": "C62",
   "status": "proved",
   "theorems": [
    "Big.DC.C62_strip_comments",
    "Big.DC.C62_strip_comments_fault",
    "Big.DC.C62_strip_comments_line",
    "Big.DP.C62_parse_checks",
    "Big.DP.C62_parse_errors",
    "Big.DP.C62_parse_exact",
    "Big.DP.C62_parse_mismatched",
    "Big.DP.C62_parse_rejoin",
    "Big.DP.C62_parse_tuples",
    "Big.DP.C62_parse_typeError",
    "Big.DP.C62_parse_unclosed",
    "Big.DQ.C62_quoted_exact",
    "Big.DQ.C62_quoted_fault",
    "Big.DQ.C62_quoted_raises",
    "Big.DQ.C62_quoted_rejoin",
    "Big.DQ.C62_quoted_total"
   ],
   "note": "The shape theorems assume that the backslash is not one of the quote marks (rejoining does not). Faults, proved with witnesses: split_quoted_strings('a \"') raises RuntimeError (C62_quoted_fault) and so does lines_strip_comments on such a line, even if the quote mark is in the comment (C62_strip_comments_fault); lines_strip_comments never sets the 'comment' field its docstring promises (Right: attributes unchanged)."
  },
  {
   "property": "C63",
   "status": "proved",
   "theorems": [
    "Big.Lines.C63_filter_empty_lines",
    "Big.Lines.C63_filter_line_comment_lines",
    "Big.Lines.C63_lines_containing",
    "Big.Lines.C63_lines_grep",
    "Big.Lines.C63_lines_sort",
    "Big.Lines.C63_marker_with_whitespace"
   ],
   "note": "A single marker that starts with whitespace never matches although two such markers do (C63_marker_with_whitespace); hence the hypothesis that markers do not start with whitespace."
  },
  {
   "property": "C64",
   "status": "proved",
   "theorems": [
    "Big.MS.C64_counterexample_maxsplit_none",
    "Big.MS.C64_progressive_all_space",
    "Big.MS.C64_progressive_is_str_split",
    "Big.MS.C64_progressive_unlimited",
    "Big.MS.C64_strip_then_split"
   ],
   "note": "maxsplit=None with PROGRESSIVE is a defect (C64_counterexample_maxsplit_none); integers proved in full. The property is stated for integer n."
  },
  {
   "property": "C65",
   "status": "proved",
   "theorems": [
    "Big.Lines.C65_column_number_no_tabs",
    "Big.Lines.C65_column_number_of_pieces",
    "Big.Lines.C65_counterexample_partition",
    "Big.Lines.C65_counterexample_two_clips",
    "Big.Lines.C65_counterexample_whole_line"
   ],
   "note": "C65_column_number_of_pieces and C65_column_number_no_tabs; three counterexample theorems for the stronger reading."
  },
  {
   "property": "C66",
   "status": "proved",
   "theorems": [
    "Big.Lines.C66_line_comment",
    "Big.Lines.C66_no_quotes",
    "Big.Lines.C66_state_is_threaded"
   ],
   "note": ""
  },
  {
   "property": "C67",
   "status": "proved",
   "theorems": [
    "Big.Lines.C67_lines_rstrip",
    "Big.Lines.C67_lines_strip",
    "Big.Lines.C67_strip_separators"
   ],
   "note": ""
  },
  {
   "property": "C68",
   "status": "proved",
   "theorems": [
    "Big.MS.C68_convert_from_pairs",
    "Big.MS.C68_readme_partition",
    "Big.MS.C68_readme_split_none",
    "Big.MS.C68_readme_splitlines",
    "Big.MS.C68_split_is_str_split"
   ],
   "note": "bytes not modelled (the README's bytes branch uses str separators)."
  },
  {
   "property": "C69",
   "status": "proved",
   "theorems": [
    "Big.Heap.C69_bool_and_repr",
    "Big.Heap.C69_contents",
    "Big.Heap.C69_copy_eq",
    "Big.Heap.C69_eq_equivalence",
    "Big.Heap.C69_eq_iff_indistinguishable",
    "Big.Heap.C69_eq_iff_perm",
    "Big.Heap.C69_eq_iff_same_bag",
    "Big.Heap.C69_eq_sound",
    "Big.Heap.C69_eq_ties_differ",
    "Big.Heap.C69_in_iff_removable",
    "Big.Heap.C69_len_counts_poplefts"
   ],
   "note": "repr(Heap()) raises IndexError (C69_bool_and_repr); with ties that are not ==, equality depends on insertion order (C69_eq_ties_differ), so C69_eq_iff_same_bag assumes values tie exactly if ==."
  },
  {
   "property": "C70",
   "status": "proved",
   "theorems": [
    "Big.Log.C70_dashes",
    "Big.Log.C70_headings",
    "Big.Log.C70_lines"
   ],
   "note": "The times themselves are C32."
  },
  {
   "property": "C71",
   "status": "proved",
   "theorems": [
    "Big.Version.C71_accessors",
    "Big.Version.C71_equal_versions_agree",
    "Big.Version.C71_version_info",
    "Big.Version.C71_version_info_order"
   ],
   "note": ""
  },
  {
   "property": "C72",
   "status": "proved",
   "theorems": [
    "Big.MS.C72_bytes_split_none",
    "Big.MS.C72_bytes_splitlines",
    "Big.MS.C72_bytes_tables",
    "Big.MS.C72_defensive_code_adds_str",
    "Big.MS.C72_filters_on_strings",
    "Big.MS.C72_reversed_tables",
    "Big.MS.C72_space_sets",
    "Big.MS.C72_str_linebreak_tables",
    "Big.MS.C72_str_whitespace_tables"
   ],
   "note": ""
  },
  {
   "property": "C73",
   "status": "proved",
   "theorems": [
    "Big.Scheduler.C73_event_cancel",
    "Big.Scheduler.C73_for_loop",
    "Big.Scheduler.C73_next_ends",
    "Big.Scheduler.C73_non_blocking",
    "Big.Scheduler.C73_sleeps_at_most_once"
   ],
   "note": ""
  },
  {
   "property": "C74",
   "status": "proved",
   "theorems": [
    "Big.MS.C74_kinds",
    "Big.MS.C74_multisplit_refuses",
    "Big.MS.C74_multistrip_refuses",
    "Big.MS.C74_multistrip_separators"
   ],
   "note": ""
  },
  {
   "property": "C75",
   "status": "proved",
   "theorems": [
    "Big.SD.C75_resume"
   ],
   "note": ""
  },
  {
   "property": "C76",
   "status": "proved",
   "theorems": [
    "Big.SQ.C76_line_by_line",
    "Big.SQ.C76_resume"
   ],
   "note": ""
  },
  {
   "property": "C77",
   "status": "proved",
   "theorems": [
    "Big.File.C77_fgrep_bytes",
    "Big.File.C77_fgrep_str",
    "Big.File.C77_grep_bytes",
    "Big.File.C77_grep_raises",
    "Big.File.C77_grep_str",
    "Big.File.C77_line_after_the_last",
    "Big.File.C77_lines_unique",
    "Big.File.C77_raises"
   ],
   "note": ""
  },
  {
   "property": "C78",
   "status": "proved",
   "theorems": [
    "Big.SD.C78_message",
    "Big.SD.C78_no_quotes",
    "Big.SD.C78_right_iff",
    "Big.SD.C78_violated"
   ],
   "note": "C78_message and C78_right_iff are the property; C78_violated has the wrong messages."
  },
  {
   "property": "C79",
   "status": "proved",
   "theorems": [
    "Big.MS.C79_multistrip",
    "Big.MS.C79_separators_unchanged"
   ],
   "note": ""
  },
  {
   "property": "C80",
   "status": "proved",
   "theorems": [
    "Big.SD.C80_default",
    "Big.SD.C80_order",
    "Big.SD.C80_own_mapping"
   ],
   "note": ""
  },
  {
   "property": "C81",
   "status": "proved",
   "theorems": [
    "Big.Lines.C81_clip",
    "Big.Lines.C81_modifier"
   ],
   "note": ""
  },
  {
   "property": "C82",
   "status": "proved",
   "theorems": [
    "Big.Lines.C82_at_once",
    "Big.Lines.C82_exceptions_pass",
    "Big.Lines.C82_indent_holds_blank_lines",
    "Big.Lines.C82_one_at_a_time",
    "Big.Lines.C82_sort_waits",
    "Big.Lines.C82_streaming"
   ],
   "note": "For every chain of the modifiers in the model; infinite sources through their finite prefixes."
  },
  {
   "property": "C83",
   "status": "proved",
   "theorems": [
    "Big.LinesIter.C83_first",
    "Big.LinesIter.C83_pairs",
    "Big.LinesIter.C83_strings",
    "Big.LinesIter.C83_strings_only",
    "Big.LinesIter.C83_well_formed"
   ],
   "note": "Pairs of str and pairs of bytes may be mixed (C83_pairs)."
  },
  {
   "property": "C84",
   "status": "proved",
   "theorems": [
    "Big.Words.C84_defaults",
    "Big.Words.C84_gently_title",
    "Big.Words.C84_gently_title_wrong_type",
    "Big.Words.C84_normalize_whitespace",
    "Big.Words.C84_normalize_whitespace_refuses"
   ],
   "note": "normalize_whitespace: an empty str as separators is refused only if s is not empty."
  },
  {
   "property": "C85",
   "status": "proved",
   "theorems": [
    "Big.SQ.C85_arguments",
    "Big.SQ.C85_empty_multiline_of_the_other_type",
    "Big.SQ.C85_empty_of_the_other_type",
    "Big.SQ.C85_empty_quote",
    "Big.SQ.C85_false_escape",
    "Big.SQ.C85_iterator_error",
    "Big.SQ.C85_iterators_are_refused",
    "Big.SQ.C85_kinds",
    "Big.SQ.C85_refuses_the_rest",
    "Big.SQ.C85_wrong_escape_or_state",
    "Big.SQ.C85_wrong_quotes"
   ],
   "note": "C85_arguments, C85_refuses_the_rest, C85_iterators_are_refused and the two exceptions; C85_wrong_quotes, C85_empty_quote, C85_wrong_escape_or_state and C85_iterator_error say which exception, if that argument alone is wrong."
  },
  {
   "property": "C86",
   "status": "proved",
   "theorems": [
    "Big.Heap.C86_boundary_index_value",
    "Big.Heap.C86_index",
    "Big.Heap.C86_index_iff",
    "Big.Heap.C86_negative_index_value",
    "Big.Heap.C86_negative_index_wrong"
   ],
   "note": "C86_index_iff is the property, C86_negative_index_value and C86_boundary_index_value what the other indices give; C86_negative_index_wrong a counterexample."
  },
  {
   "property": "C87",
   "status": "partial",
   "theorems": [
    "Big.Graph.C87_bool_partial",
    "Big.Graph.C87_done_partial",
    "Big.Graph.C87_message_complete_partial",
    "Big.Graph.C87_ready_partial",
    "Big.Graph.C87_violated_by_repeated_argument"
   ],
   "note": "False of the code after done() with a repeated argument (C87_violated_by_repeated_argument); proved, as an iff, for every view whose own done() calls were clean."
  },
  {
   "property": "C88",
   "status": "proved",
   "theorems": [
    "Big.Words.C88_counterexample_word_after_D",
    "Big.Words.C88_every_word",
    "Big.Words.C88_exact",
    "Big.Words.C88_missed"
   ],
   "note": "C88_exact is the property, C88_every_word and C88_missed its consequences; C88_counterexample_word_after_D."
  },
  {
   "property": "C89",
   "status": "proved",
   "theorems": [
    "Big.SQ.C89_counterexample_multiline_escape",
    "Big.SQ.C89_counterexample_overlapping_quotes",
    "Big.SQ.C89_exact",
    "Big.SQ.C89_no_unescaped_quote",
    "Big.SQ.C89_one_reading"
   ],
   "note": "C89_exact for all quote marks (C89_one_reading: it determines the text); C89_no_unescaped_quote for marks that do not overlap; the counterexamples show that a mark in multiline_quotes cannot be escaped, contrary to the documentation, and that with overlapping marks the text can contain its mark."
  },
  {
   "property": "C90",
   "status": "proved",
   "theorems": [
    "Big.SD.C90_counterexample_text_duplicated",
    "Big.SD.C90_lossless_no_ignored_tokens",
    "Big.SD.C90_lossless_single_characters",
    "Big.SD.C90_nothing_lost",
    "Big.SD.C90_rereads"
   ],
   "note": "C90_rereads and C90_nothing_lost for all delimiters; C90_lossless_single_characters and C90_lossless_no_ignored_tokens for exactness; C90_counterexample_text_duplicated shows delimiters for which text is repeated."
  },
  {
   "property": "C91",
   "status": "proved",
   "theorems": [
    "Big.Wrap.C91_counterexample_two_spaces_ignored",
    "Big.Wrap.C91_counterexample_whitespace_word",
    "Big.Wrap.C91_margin",
    "Big.Wrap.C91_two_spaces_ignored"
   ],
   "note": "C91_margin and C91_two_spaces_ignored. Counterexample theorems: two_spaces=False still gives two spaces; a whitespace element that does not end in a newline breaks the margin."
  },
  {
   "property": "C92",
   "status": "proved",
   "theorems": [
    "Big.Wrap.C92_aligned",
    "Big.Wrap.C92_aligned_iff",
    "Big.Wrap.C92_counterexample_after",
    "Big.Wrap.C92_counterexample_trailing"
   ],
   "note": "C92_aligned_iff is the property; C92_counterexample_trailing shows a line that is too wide only with its trailing whitespace, C92_counterexample_after that overflow_after is ignored at the end of a column. C54 says what happens with overflows."
  },
  {
   "property": "C93",
   "status": "proved",
   "theorems": [
    "Big.RePart.C93_exact_iff",
    "Big.RePart.C93_not_exact",
    "Big.RePart.C93_rexact_iff",
    "Big.RePart.C93_textual",
    "Big.RePart.C93_textual_exact",
    "Big.RePart.C93_textual_rexact"
   ],
   "note": "C93_exact_iff and C93_rexact_iff are the property; C93_textual, C93_textual_exact and C93_textual_rexact the patterns for which it always holds; C93_not_exact a pattern with a look-behind for which it does not."
  },
  {
   "property": "C94",
   "status": "proved",
   "theorems": [
    "Big.RePart.C94_at_most_twice",
    "Big.RePart.C94_not_strict",
    "Big.RePart.C94_strict",
    "Big.RePart.C94_strict_but_for_empty",
    "Big.RePart.C94_twice_only_empty"
   ],
   "note": "C94_strict_but_for_empty, C94_at_most_twice, C94_twice_only_empty, C94_strict; C94_not_strict is a pattern that yields an empty match twice."
  },
  {
   "property": "C95",
   "status": "proved",
   "theorems": [
    "Big.Time.C95_default",
    "Big.Time.C95_float_counterexample",
    "Big.Time.C95_float_default"
   ],
   "note": "C95_default for every type but float; C95_float_default: for every float the code does the opposite of the docstring."
  },
  {
   "property": "C96",
   "status": "proved",
   "theorems": [
    "Big.Builtin.C96_counterexamples",
    "Big.Builtin.C96_doc_unique",
    "Big.Builtin.C96_int_of_inf",
    "Big.Builtin.C96_int_or_float",
    "Big.Builtin.C96_int_or_float_documented",
    "Big.Builtin.C96_int_or_float_raises",
    "Big.Builtin.C96_no_raise"
   ],
   "note": "C96_int_or_float and C96_int_or_float_raises are the property; C96_counterexamples: float('inf'), float('nan') and 'inf' with a default raise."
  },
  {
   "property": "C97",
   "status": "proved",
   "theorems": [
    "Big.BoundInner.C97_alias",
    "Big.BoundInner.C97_alias_rebinds",
    "Big.BoundInner.C97_cycle",
    "Big.BoundInner.C97_dead",
    "Big.BoundInner.C97_direct_rebinds",
    "Big.BoundInner.C97_distinct",
    "Big.BoundInner.C97_distinct_names",
    "Big.BoundInner.C97_receives",
    "Big.BoundInner.C97_receives_own_name",
    "Big.BoundInner.C97_same",
    "Big.BoundInner.C97_super_access"
   ],
   "note": "For every history: C97_distinct, C97_receives; C97_same, C97_distinct_names under the conditions stated; C97_direct_rebinds and C97_alias_rebinds say what happens otherwise, with C97_alias, C97_super_access, C97_dead (o gone: None) and C97_cycle (RecursionError) as instances."
  },
  {
   "property": "C98",
   "status": "proved",
   "theorems": [
    "Big.Encode.C98_ascii",
    "Big.Encode.C98_ascii_str",
    "Big.Encode.C98_clash",
    "Big.Encode.C98_same",
    "Big.Encode.C98_same_iff",
    "Big.Encode.C98_text"
   ],
   "note": "C98_same_iff is the property, C98_text and C98_ascii its consequences; C98_clash a counterexample otherwise."
  },
  {
   "property": "C99",
   "status": "proved",
   "theorems": [
    "Big.MS.C99_counterexample_long_separator",
    "Big.MS.C99_counterexample_negative_maxsplit",
    "Big.MS.C99_readme_split",
    "Big.MS.C99_readme_split_iff"
   ],
   "note": "C99_readme_split_iff is the property; two counterexamples."
  },
  {
   "property": "C100",
   "status": "proved",
   "theorems": [
    "Big.Log.C100_columns",
    "Big.Log.C100_columns_iff",
    "Big.Log.C100_misaligned"
   ],
   "note": "C100_columns_iff is the property; C100_misaligned shows the default options after 100 s."
  },
  {
   "property": "C101",
   "status": "proved",
   "theorems": [
    "Big.Version.C101_level_keyword",
    "Big.Version.C101_no_le_ge",
    "Big.Version.C101_operators"
   ],
   "note": "C101_operators, C101_no_le_ge and C101_level_keyword."
  },
  {
   "property": "C102",
   "status": "proved",
   "theorems": [
    "Big.MS.C102_counterexample_empty_iterator",
    "Big.MS.C102_counterexample_iterator",
    "Big.MS.C102_iterator_all_options",
    "Big.MS.C102_iterator_loses_separators",
    "Big.MS.C102_iterator_loses_separators_maxsplit",
    "Big.MS.C102_iterator_progressive",
    "Big.MS.C102_multisplit_separators"
   ],
   "note": "C102_multisplit_separators; C102_iterator_loses_separators (keep and strip false, not reversed; any maxsplit >= -1); C102_counterexample_empty_iterator."
  },
  {
   "property": "C103",
   "status": "proved",
   "theorems": [
    "Big.MS.C103_exact",
    "Big.MS.C103_list_changed_before_start",
    "Big.MS.C103_stale_pattern",
    "Big.MS.C103_unchanged"
   ],
   "note": "C103_exact is the property, C103_unchanged the case of objects that do not change. C103_stale_pattern: a hashable object that changed is split by its old separators; C103_list_changed_before_start: a list changed before the generator is started. Not modelled: a list that is emptied before the generator is started."
  },
  {
   "property": "C104",
   "status": "proved",
   "theorems": [
    "Big.SD.C104_call",
    "Big.SD.C104_changed_default",
    "Big.SD.C104_exported"
   ],
   "note": "C104_call and C104_exported are the two cases; C104_changed_default shows what that means for a changed mapping."
  },
  {
   "property": "C105",
   "status": "proved",
   "theorems": [
    "Big.LinesIter.C105_pairs_only",
    "Big.LinesIter.C105_two_characters"
   ],
   "note": "C105_pairs_only and C105_two_characters."
  },
  {
   "property": "C106",
   "status": "proved",
   "theorems": [
    "Big.Words.C106_empty_iterator",
    "Big.Words.C106_false_is_not_the_default",
    "Big.Words.C106_gently_title_refuses",
    "Big.Words.C106_long_strings_are_ignored",
    "Big.Words.C106_other_type",
    "Big.Words.C106_refuses_exactly",
    "Big.Words.C106_utf8_apostrophes"
   ],
   "note": "C106_gently_title_refuses, C106_empty_iterator, C106_false_is_not_the_default, C106_long_strings_are_ignored, C106_utf8_apostrophes. What is done with the accepted arguments is C84."
  },
  {
   "property": "C107",
   "status": "proved",
   "theorems": [
    "Big.MS.C107_counterexample_idempotent",
    "Big.MS.C107_counterexample_trailing_newline",
    "Big.MS.C107_multistrip",
    "Big.MS.C107_multistrip_idempotent",
    "Big.MS.C107_only_separators_iff",
    "Big.MS.C107_violated"
   ],
   "note": "C107_multistrip, C107_only_separators_iff, C107_violated, C107_multistrip_idempotent; two counterexamples."
  },
  {
   "property": "C108",
   "status": "partial",
   "theorems": [
    "Big.Graph.C108_copy_unaffected_partial",
    "Big.Graph.C108_like_the_original_partial",
    "Big.Graph.C108_violated_add_dependency",
    "Big.Graph.C108_violated_add_to_copy",
    "Big.Graph.C108_violated_add_to_original",
    "Big.Graph.C108_violated_cycle",
    "Big.Graph.C108_violated_remove"
   ],
   "note": "False of the code: the copy's first views do not know the copied nodes, so that removing a copied node, or adding a dependency to one, raises KeyError (C108_violated_remove, C108_violated_add_dependency, for every graph); added nodes are not ready (C108_violated_add_to_copy), nodes added to the original raise in the copy (C108_violated_add_to_original), a cycle is lost (C108_violated_cycle). Proved: for calls that do not change the graph."
  },
  {
   "property": "C109",
   "status": "proved",
   "theorems": [
    "Big.Lines.C109_counterexample_dedent_two_levels",
    "Big.Lines.C109_dedent_accepted"
   ],
   "note": "C109_dedent_accepted is the property; C109_counterexample_dedent_two_levels."
  },
  {
   "property": "C110",
   "status": "proved",
   "theorems": [
    "Big.Version.C110_equal_spellings",
    "Big.Version.C110_normalises",
    "Big.Version.C110_normalises_iff",
    "Big.Version.C110_violated_case",
    "Big.Version.C110_violated_post"
   ],
   "note": "C110_normalises_iff is the property. For capitals there is an example only (C110_violated_case)."
  },
  {
   "property": "C111",
   "status": "proved",
   "theorems": [
    "Big.Lines.C111_clip_nothing",
    "Big.Lines.C111_column_exact",
    "Big.Lines.C111_column_no_tabs",
    "Big.Lines.C111_column_tab",
    "Big.Lines.C111_constructor",
    "Big.Lines.C111_match_refused"
   ],
   "note": "C111_column_exact, C111_column_no_tabs, C111_clip_nothing, C111_constructor; C111_column_tab and C111_match_refused are the disagreements with the documentation."
  },
  {
   "property": "C112",
   "status": "proved",
   "theorems": [
    "Big.State.C112_exactly",
    "Big.State.C112_quiet",
    "Big.State.C112_violated"
   ],
   "note": "C112_exactly and C112_quiet; C112_violated is the failure on its own."
  },
  {
   "property": "C113",
   "status": "proved",
   "theorems": [
    "Big.State.C113_observers",
    "Big.State.C113_observers_distinct",
    "Big.State.C113_stale_observer"
   ],
   "note": "C113_observers (up to ==), C113_observers_distinct and C113_stale_observer."
  },
  {
   "property": "C114",
   "status": "proved",
   "theorems": [
    "Big.Scheduler.C114_lost_wakeup",
    "Big.Scheduler.C114_missed"
   ],
   "note": "C114_missed is the property; C114_lost_wakeup a run in which an event due is not returned because of it."
  },
  {
   "property": "C115",
   "status": "proved",
   "theorems": [
    "Big.Heap.C115_iterators",
    "Big.Heap.C115_next",
    "Big.Heap.C115_next_changed",
    "Big.Heap.C115_next_no_faults",
    "Big.Heap.C115_no_faults",
    "Big.Heap.C115_raises",
    "Big.Heap.C115_repair",
    "Big.Heap.C115_what_is_left"
   ],
   "note": ""
  },
  {
   "property": "C116",
   "status": "proved",
   "theorems": [
    "Big.Heap.C116_changed",
    "Big.Heap.C116_contents_iff",
    "Big.Heap.C116_counterexample_order_lost",
    "Big.Heap.C116_unchanged"
   ],
   "note": "C116_contents_iff is the property (Harmless lists the cases), C116_unchanged the first two cases; C116_changed and C116_counterexample_order_lost the failures."
  },
  {
   "property": "C117",
   "status": "proved",
   "theorems": [
    "Big.Time.C117_counterexample_utc",
    "Big.Time.C117_right",
    "Big.Time.C117_struct_time_iff",
    "Big.Time.C117_violated_gmt_offset"
   ],
   "note": "C117_struct_time_iff and C117_right; C117_counterexample_utc and C117_violated_gmt_offset are the failures."
  },
  {
   "property": "C118",
   "status": "proved",
   "theorems": [
    "Big.File.Fs.C118_alone",
    "Big.File.Fs.C118_only",
    "Big.File.Fs.C118_safe_mkdir",
    "Big.File.Fs.C118_touch"
   ],
   "note": "Symbolic links and permissions are not modelled."
  },
  {
   "property": "C119",
   "status": "proved",
   "theorems": [
    "Big.File.Fs.C119_counterexample",
    "Big.File.Fs.C119_safe_unlink_raises_iff",
    "Big.File.Fs.C119_touch_keeps_contents",
    "Big.File.Fs.C119_touch_keeps_contents_iff"
   ],
   "note": "C119_touch_keeps_contents_iff and C119_safe_unlink_raises_iff are the property; C119_counterexample for every tree and file."
  },
  {
   "property": "C120",
   "status": "proved",
   "theorems": [
    "Big.File.Fs.C120_counterexample_made_before",
    "Big.File.Fs.C120_returns_iff",
    "Big.File.Fs.C120_with_pushd"
   ],
   "note": "C120_with_pushd and C120_returns_iff; C120_counterexample_made_before."
  },
  {
   "property": "C121",
   "status": "proved",
   "theorems": [
    "Big.Version.C121_construct_iff",
    "Big.Version.C121_refuses",
    "Big.Version.C121_repr"
   ],
   "note": "reprStr models CPython's repr of a str with an arbitrary escape for unprintable characters; the theorem needs only that the characters of a version's text are printable."
  },
  {
   "property": "C122",
   "status": "proved",
   "theorems": [
    "Big.SD.C122_accepts_iff",
    "Big.SD.C122_delimiter",
    "Big.SD.C122_delimiter_defaults",
    "Big.SD.C122_delimiter_equality",
    "Big.SD.C122_delimiter_iff",
    "Big.SD.C122_delimiter_value",
    "Big.SD.C122_refuses",
    "Big.SD.C122_type_error"
   ],
   "note": {
    "status": "proved",
    "note": "Lengths are not checked by the code (documented: 1), and this property does not claim it; what longer delimiters do is C78 and C90."
   }
  },
  {
   "property": "C123",
   "status": "proved",
   "theorems": [
    "Big.Lines.C123_message",
    "Big.Lines.C123_same_as_C66",
    "Big.Lines.C123_single_line"
   ],
   "note": ""
  },
  {
   "property": "C124",
   "status": "proved",
   "theorems": [
    "Big.Lines.C124_column",
    "Big.Lines.C124_column_iff",
    "Big.Lines.C124_counterexample_multiline"
   ],
   "note": "C124_column_iff is the property; C124_counterexample_multiline."
  },
  {
   "property": "C125",
   "status": "proved",
   "theorems": [
    "Big.File.Links.C125_paths",
    "Big.File.Links.C125_safe_mkdir",
    "Big.File.Links.C125_safe_mkdir_only",
    "Big.File.Links.C125_safe_mkdir_returns",
    "Big.File.Links.C125_safe_unlink",
    "Big.File.Links.C125_safe_unlink_keeps_target",
    "Big.File.Links.C125_touch",
    "Big.File.Links.C125_touch_returns"
   ],
   "note": "Alone on the file system; permissions are not modelled."
  },
  {
   "property": "C126",
   "status": "proved",
   "theorems": [
    "Big.Scheduler.Fine.C126_atomic",
    "Big.Scheduler.Fine.C126_exclusive",
    "Big.Scheduler.Fine.C126_no_loss",
    "Big.Scheduler.Fine.C126_protocol",
    "Big.Scheduler.Fine.C126_released",
    "Big.Scheduler.Fine.C126_results",
    "Big.Scheduler.Fine.C126_returned_once",
    "Big.Scheduler.Fine.C126_schedule_call",
    "Big.Scheduler.Fine.C126_wakes"
   ],
   "note": "A Heap method call is one step, made only by the thread that holds the lock (C126_exclusive). Times are integers."
  },
  {
   "property": "C127",
   "status": "proved",
   "theorems": [
    "Big.Scheduler.Fine.C127_counterexample_wake",
    "Big.Scheduler.Fine.C127_raises",
    "Big.Scheduler.Fine.C127_raises_nothing_done"
   ],
   "note": "C127_raises_nothing_done, C127_raises and C127_counterexample_wake; C126_results says of every call that raised that it did nothing or all but the wake."
  },
  {
   "property": "C128",
   "status": "proved",
   "theorems": [
    "Big.Graph.C128_add",
    "Big.Graph.C128_counterexample_add",
    "Big.Graph.C128_counterexample_done",
    "Big.Graph.C128_counterexample_hang",
    "Big.Graph.C128_done",
    "Big.Graph.C128_failed_add_forgets",
    "Big.Graph.C128_hashable",
    "Big.Graph.C128_raises_nothing_changed"
   ],
   "note": "C128_raises_nothing_changed, with the exact conditions C128_add and C128_done; C128_failed_add_forgets and the three counterexamples show the damage (a dependency that no view will ever enforce, an endless loop, a node handed out too early)."
  },
  {
   "property": "C129",
   "status": "proved",
   "theorems": [
    "Big.Pushback.C129_counterexample",
    "Big.Pushback.C129_next_method",
    "Big.Pushback.C129_next_swallows",
    "Big.Pushback.C129_passes_exceptions"
   ],
   "note": "C129_passes_exceptions is the iff; C129_next_method for users of .next() and bool(); C129_next_swallows the failure."
  },
  {
   "property": "C130",
   "status": "proved",
   "theorems": [
    "Big.Log.C130_as_documented",
    "Big.Log.C130_counterexample_exit",
    "Big.Log.C130_counterexample_log",
    "Big.Log.C130_raises",
    "Big.Log.C130_raises_nothing_changed",
    "Big.Log.C130_what_is_left"
   ],
   "note": "C130_raises_nothing_changed is the iff; C130_what_is_left says what the exceptions leave."
  },
  {
   "property": "C131",
   "status": "proved",
   "theorems": [
    "Big.Lines.C131_filter_markers",
    "Big.Lines.C131_mixed_types",
    "Big.Lines.C131_other_type",
    "Big.Lines.C131_refuses_empty",
    "Big.Lines.C131_refuses_other_iterables",
    "Big.Lines.C131_strip_markers",
    "Big.Lines.C131_wrong_type",
    "Big.Lines.C131_wrong_type_quotes"
   ],
   "note": "C131_filter_markers, C131_strip_markers, C131_refuses_other_iterables, C131_wrong_type, C131_wrong_type_quotes. The exception of a dict with the key 0 is not modelled."
  },
  {
   "property": "C132",
   "status": "proved",
   "theorems": [
    "Big.Lines.C132_counterexample",
    "Big.Lines.C132_exactly",
    "Big.Lines.C132_multiline_text"
   ],
   "note": "C132_exactly is the iff; C132_counterexample: quotes=('ab',), multiline_quotes='abc'."
  },
  {
   "property": "C133",
   "status": "proved",
   "theorems": [
    "Big.Graph.C133_after_dependencies",
    "Big.Graph.C133_after_dependencies_edited",
    "Big.Graph.C133_first",
    "Big.Graph.C133_late_node_hangs",
    "Big.Graph.C133_once",
    "Big.Graph.C133_resumes",
    "Big.Graph.C133_stuck_forever",
    "Big.Graph.C133_undisturbed_ends",
    "Big.Graph.C133_undisturbed_order",
    "Big.Graph.C133_watched"
   ],
   "note": "That next may never come back is a theorem (C133_late_node_hangs), not an exception to the property. Inside a tuple, nodes removed or made dependent on new nodes since the tuple was taken are still yielded."
  },
  {
   "property": "C134",
   "status": "proved",
   "theorems": [
    "Big.Wrap.C134_again",
    "Big.Wrap.C134_counterexample_code_again",
    "Big.Wrap.C134_counterexample_ends_in_code",
    "Big.Wrap.C134_no_code",
    "Big.Wrap.C134_words_of_wrapped",
    "Big.Wrap.C134_words_of_wrapped_text"
   ],
   "note": "C134_words_of_wrapped, C134_words_of_wrapped_text, C134_no_code, C134_again; the conditions are necessary: C134_counterexample_ends_in_code, C134_counterexample_code_again."
  },
  {
   "property": "C135",
   "status": "proved",
   "theorems": [
    "Big.Words.C135_counterexample_too_long",
    "Big.Words.C135_nested",
    "Big.Words.C135_none",
    "Big.Words.C135_one",
    "Big.Words.C135_only_the_cuts_matter",
    "Big.Words.C135_order_and_repetition"
   ],
   "note": "C135_only_the_cuts_matter and its consequences; the hypothesis on lengths is needed: C135_counterexample_too_long."
  },
  {
   "property": "C136",
   "status": "proved",
   "theorems": [
    "Big.File.C136_exfat_fixed",
    "Big.File.C136_exfat_idempotent",
    "Big.File.C136_exfat_twice",
    "Big.Words.C136_counterexample_letter_as_quote",
    "Big.Words.C136_gently_title_again",
    "Big.Words.C136_gently_title_bytes"
   ],
   "note": "C34_unix, C43 and C107 have the same for translate_filename_to_unix, normalize_whitespace and multistrip. `Settled` states what is assumed of upper; it is proved for bytes (settled_bytes)."
  },
  {
   "property": "C137",
   "status": "proved",
   "theorems": [
    "Big.Lines.C137_comments_and_strip",
    "Big.Lines.C137_convert_tabs_twice",
    "Big.Lines.C137_filter_empty_before",
    "Big.Lines.C137_filters_commute",
    "Big.Lines.C137_order_matters",
    "Big.Lines.C137_sort",
    "Big.Lines.C137_strip_and_rstrip",
    "Big.Lines.C137_strip_twice"
   ],
   "note": "lines_strip and lines_rstrip without separators. C137_comments_and_strip is about streams whose LineInfo is that of a line (Whole), as C67. C137_order_matters shows which orders do matter."
  },
  {
   "property": "C138",
   "status": "proved",
   "theorems": [
    "Big.Graph.C138_cycle",
    "Big.Graph.C138_every_text",
    "Big.Graph.C138_invalid",
    "Big.Graph.C138_same_word",
    "Big.Graph.C138_sorts"
   ],
   "note": "C138_sorts, C138_cycle, C138_same_word, C138_invalid, C138_every_text. The text is what is read after newline translation; opening the file is not modelled."
  },
  {
   "property": "C139",
   "status": "proved",
   "theorems": [
    "Big.Lines.C139_in_order",
    "Big.Lines.C139_indent",
    "Big.Lines.C139_match_stays",
    "Big.Lines.C139_no_match",
    "Big.Lines.C139_none_twice"
   ],
   "note": "Attribute names LineInfo uses itself (line, leading, ...) are not modelled as targets of lines_grep."
  },
  {
   "property": "C140",
   "status": "proved",
   "theorems": [
    "Big.MS.C140_comment_pattern",
    "Big.MS.C140_separators_are_literal",
    "Big.MS.C140_strip_patterns"
   ],
   "note": "The reader of re's syntax is for patterns without [...], '.', {...}, lazy repetition, named groups, look-around and flags, and is part of what is trusted, as re.escape's table is."
  },
  {
   "property": "C141",
   "status": "proved",
   "theorems": [
    "Big.Time.C141_default_timezone",
    "Big.Time.C141_round_trip",
    "Big.Time.C141_set_and_ensure"
   ],
   "note": "dateutil.parser.parse is a parameter: assumed is only that it reads RFC 3339 UTC times as they are written."
  },
  {
   "property": "C142",
   "status": "proved",
   "theorems": [
    "Big.Lines.C142_lines_splitlines",
    "Big.Lines.C142_lines_splitlines_bytes",
    "Big.Lines.C142_without_empty_lines"
   ],
   "note": "splitlines is a definition after Python's documentation."
  },
  {
   "property": "C143",
   "status": "proved",
   "theorems": [
    "Big.RePart.C143_partition",
    "Big.RePart.C143_reversed_finditer",
    "Big.RePart.C143_rpartition",
    "Big.RePart.C143_rpartition_differs"
   ],
   "note": "The pattern is given as the syntax tree; C140 proves that re reads the escaped text as that tree. C143_rpartition_differs is the counterexample for several separators."
  },
  {
   "property": "C144",
   "status": "proved",
   "theorems": [
    "Big.Sub.C144_multipartition",
    "Big.Sub.C144_multisplit",
    "Big.Sub.C144_multistrip",
    "Big.Sub.C144_multistrip_documentation",
    "Big.Sub.C144_normalize",
    "Big.Sub.C144_re_partition",
    "Big.Sub.C144_re_rpartition"
   ],
   "note": "C144_multistrip, C144_multisplit, C144_multipartition, C144_re_partition, C144_re_rpartition, C144_normalize; C144_multistrip_documentation is the disagreement with the documentation. That CPython's slices, joins, concatenations and re.split give str or bytes proper is assumed (they copy unless the class is exact), as that s.partition(w) gives s itself if w is not in s. gently_title, wrap_words, merge_columns and split_text_with_code return the result of a join in every case."
  },
  {
   "property": "C145",
   "status": "proved",
   "theorems": [
    "Big.Sub.C145_lines",
    "Big.Sub.C145_mixed",
    "Big.Sub.C145_pairs",
    "Big.Sub.C145_text"
   ],
   "note": "C145_text, C145_lines, C145_pairs, C145_mixed. The documentation promises that lines only yields str or bytes objects for line; so it is over a string (C145_text), but over pairs the line yielded may be an instance of a subclass (C145_pairs). Strings are all of one kind here (str and its subclasses, or bytes and its subclasses); mixtures of the kinds are C83 and C105."
  },
  {
   "property": "C146",
   "status": "proved",
   "theorems": [
    "Big.BoundInner.C146_alone",
    "Big.BoundInner.C146_alone_direct",
    "Big.BoundInner.C146_deaths",
    "Big.BoundInner.C146_equivalent",
    "Big.BoundInner.C146_race_breaks",
    "Big.BoundInner.C146_race_differs",
    "Big.BoundInner.C146_receives",
    "Big.BoundInner.C146_settles"
   ],
   "note": "C146_equivalent, C146_receives, C146_settles, C146_alone; C146_race_differs and C146_race_breaks are schedules where threads get different classes and where o.K raises TypeError afterwards (checked with CPython's C3 on classes built by hand). Assumed before the first access (Ready): nothing cached, decorated classes are attributes under their own names, and no other attribute looks like a bound class. A thread that goes through super() to a class of the same name that the accessed one overrides is not modelled; each of the steps (a lookup in a __dict__, making a class, storing it) is atomic, as under CPython's GIL."
  },
  {
   "property": "C147",
   "status": "proved",
   "theorems": [
    "Big.Wrap.C147_example",
    "Big.Wrap.C147_min_width_ignored",
    "Big.Wrap.C147_width"
   ],
   "note": "C147_width, C147_min_width_ignored; C147_example is a column 4 wide that should be 1 wide. Every cell of a column whose lines fit is max_width wide; the README's case distinction has an obvious slip ('less than or equal to min_width' for the second case), read as 'not less than'. Widths are integers (operator.index is the only use of min_width)."
  },
  {
   "property": "C148",
   "status": "proved",
   "theorems": [
    "Big.LinesKw.C148_detab",
    "Big.LinesKw.C148_harmless",
    "Big.LinesKw.C148_i_iterable",
    "Big.LinesKw.C148_i_other",
    "Big.LinesKw.C148_i_text",
    "Big.LinesKw.C148_is_pairs_iterable",
    "Big.LinesKw.C148_is_pairs_text",
    "Big.LinesKw.C148_iterable",
    "Big.LinesKw.C148_line_number",
    "Big.LinesKw.C148_parameters",
    "Big.LinesKw.C148_readable",
    "Big.LinesKw.C148_s_is_bytes",
    "Big.LinesKw.C148_separators",
    "Big.LinesKw.C148_text"
   ],
   "note": "C148_harmless, C148_iterable, C148_text, C148_readable, C148_parameters, C148_line_number, C148_detab; C148_i_iterable, C148_i_text, C148_i_other, C148_is_pairs_iterable, C148_is_pairs_text and C148_s_is_bytes say what the three other names do. Readable as an attribute: not the names __class__, __dict__ and __weakref__. An iterator given as a keyword argument is taken to be called by nobody else; attributes set after the construction are not modelled."
  },
  {
   "property": "C149",
   "status": "proved",
   "theorems": [
    "Big.MS.C149_multipartition",
    "Big.MS.C149_multisplit",
    "Big.MS.C149_multistrip",
    "Big.MS.C149_normalize_whitespace",
    "Big.MS.C149_one_byte_aligned",
    "Big.MS.C149_utf16_counterexample",
    "Big.MS.C149_utf8",
    "Big.MS.C149_utf8_aligned"
   ],
   "note": "C149_multisplit, C149_multistrip, C149_multipartition and C149_normalize_whitespace for encodings with the property (Aligned); C149_utf8_aligned and C149_one_byte_aligned show which have it, C149_utf8 is multisplit for UTF-8 with the tables of the module, C149_utf16_counterexample is the README's. A newline is one byte (it is not in UTF-16). UTF-8 is the encoder of Lean's library; that Python's agrees on characters other than surrogates, for which it raises, is trusted. That encode_strings encodes each separator is C61."
  },
  {
   "property": "C150",
   "status": "proved",
   "theorems": [
    "Big.SQ.C150_counterexample",
    "Big.SQ.C150_multiline",
    "Big.SQ.C150_no_exception",
    "Big.SQ.C150_utf8"
   ],
   "note": "C150_utf8, C150_multiline, C150_no_exception; C150_counterexample shows that the condition is needed. The exceptions compared are the types, not the messages. str.splitlines and bytes.splitlines are modelled after Python's documentation; UTF-8 as in C149."
  },
  {
   "property": "C151",
   "status": "proved",
   "theorems": [
    "Big.Words.C151_again",
    "Big.Words.C151_in_two_steps",
    "Big.Words.C151_separately"
   ],
   "note": "C151_again, C151_in_two_steps, C151_separately. That no character is both lower- and upper-case is a hypothesis, shown for ASCII."
  },
  {
   "property": "C152",
   "status": "proved",
   "theorems": [
    "Big.Words.C152_combine_splits",
    "Big.Words.C152_gently_counterexamples",
    "Big.Words.C152_gently_title",
    "Big.Words.C152_split_title_case",
    "Big.Words.C152_title_counterexample"
   ],
   "note": "C152_split_title_case, C152_gently_title, C152_combine_splits. C152_title_counterexample and C152_gently_counterexamples show that the conditions are needed: \u00e9\u00c9 is two words for str and one for bytes; after a no-break space or 1C str sees a word and bytes does not; a curly quote mark is one for str only. UTF-8 as in C149."
  },
  {
   "property": "C153",
   "status": "proved",
   "theorems": [
    "Big.IntWords.C153_flowery",
    "Big.IntWords.C153_negative",
    "Big.IntWords.C153_quantities",
    "Big.IntWords.C153_small"
   ],
   "note": "C153_quantities, C153_small and C153_negative determine every output; C153_flowery follows from them. The spaces before a quantity are those of the code (three before decillion, see C55_spelling)."
  },
  {
   "property": "C154",
   "status": "proved",
   "theorems": [
    "Big.Lines.C154_counterexamples",
    "Big.Lines.C154_lines",
    "Big.Lines.C154_separators"
   ],
   "note": "Chains are lists of pairs of a modifier and its encoded form (Encoded). C154_counterexamples: U+2028, the no-break space, tabs after a non-ASCII character, and the column after a stripped non-ASCII separator."
  },
  {
   "property": "C155",
   "status": "proved",
   "theorems": [
    "Big.SD.C155_counterexample",
    "Big.SD.C155_counterexample_not_ascii",
    "Big.SD.C155_utf8"
   ],
   "note": "C155_utf8 is about split_delimiters itself, not about the parser. C155_counterexample: U+2028; C155_counterexample_not_ascii: delimiters that are not ASCII."
  },
  {
   "property": "C156",
   "status": "proved",
   "theorems": [
    "Big.File.C156_counterexample_case",
    "Big.File.C156_counterexample_cr",
    "Big.File.C156_crlf",
    "Big.File.C156_fgrep",
    "Big.File.C156_fgrep_case_insensitive",
    "Big.File.C156_grep"
   ],
   "note": "C156_fgrep, C156_grep, C156_fgrep_case_insensitive, C156_crlf. str.lower is a parameter, of which only its effect on ASCII is assumed. C156_counterexample_case, C156_counterexample_cr."
  }
 ]
}