{
 "claims": [
  {
   "property": "C01",
   "status": "proved",
   "theorems": [
    "Verif.Graph.C01_edges_symmetric_closed"
   ],
   "note": "all histories, by induction over the operation list"
  },
  {
   "property": "C02",
   "status": "proved",
   "theorems": [
    "Verif.Graph.C02_rejected_call_changes_nothing"
   ],
   "note": "equality of the whole graph value, and the exception is always ValueError"
  },
  {
   "property": "C03",
   "status": "proved",
   "theorems": [
    "Verif.Graph.C03_acyclic"
   ],
   "note": ""
  },
  {
   "property": "C04",
   "status": "proved",
   "theorems": [
    "Verif.Graph.C04_cycle_check_exact"
   ],
   "note": "stronger than stated: holds on cyclic graphs too"
  },
  {
   "property": "C05",
   "status": "proved",
   "theorems": [
    "Verif.Graph.C05_nested_relationship"
   ],
   "note": "termination: the fuel error is excluded"
  },
  {
   "property": "C06",
   "status": "proved",
   "theorems": [
    "Verif.Graph.C06_direct_relationship"
   ],
   "note": ""
  },
  {
   "property": "C07",
   "status": "proved",
   "theorems": [
    "Verif.Graph.C07_addFile_effect",
    "Verif.Graph.C07_removeFile_effect",
    "Verif.Graph.C07_setChildren_effect"
   ],
   "note": ""
  },
  {
   "property": "C08",
   "status": "proved",
   "theorems": [
    "Verif.Graph.C08_store_load",
    "Verif.Graph.C08_store_load_history",
    "Verif.JsonText.C08_text",
    "Verif.JsonText.C08_text_case"
   ],
   "note": "C08_text is the statement with the text of the file between storing and loading: the JSON which store writes and the reader of Python's json are modelled. How Python writes and reads a float is a parameter; the hypothesis is that each mtime of the graph is written as the text of a number which reads as it."
  },
  {
   "property": "C09",
   "status": "proved",
   "theorems": [
    "Verif.Graph.C09_graphEq_exact",
    "Verif.Graph.C09_graphEq_equivalence"
   ],
   "note": "Python recursion limit not modelled"
  },
  {
   "property": "C10",
   "status": "proved",
   "theorems": [
    "Verif.Hot.C10_rebuild_set",
    "Verif.Hot.C10_touched_sources"
   ],
   "note": ""
  },
  {
   "property": "C11",
   "status": "proved",
   "theorems": [
    "Verif.Hot.C11_built_exactly_once"
   ],
   "note": ""
  },
  {
   "property": "C12",
   "status": "proved",
   "theorems": [
    "Verif.Hot.C12_dependencies_first"
   ],
   "note": ""
  },
  {
   "property": "C13",
   "status": "partial",
   "theorems": [
    "Verif.Hot.C13_no_shared_output_partial",
    "Verif.Hot.C13_fresh_output_shared",
    "Verif.Hot.C13_third_file_overlaps"
   ],
   "note": "holds for outputs recorded before; two files sharing a fresh output can run together"
  },
  {
   "property": "C14",
   "status": "proved",
   "theorems": [
    "Verif.Hot.C14_terminates",
    "Verif.Hot.C14_error_means_cycle",
    "Verif.Hot.C14_cycle_never_finishes",
    "Verif.Hot.C14_acyclic_builds_all"
   ],
   "note": ""
  },
  {
   "property": "C15",
   "status": "proved",
   "theorems": [
    "Verif.Hot.C15_stale_outputs_deleted"
   ],
   "note": ""
  },
  {
   "property": "C16",
   "status": "partial",
   "theorems": [
    "Verif.Hot.C16_outputs_exist_partial",
    "Verif.Hot.C16_shared_output_lost"
   ],
   "note": "false in general: an output shared with a file which is not rebuilt is deleted (C16_shared_output_lost); proved when each output of a kept file is not shared with a rebuilt or deleted one"
  },
  {
   "property": "C17",
   "status": "proved",
   "theorems": [
    "Verif.Hot.C17_finished_stores",
    "Verif.Hot.C17_valid",
    "Verif.Hot.C17_files",
    "Verif.Hot.C17_signatures",
    "Verif.Hot.C17_rebuilt_dependencies",
    "Verif.Hot.C17_kept_dependencies",
    "Verif.Hot.C17_outputs",
    "Verif.Hot.C17_accounted"
   ],
   "note": ""
  },
  {
   "property": "C20",
   "status": "proved",
   "theorems": [
    "Verif.Cold.C20_detect_exact",
    "Verif.Cold.C20_disjoint"
   ],
   "note": ""
  },
  {
   "property": "C57",
   "status": "partial",
   "theorems": [
    "Verif.Hot.C57_or_raises_partial",
    "Verif.Hot.C57_succeeds_partial",
    "Verif.Hot.C57_keeps_history_partial",
    "Verif.Hot.C57_history_partial",
    "Verif.Hot.C57_two_placeholders_fail",
    "Verif.Hot.HistoryCase.C57_recreated_placeholder_fails"
   ],
   "note": "proved for every rebuild whose recorded history is sound and whose scans and builds succeed and say what they do, with nothing needing itself and no file generating two placeholders (C57_succeeds_partial); what such a rebuild stores is again sound (C57_keeps_history_partial), so that every rebuild of a history from an empty project finishes (C57_history_partial); history_case is a concrete history with two builds. False without those conditions: two concrete rebuilds in which every scan and build succeeds and the rebuild ends in KeyError or ValueError. Missing: a characterisation of exactly which result sets make the bookkeeping raise."
  },
  {
   "property": "C18",
   "status": "partial",
   "theorems": [
    "Verif.Crash.C18_nothing_lost_partial",
    "Verif.Crash.C18_affected_again_partial",
    "Verif.Crash.C18_store_points",
    "Verif.Crash.C18_lost_between_stores",
    "Verif.Crash.effects_apply"
   ],
   "note": "every crash point before the graphs are written, and every failure; false between the three stores (witness), which are characterised completely"
  },
  {
   "property": "C19",
   "status": "partial",
   "theorems": [
    "Verif.Hot.C19_constants_fit_mode_partial",
    "Verif.Hot.C19_false_after_failure",
    "Verif.Hot.C19_missing_after_failure"
   ],
   "note": "proved for all histories of finished builds; false after a failed build (two witnesses)"
  },
  {
   "property": "C56",
   "status": "proved",
   "theorems": [
    "Verif.Hot.C56_folders"
   ],
   "note": ""
  },
  {
   "property": "C21",
   "status": "proved",
   "theorems": [
    "Verif.Ext.C21_target",
    "Verif.Ext.C21_outcome",
    "Verif.Ext.C21_mismatch",
    "Verif.Ext.C21_check"
   ],
   "note": "every interleaving, crash point and server answer; digest functions are parameters"
  },
  {
   "property": "C22",
   "status": "partial",
   "theorems": [
    "Verif.Ext.C22_converges_partial",
    "Verif.Ext.C22_stays_partial",
    "Verif.Ext.C22_succeeds",
    "Verif.Ext.C22_downloads_end",
    "Verif.Ext.C22_false_after_drop",
    "Verif.Ext.C22_false_empty",
    "Verif.Ext.C22_torn"
   ],
   "note": "false when a file is dropped while the others are up to date (the next check fails) and for the empty configuration (nothing is deleted); proved for all other histories"
  },
  {
   "property": "C23",
   "status": "partial",
   "theorems": [
    "Verif.Dev.C23_pending_partial",
    "Verif.Dev.C23_disjoint_partial",
    "Verif.Dev.C23_given_partial",
    "Verif.Dev.C23_nothing_lost",
    "Verif.Dev.C23_false_move_over",
    "Verif.Dev.C23_false_failure",
    "Verif.Dev.C23_false_vanished"
   ],
   "note": "false when a file is moved over another one and when events for created or deleted files come during a failing rebuild; exact in all other histories; files which are there are never lost in any history"
  },
  {
   "property": "C58",
   "status": "partial",
   "theorems": [
    "Verif.Dev.C58_retries_partial",
    "Verif.Dev.C58_false"
   ],
   "note": "false when the change comes during the failing rebuild"
  },
  {
   "property": "C24",
   "status": "partial",
   "theorems": [
    "Verif.Reader.C24_stream",
    "Verif.Reader.C24_none_partial",
    "Verif.Reader.C24_false_empty",
    "Verif.Reader.C24_false_peek_all"
   ],
   "note": "exact for every text and call sequence with natural sizes and read(); the first call at the end returns the empty string instead of None and peek(-1) does not return all (witnesses)"
  },
  {
   "property": "C25",
   "status": "partial",
   "theorems": [
    "Verif.Reader.C25_stream_partial",
    "Verif.Reader.C25_read_partial",
    "Verif.Reader.C25_peek_partial",
    "Verif.Reader.C25_readAll",
    "Verif.Reader.C25_false_read",
    "Verif.Reader.C25_false_peek"
   ],
   "note": "exact for texts without CR (text mode files), and read for every text except read(1) at CR LF; false there and for peek across CR LF (witnesses)"
  },
  {
   "property": "C26",
   "status": "partial",
   "theorems": [
    "Verif.Js.C26_rewrites_partial",
    "Verif.Js.C26_total",
    "Verif.Js.C26_false_string",
    "Verif.Js.C26_false_hex",
    "Verif.Js.C26_false_continuation",
    "Verif.Js.C26_false_template",
    "Verif.Js.C26_false_regex"
   ],
   "note": "every text; all changes are characterised piece by piece; the value of strings is proved kept for supported escapes and writable values; false for other characters, \\x escapes, line continuations, template literals and /\\\\/ (witnesses)"
  },
  {
   "property": "C27",
   "status": "proved",
   "theorems": [
    "Verif.Js.C27_comment_closed",
    "Verif.Js.C27_comment_round_trip"
   ],
   "note": ""
  },
  {
   "property": "C28",
   "status": "partial",
   "theorems": [
    "Verif.Js.C28_form",
    "Verif.Js.C28_js_round_trip_partial",
    "Verif.Js.C28_js_tokens_partial",
    "Verif.Js.C28_js_false",
    "Verif.Css.C28_css_partial",
    "Verif.Css.C28_css_round_trip_partial",
    "Verif.Css.C28_css_false",
    "Verif.Css.C28_css_false_hex"
   ],
   "note": "the JavaScript part exactly: round trip iff all characters are printable ASCII, have a short escape or are NUL; CSS: round trip for all strings without C-style escapes in which no character written as an escape is followed by a hexadecimal digit or space; false otherwise (witnesses)"
  },
  {
   "property": "C29",
   "status": "partial",
   "theorems": [
    "Verif.Js.C29_constants",
    "Verif.Js.C29_string_value_partial",
    "Verif.Js.C29_env",
    "Verif.Js.C29_false_string",
    "Verif.Js.C29_false_nul",
    "Verif.Js.C29_false_null"
   ],
   "note": "keys, precedence and layout for every configuration; string values exact for writable strings, false otherwise (witnesses); str of numbers is a parameter"
  },
  {
   "property": "C35",
   "status": "proved",
   "theorems": [
    "Verif.Js.C35_classification",
    "Verif.Js.C35_tables_not_unicode"
   ],
   "note": "the shipped tables are transcribed completely; they differ from Unicode's (witness)"
  },
  {
   "property": "C30",
   "status": "partial",
   "theorems": [
    "Verif.Css.C30_partial",
    "Verif.Css.C30_total_partial",
    "Verif.Css.C30_false_hash",
    "Verif.Css.C30_false_at",
    "Verif.Css.C30_false_number",
    "Verif.Css.C30_false_url",
    "Verif.Css.C30_false_digit"
   ],
   "note": "every text: either tokenised completely or one of five listed causes; the five causes are real (witnesses)"
  },
  {
   "property": "C31",
   "status": "partial",
   "theorems": [
    "Verif.Css.C31_rewrites_partial",
    "Verif.Css.C31_plain_partial",
    "Verif.Css.C31_false_sign",
    "Verif.Css.C31_false_name",
    "Verif.Css.C31_false_url",
    "Verif.Css.C31_false_comment",
    "Verif.Css.C31_false_string",
    "Verif.Css.C31_false_bad_string"
   ],
   "note": "every text: the output is characterised piece by piece; plain stylesheets are kept character by character; false for signs, escapes in names, brackets in urls, unfinished comments, control characters in strings (witnesses)"
  },
  {
   "property": "C32",
   "status": "proved",
   "theorems": [
    "Verif.Build.C32",
    "Verif.Build.C32_complete",
    "Verif.Build.C32_unique",
    "Verif.Build.C32_identity"
   ],
   "note": "generic in state, tokens and manipulators; Stream is the independent description of the output; fuel is excluded by C32_complete"
  },
  {
   "property": "C33",
   "status": "proved",
   "theorems": [
    "Verif.Js.C33",
    "Verif.Js.C33_total",
    "Verif.Js.Hashed.frame"
   ],
   "note": "statement grammar given independently of the automaton; urlencode and reading the hash file are parameters"
  },
  {
   "property": "C34",
   "status": "partial",
   "theorems": [
    "Verif.Js.C34_partial",
    "Verif.Js.C34_hints_partial",
    "Verif.Js.File.C34_imports_partial",
    "Verif.Js.File.HintToy.C70_hints_case",
    "Verif.Nest.C34_nest",
    "Verif.Js.C34_false",
    "Verif.Js.C34_false_tokens",
    "Verif.Icons.C34_false_icon",
    "Verif.Icons.C34_false_icon_case",
    "Verif.Css.Urls.C34_urls"
   ],
   "note": "JavaScript imports, CSS rule imports and URLs; false for icon commands, whose build does not report the source image the scan announces; agreement proved for streams without type hints, and for streams whose type hint lines have no imports in them and do not come inside an import statement; false for imports on lines a type hint comments out (witnesses)"
  },
  {
   "property": "C55",
   "status": "partial",
   "theorems": [
    "Verif.Js.C55_exact_partial",
    "Verif.Js.C55_partial",
    "Verif.Js.C55_blank_partial",
    "Verif.Js.C34_hints_partial",
    "Verif.Js.C55_false",
    "Verif.Js.Commented.no_hint"
   ],
   "note": "false: a type hint line right after an empty line is kept (witness); the exact behaviour, the claim without empty lines, and the claim where no type hint line comes directly after an empty line are proved, also together with the import manipulator"
  },
  {
   "property": "C59",
   "status": "proved",
   "theorems": [
    "Verif.Js.C59_relative",
    "Verif.Js.C59_absolute",
    "Verif.Js.C59_hash",
    "Verif.Paths.relpath_leads",
    "Verif.Js.C59_false_double_slash",
    "Verif.Js.C59_false_escape"
   ],
   "note": "os.path follows Lib/posixpath.py; the two witnesses show the conditions of the property are needed"
  },
  {
   "property": "C36",
   "status": "partial",
   "theorems": [
    "Verif.Handlers.C36_partial",
    "Verif.Handlers.C36_outside",
    "Verif.Handlers.C36_false_prefix",
    "Verif.Handlers.C36_false_hash"
   ],
   "note": "false for src/publicX and for public files ending in .hash (witnesses); proved otherwise, for files whose manipulators write nothing themselves"
  },
  {
   "property": "C37",
   "status": "proved",
   "theorems": [
    "Verif.Handlers.C37",
    "Verif.Handlers.C37_false"
   ],
   "note": "the witness shows that the condition on old outputs is needed"
  },
  {
   "property": "C38",
   "status": "proved",
   "theorems": [
    "Verif.Handlers.C38_dispatch",
    "Verif.Handlers.C38_outputs",
    "Verif.Handlers.C38_false_prefix",
    "Verif.Handlers.C38_crash"
   ],
   "note": "the last two record what happens outside src/public"
  },
  {
   "property": "C39",
   "status": "proved",
   "theorems": [
    "Verif.Img.C39",
    "Verif.Img.C39_no_upscale",
    "Verif.Img.C39_case",
    "Verif.Img.C39_upscale"
   ],
   "note": "every image, pre-crop and requested size in the property's range, with binary64 and 28-digit rounding; the witness shows the enlargement condition is needed"
  },
  {
   "property": "C40",
   "status": "partial",
   "theorems": [
    "Verif.Img.C40",
    "Verif.Img.C40_bounded",
    "Verif.Img.C40_first",
    "Verif.Img.C40_terminates",
    "Verif.Img.C40_false"
   ],
   "note": "false when a step is lost in the 28 digits of the decimal type: the loop then never ends (witness); otherwise proved"
  },
  {
   "property": "C41",
   "status": "partial",
   "theorems": [
    "Verif.Img.C41",
    "Verif.Img.applies_iff",
    "Verif.Img.C41_sizes",
    "Verif.Img.C41_case",
    "Verif.Img.C41_false_duplicate",
    "Verif.Img.C41_false_interrupted"
   ],
   "note": "proved for different sizes, file-name-safe format names and positive preferences; false when two resolutions truncate to one size, and for a symlink left by an interrupted run (witnesses)"
  },
  {
   "property": "C42",
   "status": "partial",
   "theorems": [
    "Verif.Img.C42_order",
    "Verif.Img.C42_range",
    "Verif.Img.C42_total",
    "Verif.Img.C42_change_partial",
    "Verif.Img.C42_case",
    "Verif.Img.C42_false"
   ],
   "note": "order independence, range and totality proved; detection of changes proved for every single changed value whose own hash changes; false in general, a 64-bit hash collides already for short strings (witness)"
  },
  {
   "property": "C43",
   "status": "proved",
   "theorems": [
    "Verif.Img.C43_unique",
    "Verif.Img.C43_increasing",
    "Verif.Img.C43_log",
    "Verif.Img.C43_after",
    "Verif.Img.C43_kept",
    "Verif.Img.C43_above",
    "Verif.Img.C43_case",
    "Verif.Img.C43_torn",
    "Verif.Img.C43_torn_case"
   ],
   "note": "every interleaving and kill point of any number of reservations under the file lock; in addition a kill between emptying and writing the counter makes all later reservations fail"
  },
  {
   "property": "C44",
   "status": "partial",
   "theorems": [
    "Verif.Img.C44_sound",
    "Verif.Img.C44_complete_partial",
    "Verif.Img.C44_outdated",
    "Verif.Img.C44_case",
    "Verif.Img.C44_false"
   ],
   "note": "only matching targets are returned, for every folder; 'otherwise reports no match' is false after the image changed: TypeError (witness and exact condition)"
  },
  {
   "property": "C45",
   "status": "partial",
   "theorems": [
    "Verif.Img.C45_exact",
    "Verif.Img.C45_partial",
    "Verif.Img.C45_comment",
    "Verif.Img.C45_malformed",
    "Verif.Img.C45_validated",
    "Verif.Img.C45_source",
    "Verif.Img.C45_source_case",
    "Verif.Img.C45_case",
    "Verif.Img.C45_false",
    "Verif.Img.C45_false_trailing"
   ],
   "note": "exactly which argument strings are accepted with which fields; false for 'lazy' behind the crop arguments, which loads eagerly (witness), and for crop arguments with a bracket inside"
  },
  {
   "property": "C51",
   "status": "proved",
   "theorems": [
    "Verif.Icons.C51_parse",
    "Verif.Icons.C51_format",
    "Verif.Icons.C51_short",
    "Verif.Icons.C51_case"
   ],
   "note": "int(s, 16) is a parameter fixed only on two hexadecimal digits"
  },
  {
   "property": "C49",
   "status": "partial",
   "theorems": [
    "Verif.Html.C49_C50_partial",
    "Verif.Html.C49_output",
    "Verif.Html.C49_query",
    "Verif.Html.C49_query_safe",
    "Verif.Html.page_scan",
    "Verif.Html.C49_C50_case",
    "Verif.Html.C49_C50_case_sound",
    "Verif.Html.C49_false_href",
    "Verif.Html.C49_false_namespace",
    "Verif.Html.C49_false_protocol"
   ],
   "note": "whole documents whose other manipulators decline; false for scripts with href, namespaced attributes and // urls (witnesses)"
  },
  {
   "property": "C50",
   "status": "partial",
   "theorems": [
    "Verif.Html.C49_C50_partial",
    "Verif.Html.C50_output",
    "Verif.Html.C49_C50_case",
    "Verif.Html.C49_C50_case_sound",
    "Verif.Html.C50_false"
   ],
   "note": "absolute and domain-relative urls; false for upper-case schemes and page-relative urls (witnesses)"
  },
  {
   "property": "C48",
   "status": "partial",
   "theorems": [
    "Verif.Html.C48_partial",
    "Verif.Html.C48_complete",
    "Verif.Html.C48_unique",
    "Verif.Html.C48_template",
    "Verif.Html.C48_page",
    "Verif.Html.C48_unbalanced",
    "Verif.Html.Toy.C48_unbalanced_case",
    "Verif.Html.C48_undefined",
    "Verif.Html.stack_reads",
    "Verif.Html.template_reads",
    "Verif.Html.C48_case",
    "Verif.Html.C48_false",
    "Verif.Html.C48_false_empty",
    "Verif.Html.C48_false_endless",
    "Verif.Html.C48_false_endless_case"
   ],
   "note": "all documents and templates in which every push has its pop; false otherwise, and a template including itself never ends (witnesses)"
  },
  {
   "property": "C60",
   "status": "partial",
   "theorems": [
    "Verif.Html.C60_partials",
    "Verif.Html.C60_false",
    "Verif.Html.C60_false_folder",
    "Verif.Html.C60_false_case"
   ],
   "note": "paths with a slash; false for every other path: it is appended to the path of the including file"
  },
  {
   "property": "C53",
   "status": "partial",
   "theorems": [
    "Verif.Runners.C53_frame",
    "Verif.Runners.C53_exact",
    "Verif.Runners.C53_succeeds",
    "Verif.Runners.C53_prompt",
    "Verif.Runners.C53_answer",
    "Verif.Runners.C53_answer_case",
    "Verif.Runners.C53_case",
    "Verif.Runners.C53_false"
   ],
   "note": "no symbolic links, no permission errors; false if a recorded placeholder is missing: nothing at all is cleaned (witness)"
  },
  {
   "property": "C54",
   "status": "proved",
   "theorems": [
    "Verif.Runners.C54_keeps",
    "Verif.Runners.C54_done",
    "Verif.Runners.C54_again",
    "Verif.Runners.C54_succeeds",
    "Verif.Runners.C54_interrupted",
    "Verif.Runners.C54_case",
    "Verif.Runners.C54_in_the_way"
   ],
   "note": "file system without symbolic links and permission errors; the written texts are parameters"
  },
  {
   "property": "C46",
   "status": "partial",
   "theorems": [
    "Verif.Nest.C46_partial",
    "Verif.Nest.C46_ends",
    "Verif.Nest.C46_reported",
    "Verif.Nest.C46_local",
    "Verif.Nest.importArgs_iff",
    "Verif.Nest.refOf_default",
    "Verif.Nest.refOf_from",
    "Verif.Nest.Expands.unique",
    "Verif.Nest.Result.unique",
    "Verif.Nest.C46_case",
    "Verif.Nest.C46_circular",
    "Verif.Nest.C46_false",
    "Verif.Nest.C46_false_across",
    "Verif.Nest.C46_false_statement",
    "Verif.Nest.C46_false_from",
    "Verif.Nest.C46_false_endless"
   ],
   "note": "stylesheets made of qualified rules with distinct selectors whose imports stay in files that can be read; false for a selector used twice, for imports across files in an unlucky order, behind a statement at-rule, for selectors containing 'from', and for circular imports across nested blocks (witnesses)"
  },
  {
   "property": "C47",
   "status": "partial",
   "theorems": [
    "Verif.Nest.C47_partial",
    "Verif.Nest.C47_succeeds",
    "Verif.Nest.C47_rejected",
    "Verif.Nest.C47_counters_partial",
    "Verif.Nest.C47_counters",
    "Verif.Nest.C47_case",
    "Verif.Nest.C47_revised",
    "Verif.Nest.C47_revised_case",
    "Verif.Nest.C47_false",
    "Verif.Nest.C47_false_again",
    "Verif.Nest.C47_false_resolvable"
   ],
   "note": "every sequence in which a rule is registered once and settled when listed as resolvable, or (C47_revised) also registered again while it waits, with missing references; the counters are proved only to be no lower than documented, and exact if no two rules refer to the same rule: otherwise they stay too high (witness); registering a waiting rule again without missing references, or a resolvable rule again, corrupts the tables (witnesses)"
  },
  {
   "property": "C52",
   "status": "partial",
   "theorems": [
    "Verif.Icons.C52_partial",
    "Verif.Icons.C52_succeeds",
    "Verif.Icons.C52_announced",
    "Verif.Icons.C52_syntax",
    "Verif.Icons.C52_written",
    "Verif.Icons.C52_reserved",
    "Verif.Icons.TextToy.C52_written_case",
    "Verif.Icons.iconArgs_iff",
    "Verif.Icons.C52_unknown",
    "Verif.Icons.C52_passed_over",
    "Verif.Icons.C52_never_out",
    "Verif.Icons.IconToy.C52_passed_over_case",
    "Verif.Icons.C52_case",
    "Verif.Icons.C52_case_built",
    "Verif.Icons.C52_false_button",
    "Verif.Icons.C52_false_named",
    "Verif.Icons.C52_false_hash",
    "Verif.Icons.C52_false_image"
   ],
   "note": "commands written as documented are understood; every document of well-formed commands whose named buttons have configured colors; false when a named button has an unknown color (the build fails), when an image is already there (its hash is announced but not reported), and for buttons in a color that was not asked for (their image is never made)"
  },
  {
   "property": "C61",
   "status": "partial",
   "theorems": [
    "Verif.Css.Urls.C61_partial",
    "Verif.Css.Urls.C61_succeeds",
    "Verif.Css.Urls.C61_scan",
    "Verif.Css.Urls.C61_no_bare_url",
    "Verif.Css.Urls.C34_urls",
    "Verif.Css.Urls.UrlToy.C61_case",
    "Verif.Css.Urls.UrlToy.C61_false_external",
    "Verif.Css.Urls.UrlToy.C61_false_fragment"
   ],
   "note": "every token sequence whose URLs do not begin with two slashes; false for URLs of other hosts without a protocol and for URLs with a fragment (witnesses: the build fails)"
  },
  {
   "property": "C62",
   "status": "partial",
   "theorems": [
    "Verif.Css.Data.C62_partial",
    "Verif.Css.Data.C62_scan",
    "Verif.Css.Data.C62_distinct",
    "Verif.Css.Data.C62_address",
    "Verif.Css.Data.dataOf_spec",
    "Verif.Css.Data.DataToy.C62_case",
    "Verif.Css.Data.DataToy.C62_false_base64",
    "Verif.Css.Data.DataToy.C62_false_charset",
    "Verif.Css.Data.DataToy.C62_false_stale",
    "Verif.Css.Data.DataToy.C62_false_folder",
    "Verif.Css.Data.DataToy.C62_false_type",
    "Verif.Css.Data.DataToy.C62_false_unquoted"
   ],
   "note": "every token sequence, for strings directly behind url(, run in the project folder without leftovers; false for parameters such as base64 (they become part of the file), for equal data of different types, for leftovers of earlier builds, outside the project folder, and for URLs without quotes (witnesses)"
  },
  {
   "property": "C63",
   "status": "partial",
   "theorems": [
    "Verif.Icons.Load.C63_partial",
    "Verif.Icons.Load.C63_reads",
    "Verif.Icons.Load.C63_whole",
    "Verif.Icons.Load.C63_valid",
    "Verif.Icons.Load.C63_names",
    "Verif.Icons.Load.C63_complete",
    "Verif.Icons.Load.C63_case",
    "Verif.Icons.Load.C63_false_default",
    "Verif.Icons.Load.C63_false_multi",
    "Verif.Icons.Load.C63_false_last",
    "Verif.Icons.Load.C63_false_names"
   ],
   "note": "every token sequence and configuration, up to the first declaration whose value is neither one token nor one function, or which has no semicolon; false behind such a declaration, for named buttons when the default button is switched off (it raises), and for three named colors (gray, sandybrown, navyblue) and eight missing ones"
  },
  {
   "property": "C64",
   "status": "partial",
   "theorems": [
    "Verif.Css.Page.C64_partial",
    "Verif.Css.Page.PageToy.C64_case",
    "Verif.Css.Page.PageToy.C64_false_image",
    "Verif.Html.Page.C64_page",
    "Verif.Html.Page.PageToy.C66_case"
   ],
   "note": "stylesheets: all four manipulators together, every source; pages: all five manipulators together, every page, whatever the handlers do; image data behind whitespace stays in the stylesheet"
  },
  {
   "property": "C65",
   "status": "proved",
   "theorems": [
    "Verif.Css.Page.C65",
    "Verif.Css.Page.PageToy.C64_case"
   ],
   "note": ""
  },
  {
   "property": "C66",
   "status": "proved",
   "theorems": [
    "Verif.Html.Page.C66_page",
    "Verif.Html.Page.PageToy.C66_case",
    "Verif.Html.Page.C66_complete",
    "Verif.Html.Page.C66_unique",
    "Verif.Html.Page.PageToy.C66_case_fits",
    "Verif.Html.Page.PageToy.C66_false_cut",
    "Verif.Html.Page.generated_inj"
   ],
   "note": "the specification is Verif.Html.Page.Render; pages which end inside an inline element are excluded, with a witness of what happens to them; html5lib, the export of images and the handlers for scripts and stylesheets are parameters"
  },
  {
   "property": "C67",
   "status": "partial",
   "theorems": [
    "Verif.Html.Page.C67_partial",
    "Verif.Html.Page.PageToy.C67_case",
    "Verif.Html.Page.C66_once",
    "Verif.Html.Page.PageToy.C66_false_twice",
    "Verif.Html.Page.PageToy.C66_false_media",
    "Verif.Html.Page.PageToy.C66_false_user"
   ],
   "note": "proved: everything Render describes is built; false: the second inline script or stylesheet of a page fails unless its folder holds something else, a stylesheet with an attribute fails, and a file of the user at the generated path is lost"
  },
  {
   "property": "C68",
   "status": "proved",
   "theorems": [
    "Verif.Html.Page.C68_covers",
    "Verif.Html.Page.C68_exact",
    "Verif.Html.Page.PageToy.C68_case",
    "Verif.Html.Page.PageToy.agree"
   ],
   "note": "html5lib and the parts (images, scripts, stylesheets) are parameters; that the property holds of the parts is the hypothesis Agree"
  },
  {
   "property": "C69",
   "status": "proved",
   "theorems": [
    "Verif.Html.Page.C69_build",
    "Verif.Html.Page.C69_scan",
    "Verif.Html.Page.C69_sources",
    "Verif.Html.Page.C69_clean",
    "Verif.Html.Page.PageToy.parts",
    "Verif.Html.Page.PageToy.C66_false_cut",
    "Verif.Html.Page.PageToy.C66_false_user"
   ],
   "note": "that the parts report what they write is the hypothesis Parts, which C65 and C70_part prove of stylesheets and scripts; a source file which is at the path of a temporary file is lost (C66_false_user)"
  },
  {
   "property": "C70",
   "status": "proved",
   "theorems": [
    "Verif.Js.File.C70_build",
    "Verif.Js.File.C70_hints_partial",
    "Verif.Js.File.HintToy.C70_hints_case",
    "Verif.Js.File.C70_files",
    "Verif.Js.File.build_unique",
    "Verif.Js.File.C70_part",
    "Verif.Js.File.C70_case",
    "Verif.Js.File.C70_case_missing",
    "Verif.Js.File.C70_false"
   ],
   "note": "with type hints scan and build can differ in both directions (C34_false, C70_false)"
  },
  {
   "property": "C71",
   "status": "proved",
   "theorems": [
    "Verif.Img.Files.C71",
    "Verif.Img.Files.C71_scan",
    "Verif.Img.Files.C71_found",
    "Verif.Img.Files.C71_history",
    "Verif.Img.Files.Start.good",
    "Verif.Img.Files.Steps.keeps",
    "Verif.Img.Files.Case.C71_case"
   ],
   "note": "between scan and build anything may happen to files which are not images; histories of one program at a time (reservations which interleave are C43); json, listing a folder, int() and the codecs are parameters with the laws of Lawful, which Case.toy_lawful shows to be satisfiable; paths with . or .. components are excluded by Proper; the settings are the same throughout the history"
  },
  {
   "property": "C72",
   "status": "proved",
   "theorems": [
    "Verif.Img.Files.C72",
    "Verif.Img.Files.C72_scan",
    "Verif.Img.Files.Case.C71_case"
   ],
   "note": "the state must have the lock of an image which has outputs (AllLocked), which holds from the start and is kept"
  },
  {
   "property": "C73",
   "status": "proved",
   "theorems": [
    "Verif.Img.Files.C73",
    "Verif.Img.Files.reuse_nothing",
    "Verif.Img.Files.Case.C71_case",
    "Verif.Img.Files.Case.again_run"
   ],
   "note": ""
  },
  {
   "property": "C74",
   "status": "proved",
   "theorems": [
    "Verif.Img.Files.C74",
    "Verif.Img.Files.Case.C71_case",
    "Verif.Img.Files.Case.select_run"
   ],
   "note": "the drawing itself is C75; sizes which coincide are excluded (C41_false_duplicate)"
  },
  {
   "property": "C75",
   "status": "proved",
   "theorems": [
    "Verif.Img.Draw.C75",
    "Verif.Img.Draw.C75_total",
    "Verif.Img.Draw.toy_lawful",
    "Verif.Img.Draw.C75_case"
   ],
   "note": "Pillow is a parameter: sizes of its results, pixels of a region; what scaling does to pixels is not specified"
  },
  {
   "property": "C76",
   "status": "partial",
   "theorems": [
    "Verif.Html.Page.C76_partial",
    "Verif.Html.Page.readSrcset_eq",
    "Verif.Html.Page.exported_readable",
    "Verif.Html.Page.C76_case",
    "Verif.Html.Page.C76_false_type",
    "Verif.Html.Page.C76_false_space"
   ],
   "note": "proved for paths without whitespace; false for browsers which do not know a format (sources have no type) and for paths with spaces"
  },
  {
   "property": "C77",
   "status": "proved",
   "theorems": [
    "Verif.Css.Page.C77",
    "Verif.Css.Page.scan_stream",
    "Verif.Css.Page.data_scan",
    "Verif.Css.Page.needs_outlined",
    "Verif.Css.Page.ScanToy.runs",
    "Verif.Css.Page.ScanToy.C77_case"
   ],
   "note": ""
  },
  {
   "property": "C78",
   "status": "partial",
   "theorems": [
    "Verif.Css.Page.C78_partial",
    "Verif.Css.Page.build_reports",
    "Verif.Css.Page.stream_reports",
    "Verif.Css.Page.tidy_meets",
    "Verif.Css.Page.suffices_doc",
    "Verif.Css.Page.AgreeToy.runs",
    "Verif.Css.Page.AgreeToy.C78_case",
    "Verif.Css.Page.AgreeToy.C78_false_import"
   ],
   "note": "Proved for stylesheets which import rules only from other, built stylesheets, whose buttons have the colors of their icons, and which have no commands inside of url(...). False of a stylesheet which imports its own rules: images are numbered by the scan as they are written and by the build as they come with the imported rules (C78_false_import)."
  },
  {
   "property": "C79",
   "status": "partial",
   "theorems": [
    "Verif.Hot.C79_incremental_as_clean_partial",
    "Verif.Hot.History.upToDate",
    "Verif.Hot.step",
    "Verif.Hot.UpToDate.unique",
    "Verif.Hot.Exec.ofLog",
    "Verif.Hot.Triple.C79_case",
    "Verif.Hot.Triple.C79_false_after_failure",
    "Verif.Hot.Icon.C79_false_icon"
   ],
   "note": "Proved for projects in which no two sources share an output (false otherwise: C16_shared_output_lost) and histories in which every rebuild finishes (false otherwise: C79_false_after_failure). It is false of stylesheets with icons, whose build reads the source of the icon and does not list it: C79_false_icon. The builder is a parameter, with the laws in `Pure`: it writes what belongs to its source, fails if something it reads is missing, and depends on what it lists only. C80 shows the laws for scripts, plain stylesheets, copied files and constants."
  },
  {
   "property": "C80",
   "status": "partial",
   "theorems": [
    "Verif.Hot.Scripts.C80_scripts_partial",
    "Verif.Hot.Scripts.C80_current_partial",
    "Verif.Hot.Scripts.C80_specifier_partial",
    "Verif.Hot.Scripts.tool_lawful",
    "Verif.Hot.Scripts.Site.C80_case",
    "Verif.Hot.Worked.history"
   ],
   "note": "Proved for projects of scripts, stylesheets without icons and images, pages without images and inline elements, templates, copied files and constants, with the handlers of C65, C66, C70 and C72 as builders. Pages and stylesheets with images are missing: images are numbered by what is in the artifacts folder, so their outputs depend on the history. Scripts with type hints are compared between histories, but what they contain is described only where no type hint line comes inside an import statement or directly after an empty line."
  },
  {
   "property": "C81",
   "status": "partial",
   "theorems": [
    "Verif.HtmlTok.C81_kept",
    "Verif.HtmlTok.C81_found_partial",
    "Verif.HtmlTok.C81_same",
    "Verif.HtmlTok.C81_case",
    "Verif.HtmlTok.C81_false_missed"
   ],
   "note": "Every token sequence html5lib may give. A comment with another < right before it is not found (C81_false_missed)."
  },
  {
   "property": "C82",
   "status": "partial",
   "theorems": [
    "Verif.Js.C82_replaced",
    "Verif.Js.C82_kept_partial",
    "Verif.Js.C82_never_ends",
    "Verif.Js.C82_case",
    "Verif.Js.C82_kept_case",
    "Verif.Js.C82_false_example"
   ],
   "note": "Every manipulator and token sequence. What a manipulator gives is offered to it again, so one which gives up and remembers nothing is asked about the same tokens for ever; this is so for the example in the documentation of the class (C82_false_example)."
  },
  {
   "property": "C83",
   "status": "partial",
   "theorems": [
    "Verif.Hot.C83_reconfigured_partial",
    "Verif.Hot.Scripts.C83_constants_partial",
    "Verif.Hot.unnoticed",
    "Verif.Hot.Scripts.Site.C83_case",
    "Verif.Hot.Scripts.Site.C83_false_unnoticed"
   ],
   "note": "False in general: the configuration is no source, so changing it builds nothing (unnoticed, C83_false_unnoticed). Proved: if every source which the new configuration builds in another way is built in the next rebuild, everything is as the new configuration says; for the constants this is so if their file was touched or the mode is another. The concrete part is about the constants only; settings for images and icons are covered by the general theorem, which takes handlers as parameters."
  },
  {
   "property": "C84",
   "status": "partial",
   "theorems": [
    "Verif.Hot.Scripts.C84_rules_partial",
    "Verif.Hot.Scripts.C84_simple_partial",
    "Verif.Hot.Scripts.C84_url_partial",
    "Verif.Hot.Scripts.Sheets.C84_case",
    "Verif.Css.Page.build_plain",
    "Verif.Css.Page.build_reads"
   ],
   "note": "Proved for projects of scripts, stylesheets, copied files and constants, as for C80. Stylesheets with icons or data images are missing, as are imports of rules from files which are not of the form of `Nest.Sheet` (flat rules, at-rules with blocks, comments). A rule is imported from the output of the other stylesheet, so imports and URLs in it are resolved before."
  },
  {
   "property": "C85",
   "status": "partial",
   "theorems": [
    "Verif.Hot.Scripts.C85_page_partial",
    "Verif.Hot.Scripts.C85_handler_partial",
    "Verif.Hot.Scripts.Book.C85_case",
    "Verif.Hot.Scripts.Book.C85_false_image",
    "Verif.Html.Page.build_reads",
    "Verif.Html.Page.build_plain"
   ],
   "note": "Proved for pages without images and inline elements which link to files below src/public only. False for pages with image commands: if the image is not there the command is kept and the image is no child, so the page is not built again when it is added (C85_false_image). Parsing and serialising HTML and JSON are parameters; the templates have to be balanced and sane as for C66."
  },
  {
   "property": "C86",
   "status": "partial",
   "theorems": [
    "Verif.Img.Glue.C86_accepts",
    "Verif.Img.Glue.C86_sizes",
    "Verif.Img.Glue.C86_rejected",
    "Verif.Img.Glue.C86_partial",
    "Verif.Img.Glue.C86_case",
    "Verif.Img.Glue.C86_arguments_false",
    "Verif.Img.Glue.C86_arguments_case",
    "Verif.Img.Glue.C86_settings_false",
    "Verif.Img.Glue.C86_type_false",
    "Verif.Img.Glue.C86_nan_false",
    "Verif.Img.Glue.C86_dots_false"
   ],
   "note": "Proved for files whose images have proper paths (Paths). False: crop_settings are checked but not used (C86_settings_false), crop_arguments are used but not checked, so an accepted file can make the scan fail (C86_arguments_false), a crop which is not a number raises (C86_type_false), NaN is accepted (C86_nan_false), and a path with .. has artifacts outside of artifacts/ (C86_dots_false). json is a parameter; drawing is C75."
  },
  {
   "property": "C88",
   "status": "partial",
   "theorems": [
    "Verif.Hot.Session.worked",
    "Verif.Hot.C88_current",
    "Verif.Hot.C88_same",
    "Verif.Hot.C88_dev",
    "Verif.Hot.Scripts.C88_files_partial",
    "Verif.Hot.Scripts.Site.C88_case",
    "Verif.Hot.Scripts.Site.C88_false_signature"
   ],
   "note": "Sessions of builds and watch rebuilds are histories of C79, so C80, C84 and C85 apply to them; edits are found by the code (detect, the event handler) instead of being given. Signatures have to determine the contents, which is derived from the times of writes in C91; without this it is false (C88_false_signature). Edits during builds and failed builds are C89 and C90. Left out: moves onto an existing file. External files are not part of a session."
  },
  {
   "property": "C89",
   "status": "partial",
   "theorems": [
    "Verif.Hot.C89_current",
    "Verif.Hot.C89_others",
    "Verif.Hot.C89_same",
    "Verif.Hot.Session.course",
    "Verif.Hot.Course.known",
    "Verif.Hot.Scripts.C89_files_partial",
    "Verif.Hot.Scripts.Site.C89_case",
    "Verif.Hot.Scripts.Site.C89_false_undone"
   ],
   "note": "Builds may see anything of the files which are edited while they run. As in C88 signatures have to determine the contents, and an edit during a build has to leave another signature than the one which that build records (BusyRuns.seen), else it is false: an edit which is undone by moving the old file back (C89_false_undone); the signature is taken while files are scanned. The watch rebuild has to be told of the edits (Course.watch): edits between the first build and the start of the watcher are in nobody's events."
  },
  {
   "property": "C90",
   "status": "partial",
   "theorems": [
    "Verif.Hot.C90_recovers_partial",
    "Verif.Hot.Scripts.Site.C90_case",
    "Verif.Hot.Scripts.Site.C90_false_restored",
    "Verif.Hot.Scripts.Site.C90_false_reuse"
   ],
   "note": "Proved if the next build finds everything new which the broken ones were given as new, and if these have left no outputs which were not recorded before. Without the first it is false: a file which was missing in the failed build and is back with its old signature is not noticed, and its outputs stay missing (C90_false_restored). Without the second it is false: the hash which an unfinished first build has left is reused after an edit (C90_false_reuse; the same holds for copied files). The crash between the three writes of the graphs is C17."
  },
  {
   "property": "C91",
   "status": "proved",
   "theorems": [
    "Verif.Hot.C91_current",
    "Verif.Hot.C91_same",
    "Verif.Hot.Life.session",
    "Verif.Hot.Scripts.Site.C91_case",
    "Verif.Hot.Scripts.Site.C91_false_raced",
    "Verif.Links.C91_plain",
    "Verif.Links.C91_false_links",
    "Verif.Links.LinkToy.C91_false_link_case"
   ],
   "note": "This discharges the assumption of C88 on signatures. C91_false_raced: without the condition on times it is false, a second write of the same length within the resolution of the clock is not noticed. The sources are files: of symbolic links among them only the link is looked at (lstat), and edits of what it leads to are never noticed (C91_false_links). Hard links are not covered."
  },
  {
   "property": "C92",
   "status": "proved",
   "theorems": [
    "Verif.Links.C92_live",
    "Verif.Links.C92_same",
    "Verif.Links.Case.C92_case"
   ],
   "note": "Histories with pictures are for projects given by an absolute path (C93); links among the sources, and folders which are links, are left out. This is about reading the files, as other servers do; the server of run and dev does not follow links (C106)."
  },
  {
   "property": "C93",
   "status": "partial",
   "theorems": [
    "Verif.Links.C93_partial",
    "Verif.Links.C93_false_relative",
    "Verif.Links.C93_false_again",
    "Verif.Links.Case.C93_case",
    "Verif.Links.Case.C93_false_default"
   ],
   "note": "Proved if the project is given by an absolute path. False otherwise, in particular for the default folder, on systems with links: the target of the link is relative to the working folder, but a link is read relative to its own folder, so it leads nowhere, and the next page with the same picture raises FileExistsError."
  },
  {
   "property": "C94",
   "status": "partial",
   "theorems": [
    "Verif.Links.C94_partial",
    "Verif.Links.C94_false_readonly",
    "Verif.Links.C94_false_user",
    "Verif.Links.C94_case"
   ],
   "note": "Proved for working folders which can be written and have none of the two names. False otherwise: in a folder which cannot be written the test raises instead of answering, so that nothing is built, and files of the user with these names are lost. After an interruption the next answer may be no although links are supported."
  },
  {
   "property": "C95",
   "status": "partial",
   "theorems": [
    "Verif.Img.Files.C95_partial",
    "Verif.Img.Files.C95_order_partial",
    "Verif.Img.Files.Case.C95_case",
    "Verif.Img.Files.Case.C95_false_order"
   ],
   "note": "Proved if every image is used for one target (size and crop) only; in general the artifacts are the same if and only if the targets of each image were first scanned in the same order. False otherwise: one picture in two sizes gets other numbers when its scans run in another order. Drawing an image is taken to be deterministic; images which differ only in their extensions are left out."
  },
  {
   "property": "C96",
   "status": "partial",
   "theorems": [
    "Verif.Hot.Scripts.C96_partial",
    "Verif.Hot.Scripts.C96_page_partial",
    "Verif.Hot.Scripts.tells",
    "Verif.Hot.Scripts.Sheets.C96_case",
    "Verif.Hot.Scripts.Sheets.C96_false_earlier"
   ],
   "note": "Proved if references are followed while the version which they are from is deployed, for projects without images, icons and inline elements, and for names without question marks, for every browser which keeps any of the URLs with the parameter v for any time. False otherwise: a page which was loaded before a deployment and asks afterwards makes the browser keep the new contents under the old URL, and it has these when the old version is deployed again. Deployments are taken to be instantaneous."
  },
  {
   "property": "C97",
   "status": "partial",
   "theorems": [
    "Verif.Folders.C97_made_partial",
    "Verif.Folders.C97_sound",
    "Verif.Folders.C97_cleaning",
    "Verif.Folders.Toy.C97_case",
    "Verif.Folders.Toy.C97_case_others",
    "Verif.Folders.Toy.C97_false_refused",
    "Verif.Folders.Toy.C97_false_outline"
   ],
   "note": "Proved if nobody removes the folders meanwhile, for any number of processes, any order of their calls, and any calls the system refuses. False with removals, which happen: a page with an inline script removes the folder gen below src/public/js when it is empty, and a page which is built at the same time and has seen that folder ends with FileNotFoundError (C97_false_outline). One refused call can be enough to end with FileExistsError (C97_false_refused). Whatever others do, a process returns only if the folder is there (C97_sound), and the removal of empty folders raises only if a folder has become a file (C97_cleaning). The calls of the operating system are single steps; links and renames are left out."
  },
  {
   "property": "C98",
   "status": "proved",
   "theorems": [
    "Verif.Dev.C98_quiet",
    "Verif.Dev.C98_starts",
    "Verif.Dev.C98_only_delays",
    "Verif.Dev.forget_events",
    "Verif.Dev.TimeToy.C98_case",
    "Verif.Dev.TimeToy.C98_false_bounded",
    "Verif.Dev.TimeToy.C98_false_clock"
   ],
   "note": "C98_only_delays carries over to histories with times what C23 and C58 say of histories without. There is no bound on the delay while events keep coming (C98_false_bounded), nor when the clock is set back (C98_false_clock). Times are integers."
  },
  {
   "property": "C99",
   "status": "partial",
   "theorems": [
    "Verif.Js.Make.C99_tables_partial",
    "Verif.Js.Make.C99_classified_partial",
    "Verif.Js.Make.C99_exact",
    "Verif.Js.Make.Defines.unique",
    "Verif.Js.Make.TableToy.C99_case",
    "Verif.Js.Make.C99_false_digits",
    "Verif.Js.Make.TableToy.C99_false_case"
   ],
   "note": "Proved for lists whose single code points have four hexadecimal digits. False otherwise, and so of Unicode's lists: \\u takes four digits, so that of U+10341 the table gets U+1034 and the digit 1 (C99_false_digits, C99_false_case; the shipped tables have all ten digits as identifier starts, C35_tables_not_unicode). C99_exact says what the tables are for all lists."
  },
  {
   "property": "C100",
   "status": "partial",
   "theorems": [
    "Verif.Server.C100_clean",
    "Verif.Server.C100_stops",
    "Verif.Server.C100_serves",
    "Verif.Server.C100_stays",
    "Verif.Server.C100_case",
    "Verif.Server.C100_case_early",
    "Verif.Server.C100_false_taken",
    "Verif.Server.C100_false_taken_case",
    "Verif.Server.C100_false_dies",
    "Verif.Server.C100_watch_case"
   ],
   "note": "Proved for all fair schedules if the address is free. False if it is taken: once the handler of the signal is installed no schedule ends the command, however often Ctrl-C is pressed (C100_false_taken); and a server which ends by itself is not noticed (C100_false_dies). C100_clean has one exception, a watch mode whose observer has died: there the command returns without waiting for the server (C100_watch_case). uvicorn is taken as uvStep describes it; rebuilds in the loop are left out."
  },
  {
   "property": "C101",
   "status": "partial",
   "theorems": [
    "Verif.Cli.C101_partial",
    "Verif.Cli.C101_order",
    "Verif.Cli.Toy.C101_case",
    "Verif.Cli.Toy.C101_false_both",
    "Verif.Cli.Toy.C101_before",
    "Verif.Cli.Toy.C101_ports"
   ],
   "note": "Exactly which command lines are carried out, with which settings, for all lists of arguments. False of opposite options: --symlinks counts against --no-symlinks, and --placeholders against --no-placeholders, whichever comes last (C101_false_both). The rules of argparse (Python 3.11) are modelled and are part of the trusted base, as is what int() accepts; help and errors are not told apart, both end the program."
  },
  {
   "property": "C102",
   "status": "partial",
   "theorems": [
    "Verif.Img.Files.C102_partial",
    "Verif.Img.Files.C102_unmixed",
    "Verif.Img.Files.C102_false_stuck",
    "Verif.Img.Files.C102_false_forever",
    "Verif.Img.Files.Case.C102_case"
   ],
   "note": "Proved: whatever the history, an export which succeeds shows the image as it is now, completely, and pictures are never mixed up. False: once an image has been exported and is replaced, no scan or export of it succeeds any more, until artifacts/ is removed (C102_false_stuck, C102_false_forever; the error is that of C44). Assumed: images of the history with the same hash are the same; when a page is scanned or exported the hashes of all images are those of the images as they are (their own build comes first, or out/ was removed); nobody else edits finished entries in artifacts/ or writes pictures of them in out/www; sizes which coincide are excluded (C41_false_duplicate)."
  },
  {
   "property": "C103",
   "status": "partial",
   "theorems": [
    "Verif.Html.Policy.C103_partial",
    "Verif.Html.Policy.Case.C103_case",
    "Verif.Html.Policy.Case.C103_false_attributes",
    "Verif.Html.Policy.Case.C103_false_data"
   ],
   "note": "Proved: if page and templates have, apart from inline scripts and stylesheets, nothing which the policy forbids, a browser refuses nothing of the built page; for documents as in C66 (balanced, sane, not ending inside of an inline element) and exported images whose paths have no spaces and commas. False of code and styles in attributes, which are kept (C103_false_attributes). Data blocks and import maps, which the policy allows, are moved to files and lost (C103_false_data). Whether html5lib's text of the tokens is read back as these tokens is a parameter; the contents of the files which are loaded are not looked at (C62 and C64 for stylesheets)."
  },
  {
   "property": "C104",
   "status": "partial",
   "theorems": [
    "Verif.Html.Moved.C104_partial",
    "Verif.Html.Moved.C104_false_relative",
    "Verif.Html.Moved.C104_case"
   ],
   "note": "Proved for paths from the root. False of all others, for every page, path and element: a path which leads from the page to a file leads from the generated file to another one, always three folders deeper (C104_false_relative); the build looks for the hash of that file and fails (C104_case)."
  },
  {
   "property": "C105",
   "status": "partial",
   "theorems": [
    "Verif.Dev.Own.C105_partial",
    "Verif.Dev.Own.C105_case",
    "Verif.Dev.Own.C105_false_failing",
    "Verif.Dev.Own.C105_false_ended"
   ],
   "note": "Proved for all sessions in which the reports about the builder's own files have come when a rebuild fails. False otherwise: rebuilds which fail are started again and again after a single edit (C105_false_failing). A look between the reports that an own file was created and deleted ends the command (C105_false_ended). Files which users replace by moving others over them count as edits; the report about a placeholder which a rebuild creates in the source folder and keeps counts as an edit, too: it is followed by one more rebuild."
  },
  {
   "property": "C106",
   "status": "partial",
   "theorems": [
    "Verif.Static.C106_gives",
    "Verif.Static.C106_index",
    "Verif.Static.C106_missing",
    "Verif.Static.C106_confined_partial",
    "Verif.Static.C106_copied",
    "Verif.Static.C106_false_links",
    "Verif.Static.C106_false_copied",
    "Verif.Static.C106_false_picture",
    "Verif.Static.Case.C106_case",
    "Verif.Static.Case.C106_links_case",
    "Verif.Static.Case.C106_confined_case",
    "Verif.Static.Case.C106_false_beside"
   ],
   "note": "Proved: files which are no links are given, at any depth and with any name, folders give their index page, and nothing is given from outside, unless a folder beside out/www has a name which begins with www (C106_false_beside). False of links, for every project: files which a build puts below out/www as links, which it does by default where the system has them, are answered with 404 by run and dev (C106_false_copied, C106_false_picture); with --no-symlinks they are given (C106_copied). starlette is modelled as of 0.20.4, the version in requirements.txt, and is part of the trusted base; later versions have the same default for links. Conditional and range requests are left out."
  },
  {
   "property": "C107",
   "status": "proved",
   "theorems": [
    "Verif.Media.C107_types",
    "Verif.Media.C107_index",
    "Verif.Media.Case.C107_case",
    "Verif.Media.Case.C107_needed",
    "Verif.Media.Case.C107_false_compressed"
   ],
   "note": "For all tables of the machine which do not take one of the nine extensions for a compression or an abbreviation. mimetypes.guess_type and starlette's FileResponse are modelled after their sources (trusted base). C107_needed: a machine on which scripts would be plain text without the entries of the module. C107_false_compressed: what is not claimed, and false: a compressed drawing (.svgz) is given as image/svg+xml without naming the compression."
  },
  {
   "property": "C108",
   "status": "partial",
   "theorems": [
    "Verif.ServeWatch.C108_serves_partial",
    "Verif.ServeWatch.Case.C108_case",
    "Verif.ServeWatch.Case.C108_false_emptied"
   ],
   "note": "Proved as long as each rebuild leaves something in out/www. C108_false_emptied: a rebuild which leaves nothing there removes the folder the server stands in; from then on every request is answered with 500, although the next rebuild makes out/www again."
  },
  {
   "property": "C109",
   "status": "partial",
   "theorems": [
    "Verif.Reload.C109_reload_partial",
    "Verif.Reload.Case.C109_case",
    "Verif.Reload.Case.C109_false_hurried"
   ],
   "note": "Proved if nothing is looked at in the second in which it was written. C109_false_hurried: written, loaded, written again and loaded again within one second: the server answers 304 although the tags differ, because the times in the headers have seconds only, and the old file is shown at every reload until the next write. starlette's conditional answers are modelled after its source (trusted base)."
  },
  {
   "property": "C110",
   "status": "partial",
   "theorems": [
    "Verif.Hot.Scripts.C110_site_partial",
    "Verif.Hot.Scripts.C110_pages_partial",
    "Verif.Hot.Scripts.C110_scripts_partial",
    "Verif.Hot.Scripts.intact_finishes",
    "Verif.Hot.Scripts.tool_direct",
    "Verif.Hot.Scripts.tool_direct_pages",
    "Verif.Hot.Scripts.Album.C110_false_template",
    "Verif.Hot.Scripts.Site.C110_case",
    "Verif.Hot.Scripts.Album.C110_pages_case",
    "Verif.Hot.Scripts.arranged_direct",
    "Verif.Hot.Scripts.Garden.C110_case"
   ],
   "note": "Proved for websites of scripts, copied files, the file of the constants, pages, templates, and stylesheets which have URLs but no imports, icons and inline images, with the handlers of C65, C66, C69, C70 and C77 as builders, if unchanged pages refer to the same files as before; type hints must be apart from the imports (C34). Without that condition it is false, C110_false_template: a template is scanned to no dependencies, and a page which was not edited is not scanned again, so when a template comes to link to another file the page may be built too early, and the rebuild fails. intact_finishes is the same for any handlers which scan what they read. Images, inline elements, and imports and icons in stylesheets are missing. That a rebuild does not wait forever for a build is C14; here it is asked that it is not waiting."
  },
  {
   "property": "C111",
   "status": "partial",
   "theorems": [
    "Verif.Hot.Scripts.C111_site_partial",
    "Verif.Hot.Scripts.C111_site_broken_partial",
    "Verif.Hot.Scripts.C111_site_circular_partial",
    "Verif.Hot.Scripts.Garden.C111_case",
    "Verif.Hot.Scripts.C111_partial",
    "Verif.Hot.Scripts.C111_broken_partial",
    "Verif.Hot.Scripts.C111_circular_partial",
    "Verif.Hot.Scripts.finished_refers",
    "Verif.Hot.Scripts.finished_acyclic",
    "Verif.Hot.Scripts.Album.C111_case",
    "Verif.Hot.Scripts.Album.C111_broken_case",
    "Verif.Hot.Scripts.C111_imports_partial",
    "Verif.Hot.Scripts.C111_imports_broken_partial",
    "Verif.Hot.Scripts.C111_imports_circular_partial",
    "Verif.Hot.Scripts.Sheets.C111_imports_case",
    "Verif.Hot.Scripts.Sheets.C111_imports_broken_case",
    "Verif.Hot.Scripts.Sheets.C111_imports_circular_case"
   ],
   "note": "Proved for websites of scripts, copied files, the file of the constants, pages, templates, and stylesheets which have URLs but no imports, icons and inline images, with the handlers of C65, C66, C69, C70 and C77 as builders, after any history of finished rebuilds; pages which link to themselves are left out, and so are images, inline elements and imports around type hints, as in C110. C111_site_broken_partial and C111_site_circular_partial say the same before the build: with a broken or circular reference a rebuild does not finish. finished_refers and finished_acyclic are the same for any handlers which scan what they read. C111_imports_partial, with C111_imports_broken_partial and C111_imports_circular_partial: the same for the stylesheets from which rules are imported, whatever else the importing stylesheets contain. Missing: the URLs of stylesheets which also import rules."
  },
  {
   "property": "C112",
   "status": "partial",
   "theorems": [
    "Verif.Js.File.C112_script",
    "Verif.Css.Page.C112_sheet_scan",
    "Verif.Css.Page.C112_sheet_partial",
    "Verif.Build.runOps_ends",
    "Verif.Js.File.C112_case",
    "Verif.Css.Page.PageToy.C112_case",
    "Verif.Hot.Scripts.enough_script",
    "Verif.Hot.Scripts.enough_sheet",
    "Verif.Nest.C46_false_endless",
    "Verif.Html.C48_false_endless",
    "Verif.Html.C48_false_endless_case",
    "Verif.Html.Page.C112_page",
    "Verif.Html.Page.C112_page_acyclic",
    "Verif.Html.Page.C112_false",
    "Verif.Html.Page.PageToy.C112_case",
    "Verif.Html.Page.PageToy.C112_false_case",
    "Verif.Hot.Scripts.enough_page",
    "Verif.Hot.Scripts.Album.enough_page_case",
    "Verif.Css.Page.C112_sheet_imports_partial",
    "Verif.Css.Page.PageToy.C112_imports_case"
   ],
   "note": "Proved for scanning and building all scripts, scanning all stylesheets, and building the stylesheets without commands to import rules, with bounds on the steps which depend only on the text (and the settings of the icons). enough_script, enough_sheet and enough_page: so the bound on the steps which C110 and C111 ask for exists. C112_page: scanning and building a page ends if the inclusions of templates do (C112_page_acyclic: if no template includes itself, directly or through others), whatever the page does with images, inline elements, links and canonical URLs; the bound depends on the page, the templates and the number of formats of pictures only. False for circular imports of rules within nested blocks (C46_false_endless) and for templates which include themselves (C48_false_endless for the manipulator, C112_false for whole pages, scanned or built). C112_sheet_imports_partial: building a stylesheet which imports rules ends too if the files imported from consist of rules without blocks in them and with distinct selectors; imports in a circle among them are reported as an exception. Missing: imported rules with nested blocks or repeated selectors."
  },
  {
   "property": "C113",
   "status": "proved",
   "theorems": [
    "Verif.JsonText.C113_torn",
    "Verif.JsonText.C113_ascii",
    "Verif.JsonText.C113_crash",
    "Verif.JsonText.C113_torn_case",
    "Verif.JsonText.C113_number_case",
    "Verif.JsonText.demo_text"
   ],
   "note": "A process which dies leaves some first part of what it has written; that the operating system keeps the order of what is written to one file is trusted. How Python writes and reads floats is a parameter with the hypothesis that each mtime of the graph is written as the text of a number which reads as it. C113_crash links the text to the states of graph files in the model of crashes."
  },
  {
   "property": "C114",
   "status": "proved",
   "theorems": [
    "Verif.ImgRecord.C114_target",
    "Verif.ImgRecord.C114_metadata",
    "Verif.ImgRecord.C114_torn_target",
    "Verif.ImgRecord.C114_torn_metadata",
    "Verif.ImgRecord.C114_lawful",
    "Verif.ImgRecord.C114_stuck",
    "Verif.ImgRecord.Case.C114_case",
    "Verif.ImgRecord.Case.small_text",
    "Verif.Ext.C114_state",
    "Verif.Ext.C114_torn_state",
    "Verif.Ext.C114_statefile",
    "Verif.Ext.C114_state_case",
    "Verif.JsonText.loads_dump",
    "Verif.JsonText.torn_dump"
   ],
   "note": "The strings are texts of Unicode characters in which no surrogate pair is split in two, dictionaries have every key once, and floats are written as the text of a number (the times of external files: one which reads as the time). C114_lawful gives what the theorems about the files of images (C71 to C77) assume of records. C114_stuck is a finding: a torn metadata.json is never repaired; a request of the image either finds an entry listed before the torn one or raises."
  },
  {
   "property": "C87",
   "status": "partial",
   "theorems": [
    "Verif.Config.C87_images",
    "Verif.Config.C87_external",
    "Verif.Config.C87_constants",
    "Verif.Config.C87_build",
    "Verif.Config.C87_accepted",
    "Verif.Config.C87_watch",
    "Verif.Config.C87_init",
    "Verif.Config.C87_init_good",
    "Verif.Config.C87_case",
    "Verif.Config.C87_false_unchecked",
    "Verif.Config.C87_false_version"
   ],
   "note": "What is used is what the configuration says, exactly, and what init writes is accepted. False: names of formats, preferences, the number of steps and an infinite step are not checked (C87_false_unchecked), and while watching the version is not checked (C87_false_version). The text of the file is in C115; the settings of icons (C64) and the reading of decimals from text are parameters; the type checks of pytypeutils are taken as isinstance."
  },
  {
   "property": "C115",
   "status": "proved",
   "theorems": [
    "Verif.Config.C115_text",
    "Verif.Config.C115_reads",
    "Verif.Config.C115_reads_case",
    "Verif.Config.C115_torn",
    "Verif.Config.C115_init",
    "Verif.Config.C115_stuck",
    "Verif.Config.C115_case"
   ],
   "note": "How Python writes and reads the floats of the configuration is a parameter of which only what the text of the initial configuration needs is assumed; the host is any text of Unicode characters in which no surrogates meet. That a torn file is never repaired by another init is part of the claim (C115_stuck)."
  },
  {
   "property": "C116",
   "status": "proved",
   "theorems": [
    "Verif.Html.C116_faithful",
    "Verif.Html.C116_comment",
    "Verif.Html.JsonCase.C116_case"
   ],
   "note": "Floats are given by the text `str` shows, and `shown` says how Python shows the float it reads from a text; strings are texts of Unicode characters in which no surrogates meet. For values of the model which Python does not have, the environment of the theorem writes texts which are no JSON, so that the laws hold of all values."
  },
  {
   "property": "C117",
   "status": "proved",
   "theorems": [
    "Verif.Img.Glue.C117_build",
    "Verif.Img.Glue.C117_module",
    "Verif.Img.Glue.C117_order",
    "Verif.Img.Glue.Gives.unique",
    "Verif.Img.Glue.ModuleCase.C117_case",
    "Verif.Img.Glue.ModuleCase.text_is"
   ],
   "note": "What JavaScript makes of the text is a small specification (jsOf, Gives): by ECMA-262 a JSON text is an expression with the value JSON.parse gives, but for the key __proto__. Numbers are compared as they are written; how Python writes floats is a parameter. Strings are texts of Unicode characters in which no surrogates meet."
  },
  {
   "property": "C118",
   "status": "proved",
   "theorems": [
    "Verif.PyFloat.C118_float",
    "Verif.PyFloat.C118_shortest",
    "Verif.PyFloat.C118_graph",
    "Verif.PyFloat.C118_state",
    "Verif.PyFloat.C118_case",
    "Verif.PyFloat.C118_graph_case",
    "Verif.PyFloat.C118_sixteen",
    "Verif.PyFloat.C118_coarse"
   ],
   "note": "Python's float.__repr__ and float() are modelled (shortest decimal which reads as the float, CPython's layout, rounding to nearest), without infinities, subnormal numbers and the negative zero. So the hypotheses about floats of C08, C113 and C114 hold of Python's floats. C118_coarse records that times closer than the resolution of floats are the same."
  },
  {
   "property": "C119",
   "status": "proved",
   "theorems": [
    "Verif.Img.Arguments.C119_command",
    "Verif.Img.Arguments.C119_understood",
    "Verif.Img.Arguments.C119_refused",
    "Verif.Img.Arguments.C119_case",
    "Verif.Img.Arguments.C119_refused_case",
    "Verif.Img.Arguments.C119_int",
    "Verif.Img.Arguments.C119_int_case"
   ],
   "note": "Python's int (digits of ASCII, signs, underscores) and json.loads are modelled here, instead of being parameters as in C45. Crop arguments in which a closing bracket comes before the last one are refused, whatever they are (C119_refused): so texts with brackets and nested dictionaries cannot be written, but they are never misread."
  },
  {
   "property": "C120",
   "status": "proved",
   "theorems": [
    "Verif.Hot.Scripts.C120_builds",
    "Verif.Hot.Scripts.C120_init",
    "Verif.Hot.Scripts.C120_published",
    "Verif.Hot.Scripts.C120_tokens",
    "Verif.Hot.Scripts.first_inert",
    "Verif.Hot.Scripts.Fresh.C120_init_case",
    "Verif.Hot.Scripts.Fresh.C120_case",
    "Verif.Hot.Scripts.Fresh.C120_published_case"
   ],
   "note": "How html5lib parses the page is a parameter: what is assumed is that there are no comments, links, scripts and stylesheets among its tokens, which are shown beside it. The host must be set, as for all pages in C110; the configuration of the new project is the subject of C115."
  }
 ]
}