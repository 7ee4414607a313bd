{
 "claims": [
  {
   "property": "C01",
   "status": "proved",
   "theorems": [
    "Verif.Props.C01_split_add_roundtrip",
    "Verif.Props.C01_add_split_roundtrip",
    "Verif.Props.C01_split_spec"
   ],
   "note": "Exact characterisation: the round trip holds for every tag except the bare prefixes 'b-' and 'i-'."
  },
  {
   "property": "C02",
   "status": "proved",
   "theorems": [
    "Verif.Props.C02_set_get",
    "Verif.Props.C02_set_text",
    "Verif.Props.C02_tag_by_scope"
   ],
   "note": "Levels are None or natural numbers."
  },
  {
   "property": "C03",
   "status": "partial",
   "theorems": [
    "Verif.Props.C03_merge_ok_iff_partial",
    "Verif.Props.C03_merge_error",
    "Verif.Props.C03_merge_result",
    "Verif.Props.C03_length_mismatch_not_detected"
   ],
   "note": "The merge fails exactly if the texts of corresponding tokens differ; a document that is longer or shorter is not detected by the code (zip): C03_length_mismatch_not_detected."
  },
  {
   "property": "C04",
   "status": "proved",
   "theorems": [
    "Verif.C04_pattern",
    "Verif.Props.C04_lossless",
    "Verif.Props.C04_boundaries",
    "Verif.Props.C04_whitespace"
   ],
   "note": " C04_pattern: the text is split as re.split with the expression of the code does it."
  },
  {
   "property": "C05",
   "status": "proved",
   "theorems": [
    "Verif.Props.C05_loads_iff",
    "Verif.Props.C05_lines",
    "Verif.Props.C05_flow_spec",
    "Verif.Props.C05_all_text"
   ],
   "note": ""
  },
  {
   "property": "C06",
   "status": "proved",
   "theorems": [
    "Verif.Props.C06_text",
    "Verif.Props.C06_succeeds"
   ],
   "note": ""
  },
  {
   "property": "C07",
   "status": "proved",
   "theorems": [
    "Verif.Props.C07_lines",
    "Verif.Props.C07_count"
   ],
   "note": "Up to white space at the end of a line, which the code writes behind the line break; tags asking for lb elements excluded."
  },
  {
   "property": "C08",
   "status": "proved",
   "theorems": [
    "Verif.Props.C08_places"
   ],
   "note": ""
  },
  {
   "property": "C09",
   "status": "partial",
   "theorems": [
    "Verif.C09_exact",
    "Verif.Props.C09_elements_partial",
    "Verif.Props.C09_ignored_sub_tag_splits_element"
   ],
   "note": "Violated for sub tags which are ignored: their begin prefix starts a new main element (C09_ignored_sub_tag_splits_element). C09_exact says for all text when the main element and the innermost element of the previous text are continued (if and only if)."
  },
  {
   "property": "C10",
   "status": "partial",
   "theorems": [
    "Verif.Props.C10_text_partial",
    "Verif.Props.C10_several_containers_duplicate_text",
    "Verif.C10_written",
    "Verif.C10_exact"
   ],
   "note": "Violated for several containers (C10_several_containers_duplicate_text). C10_written gives the text written for any document and C10_exact says when it is the same: if and only if the containers after the first have no text."
  },
  {
   "property": "C11",
   "status": "proved",
   "theorems": [
    "Verif.Props.C11_preserved"
   ],
   "note": ""
  },
  {
   "property": "C12",
   "status": "proved",
   "theorems": [
    "Verif.Props.C12_effect",
    "Verif.Props.C12_frame"
   ],
   "note": ""
  },
  {
   "property": "C13",
   "status": "partial",
   "theorems": [
    "Verif.C13_exact",
    "Verif.C13_text_stays",
    "Verif.Props.C13_kept_tokens_partial",
    "Verif.Props.C13_single_line_partial",
    "Verif.Props.C13_tokens_duplicated"
   ],
   "note": "Violated by the code for documents with more than one line (C13_tokens_duplicated). C13_exact gives the exact result for all documents, with C13_text_stays; the partial theorems say what holds of the property."
  },
  {
   "property": "C14",
   "status": "proved",
   "theorems": [
    "Verif.Props.C14_before_annotation",
    "Verif.Props.C14_preserved_fields_survive",
    "Verif.Props.C14_preserving_a_field_drops_others"
   ],
   "note": "C14_preserving_a_field_drops_others shows a surprising consequence: naming one preserved field removes all other tags."
  },
  {
   "property": "C15",
   "status": "proved",
   "theorems": [
    "Verif.Props.C15_saved",
    "Verif.Props.C15_no_error"
   ],
   "note": "Loading, annotators, checks and serialising are parameters that may raise."
  },
  {
   "property": "C16",
   "status": "partial",
   "theorems": [
    "Verif.C16_not_again",
    "Verif.C16_all_others",
    "Verif.C16_resume_partial",
    "Verif.C16_truncated"
   ],
   "note": "No file with an existing output is processed again, over any history of runs stopped at any step (C16_not_again), and every other file is (C16_all_others). After any history of crashes outside the writing of an output, a complete run leaves all files as one uninterrupted run does (C16_resume_partial). It fails for a crash in the middle of writing, with a witness (C16_truncated). Assumes distinct outputs and documents independent of the output files."
  },
  {
   "property": "C17",
   "status": "partial",
   "theorems": [
    "Verif.C17_outcome_partial",
    "Verif.C17_progress",
    "Verif.C17_terminates"
   ],
   "note": "For every interleaving: all processable documents are saved whatever happens to others, and an error is reported exactly without skip-errors if a document fails (C17_outcome_partial); a run never gets stuck (C17_progress) and always ends (C17_terminates). For documents read from temporary copies by several threads the property is violated: one job can make another one fail (C18_shared)."
  },
  {
   "property": "C18",
   "status": "partial",
   "theorems": [
    "Verif.C18_copy_exists_partial",
    "Verif.C18_processes_partial",
    "Verif.C18_shared",
    "Verif.C18_shared_before_enter"
   ],
   "note": "Proved for worker processes and for a single worker, for all schedules and any number of jobs; refuted for two worker threads sharing the exit stack (C18_shared, C18_shared_before_enter)."
  },
  {
   "property": "C19",
   "status": "proved",
   "theorems": [
    "Verif.C19_text_and_sub_tags",
    "Verif.C19_never_overwrites",
    "Verif.C19_keeps_values",
    "Verif.C19_preserved_fields"
   ],
   "note": "For all matchers, regular expressions and configurations (C19_text_and_sub_tags, C19_never_overwrites without extension to lines, C19_keeps_values with it). C19_preserved_fields composes this with the preparation of documents (C14)."
  },
  {
   "property": "C20",
   "status": "proved",
   "theorems": [
    "Verif.C20_one_entity"
   ],
   "note": "The tokens are those untagged tokens whose characters overlap the match in the text built from the token sequences; sequences are not empty and no token occurs twice, which holds for those taken from a document."
  },
  {
   "property": "C21",
   "status": "proved",
   "theorems": [
    "Verif.C21_terminates",
    "Verif.C21_left_over"
   ],
   "note": "Termination for every matcher, with a bound on the number of rounds; left over target annotations are not found in the final text."
  },
  {
   "property": "C22",
   "status": "proved",
   "theorems": [
    "Verif.C22_keeps_values",
    "Verif.C22_from_line",
    "Verif.C22_between",
    "Verif.C22_behind",
    "Verif.C22_before",
    "Verif.C22_untagged_line",
    "Verif.C22_prefixes",
    "Verif.C22_plain",
    "Verif.C22_document",
    "Verif.C22_options"
   ],
   "note": "For every list of line tags and configuration, and for whole documents (C22_document). Tags are proper: not empty, with a value which is not empty, as written by the annotators."
  },
  {
   "property": "C23",
   "status": "proved",
   "theorems": [
    "Verif.Props.C23_previous",
    "Verif.Props.C23_following",
    "Verif.Props.C23_tokens_distinct"
   ],
   "note": "Exact effect on each token; tokens of the document distinct, which holds for every loaded document (C23_tokens_distinct)."
  },
  {
   "property": "C24",
   "status": "partial",
   "theorems": [
    "Verif.Props.C24_replaced_partial",
    "Verif.Props.C24_preserved_tags_lost",
    "Verif.C24_exact"
   ],
   "note": "C24_exact says exactly what replacing tags does for every document: which tokens get the tag in the table, which labels of the source file are removed. The property itself holds if replaced tokens have no preserved tags (C24_replaced_partial) and is violated otherwise (C24_preserved_tags_lost)."
  },
  {
   "property": "C25",
   "status": "proved",
   "theorems": [
    "Verif.Props.C25_group"
   ],
   "note": "Exact effect on each token."
  },
  {
   "property": "C26",
   "status": "proved",
   "theorems": [
    "Verif.Props.C26_found",
    "Verif.Props.C26_complete",
    "Verif.Props.C26_annotate"
   ],
   "note": "int() is a parameter; the threshold is a rational number. Soundness, completeness for a single sequence and effect on the document."
  },
  {
   "property": "C27",
   "status": "proved",
   "theorems": [
    "Verif.Props.C27_entities"
   ],
   "note": "Exact list of entities, with the properties of a partition into maximal runs."
  },
  {
   "property": "C28",
   "status": "proved",
   "theorems": [
    "Verif.Props.C28_passes",
    "Verif.Props.C28_error",
    "Verif.C28_checked_targets"
   ],
   "note": "Levenshtein ratio is a parameter; exact condition for passing and for errors."
  },
  {
   "property": "C29",
   "status": "partial",
   "theorems": [
    "Verif.C29_labels",
    "Verif.C29_one_label",
    "Verif.C29_mapped",
    "Verif.C29_unmapped_mixed"
   ],
   "note": "C29_labels states exactly which label each line gets through all stages, for both values of preserve_tags; C29_one_label: one label on all tokens, from the configuration or the fixed ones. The exception is real: a line whose majority tag is not mapped keeps its mixed tags (C29_unmapped_mixed)."
  },
  {
   "property": "C30",
   "status": "proved",
   "theorems": [
    "Verif.C30_merge",
    "Verif.C30_tagged_kept"
   ],
   "note": "Exact effect of merge_lines, including the lines behind the last block, which only the annex takes."
  },
  {
   "property": "C31",
   "status": "partial",
   "theorems": [
    "Verif.C31_found",
    "Verif.C31_consistent_partial",
    "Verif.C31_increasing_found",
    "Verif.C31_preserved",
    "Verif.C31_preserved_page_merged",
    "Verif.C31_not_increasing",
    "Verif.C31_repeated_number",
    "Verif.C31_pattern",
    "Verif.C31_header_pattern"
   ],
   "note": "Exactly which lines are found (C31_found), their consistency with the numbers known before and completeness for increasing numbers. The numbers found are not always increasing and may repeat the previous one (witnesses); preserved page numbers are not recognised because of their prefix. C31_pattern, C31_header_pattern: the tests for page numbers and page headers are the regular expressions of the code."
  },
  {
   "property": "C32",
   "status": "proved",
   "theorems": [
    "Verif.C32_headers",
    "Verif.C32_labelled_line_overwritten"
   ],
   "note": "Exactly which lines become page headers. Labelled lines with such a text are overwritten too (witness)."
  },
  {
   "property": "C33",
   "status": "proved",
   "theorems": [
    "Verif.C33_effect",
    "Verif.C33_stays_tagged",
    "Verif.C33_values",
    "Verif.C33_values_once",
    "Verif.C33_total",
    "Verif.C33_mapped_repeatedly",
    "Verif.C33_swap_lost",
    "Verif.C33_kept"
   ],
   "note": "For loaded (and annotated) documents with proper sub tags: text, main tags and preserved main tags unchanged, one sub tag per token in each step, tagged tokens stay tagged, exact values (name mapped four times, or a value merged with 'et al'), total if each enabled prefix value has a pattern. Chained or swapped names in the map give surprising results (witnesses). C33_kept: sub labels which are neither mapped nor merged nor extended stay exactly as they are."
  },
  {
   "property": "C34",
   "status": "partial",
   "theorems": [
    "Verif.Props.C34_main_tags_kept_partial",
    "Verif.Props.C34_current_tags_lost",
    "Verif.C34_sub_tags_only",
    "Verif.C34_exact"
   ],
   "note": "Violated for documents with current main tags which are not preserved ones (C34_current_tags_lost). C34_exact gives the main tags of the result for every document and says when they are the same; proved for documents as after loading and clearing (C34_main_tags_kept_partial, C34_sub_tags_only, C94_own_field)."
  },
  {
   "property": "C35",
   "status": "proved",
   "theorems": [
    "Verif.Props.C35_view"
   ],
   "note": "View, recorded indices and original text agree for every junk predicate."
  },
  {
   "property": "C36",
   "status": "proved",
   "theorems": [
    "Verif.Props.C36_ordered",
    "Verif.Props.C36_exhaustive"
   ],
   "note": "Order and disjointness for every matcher with a positive threshold; number of matches bounded by the length; every match is the one found from the end of the previous one on and the iteration only ends at the end, on failure or when nothing is found."
  },
  {
   "property": "C37",
   "status": "proved",
   "theorems": [
    "Verif.C37_perfect",
    "Verif.Props.C37_scores",
    "Verif.Props.C37_values",
    "Verif.Props.C37_identical",
    "Verif.Props.C37_search_score",
    "Verif.Props.C37_search_score_value",
    "Verif.Props.C37_search_score_above_one"
   ],
   "note": "For the scores of core/annotation/fuzzy_match.py, as exact fractions."
  },
  {
   "property": "C38",
   "status": "partial",
   "theorems": [
    "Verif.C38_first_chunk",
    "Verif.C38_last_chunk",
    "Verif.Props.C38_terminates",
    "Verif.Props.C38_default_terminates",
    "Verif.Props.C38_coverage",
    "Verif.Props.C38_first_window",
    "Verif.Props.C38_chunk_misplaced",
    "Verif.Props.C38_score_of_other_text"
   ],
   "note": "Termination (with the bound on rounds and independence from it), window coverage and the first accepted window for a single chunk are proved. Chunk mode: the first chunk is reported at its position in the window (C38_chunk_misplaced), so the position claim does not hold there; acceptance uses positions of the window in the text of the haystack (C38_score_of_other_text)."
  },
  {
   "property": "C39",
   "status": "partial",
   "theorems": [
    "Verif.C39_separator",
    "Verif.C39_whitespace",
    "Verif.C39_missing_whitespace",
    "Verif.C39_padding_wrong",
    "Verif.C39_between"
   ],
   "note": "Without padding (no caller passes any) text and ranges are proved for every list of items, separator and white space list; with padding the ranges are wrong (C39_padding_wrong)."
  },
  {
   "property": "C40",
   "status": "proved",
   "theorems": [
    "Verif.C40_tokens_between",
    "Verif.C40_sequence"
   ],
   "note": "Positions may be negative or beyond the text."
  },
  {
   "property": "C41",
   "status": "proved",
   "theorems": [
    "Verif.C41_pending",
    "Verif.C41_exactly_untagged",
    "Verif.C41_limit"
   ],
   "note": "Pending sequences contain exactly the untagged non-space tokens of the given sequences, in order; the limit cuts the number of sequences."
  },
  {
   "property": "C42",
   "status": "proved",
   "theorems": [
    "Verif.Props.C42_comma_list",
    "Verif.Props.C42_parts",
    "Verif.Props.C42_literal",
    "Verif.Props.C42_edited",
    "Verif.Props.C42_error",
    "Verif.Props.C42_set",
    "Verif.Props.C42_default_unchanged"
   ],
   "note": "Lists are objects in a heap, so that leaving the default unmodified is a statement about the model."
  },
  {
   "property": "C43",
   "status": "partial",
   "theorems": [
    "Verif.Props.C43_entries",
    "Verif.Props.C43_sections",
    "Verif.Props.C43_fields",
    "Verif.Props.C43_overrides",
    "Verif.Props.C43_mapping",
    "Verif.Props.C43_sub_field_option_dropped"
   ],
   "note": "C43_entries, C43_sections, C43_fields and C43_overrides describe the filters for all mappings. The property fails for options of a selected sub field: C43_sub_field_option_dropped."
  },
  {
   "property": "C44",
   "status": "proved",
   "theorems": [
    "Verif.C44_balanced",
    "Verif.C44_fails_iff",
    "Verif.C44_well_formed_kept",
    "Verif.C44_valid_unchanged",
    "Verif.C44_invalid_repaired",
    "Verif.C44_no_single_root",
    "Verif.C44_attribute_without_value_fails"
   ],
   "note": "The HTML parser of the standard library is external: the theorem is about the events it reports, output and escaping are modelled character by character. Balanced and complete, not necessarily a single root; an attribute without value makes the repair fail."
  },
  {
   "property": "C45",
   "status": "proved",
   "theorems": [
    "Verif.C45_element_text",
    "Verif.C45_sub_value",
    "Verif.C45_collapse",
    "Verif.C45_loop_finished",
    "Verif.C45_no_runs",
    "Verif.C45_idempotent",
    "Verif.C45_others_kept"
   ],
   "note": "Equality with an independent one-pass specification; idempotence and normal form follow. The loop bound of the model is proved to be sufficient."
  },
  {
   "property": "C46",
   "status": "proved",
   "theorems": [
    "Verif.C46_order",
    "Verif.C46_document_order",
    "Verif.C46_unknown_root"
   ],
   "note": "annotation/target_annotation.py is modelled completely; evaluation of XPath expressions, regular expressions, JSON and int parsing are parameters. What is found for an element is described by Spec.GroupOf and Spec.FoundIn."
  },
  {
   "property": "C47",
   "status": "partial",
   "theorems": [
    "Verif.C47_no_text_added",
    "Verif.C47_text_kept_partial",
    "Verif.C47_steps_keep_text",
    "Verif.C47_tail_lost",
    "Verif.C47_inner_text_lost",
    "Verif.C47_text_moved",
    "Verif.C47_link_text_moved",
    "Verif.C47_comment_text_moved",
    "Verif.C47_patterns"
   ],
   "note": "Regular expressions other than the one for DOIs are parameters, with those of the code in C47_patterns; XML comments are not modelled. Proved for all references: no character is added or duplicated; six of the seventeen steps keep the text always; the others keep it unless they meet an element described by Spec.safeAt. For the rest the property is false: C47_tail_lost, C47_inner_text_lost, C47_text_moved, C47_link_text_moved, C47_comment_text_moved."
  },
  {
   "property": "C48",
   "status": "partial",
   "theorems": [
    "Verif.C48_doi_range_partial",
    "Verif.C48_within_match",
    "Verif.C48_duplicate_removed",
    "Verif.C48_url_inside",
    "Verif.C48_duplicate_left",
    "Verif.C48_repetition",
    "Verif.C48_pii",
    "Verif.C48_removed_pattern"
   ],
   "note": "The pattern of truncating tokens is a parameter that cuts at white space or a bracket. That the DOI contains no URL and no duplicate is false in general: C48_url_inside, C48_duplicate_left; duplicates that are part of the text before them are removed (C48_duplicate_removed). C48_repetition and C48_pii say what is removed at a repetition and at a PII. C48_removed_pattern: what is removed before comparing parts is what the expressions of the code match."
  },
  {
   "property": "C49",
   "status": "partial",
   "theorems": [
    "Verif.C49_only_opening_removed",
    "Verif.C49_only_closing_removed",
    "Verif.C49_element_quotes",
    "Verif.C49_element_comma",
    "Verif.C49_title_quotes",
    "Verif.C49_title_quotes_removed"
   ],
   "note": "Proved for the text of a title (find_article_title_start_end). The handling of quotes on elements violates the property: C49_only_opening_removed, C49_only_closing_removed. C49_element_quotes and C49_element_comma say when they are moved out correctly."
  },
  {
   "property": "C50",
   "status": "proved",
   "theorems": [
    "Verif.C50_concatenation",
    "Verif.C50_cuts"
   ],
   "note": ""
  },
  {
   "property": "C51",
   "status": "proved",
   "theorems": [
    "Verif.C51_pairs",
    "Verif.C51_outputs",
    "Verif.C51_succeeds"
   ],
   "note": "Path functions of sciencebeam_utils, file existence, loading of the lists (with the limit) and parsing of format strings are parameters. Making a path absolute twice must give the same as once (AbsStable); lists of different lengths are an error in the code."
  },
  {
   "property": "C52",
   "status": "partial",
   "theorems": [
    "Verif.C52_dir_filename_partial",
    "Verif.C52_name_ext",
    "Verif.C52_index",
    "Verif.C52_default_collision",
    "Verif.C52_annotated",
    "Verif.C52_annotated_same_directory",
    "Verif.C52_default_exact"
   ],
   "note": "Proved for the pattern {dir}{filename}, for patterns with the number of the pair, and for annotated documents of one directory. With the default pattern the property is false: C52_default_collision; C52_default_exact says that two outputs are the same exactly if the file names are."
  },
  {
   "property": "C53",
   "status": "partial",
   "theorems": [
    "Verif.Props.C53_split_a_partial",
    "Verif.Props.C53_split_b_partial",
    "Verif.Props.C53_split_a_pairs",
    "Verif.Props.C53_split_b_pairs",
    "Verif.Props.C53_crossing_block_misaligned"
   ],
   "note": "C53_split_a_partial and C53_split_b_partial: counts, positions and the first part, and the second part when no block crosses the split. C53_split_a_pairs and C53_split_b_pairs say exactly which positions the parts pair for any blocks; C53_crossing_block_misaligned shows that the property fails for a crossing block."
  },
  {
   "property": "C54",
   "status": "partial",
   "theorems": [
    "Verif.Props.C54_complement_partial",
    "Verif.Props.C54_exact",
    "Verif.Props.C54_range_before_start"
   ],
   "note": "C54_exact says what is covered for all sorted ranges. It is the complement for ranges which start within the given range (C54_complement_partial, as all callers have them); C54_range_before_start shows that it fails otherwise."
  },
  {
   "property": "C55",
   "status": "proved",
   "theorems": [
    "Verif.C55_search_junk",
    "Verif.C55_comparison_junk",
    "Verif.Props.C55_remove",
    "Verif.Props.C55_count_a",
    "Verif.Props.C55_count_b",
    "Verif.Props.C55_count_all"
   ],
   "note": ""
  },
  {
   "property": "C56",
   "status": "partial",
   "theorems": [
    "Verif.C56_round_trip_exact",
    "Verif.C56_path_round_trip_exact",
    "Verif.C56_split_pattern",
    "Verif.C56_pattern",
    "Verif.C56_expression",
    "Verif.C56_not_understood",
    "Verif.Props.C56_round_trip_partial",
    "Verif.Props.C56_no_attribute",
    "Verif.Props.C56_several_attributes",
    "Verif.Props.C56_empty_value",
    "Verif.Props.C56_path_round_trip_partial",
    "Verif.Props.C56_slash_in_value"
   ],
   "note": "Violated for empty values, line feeds in values and slashes outside of braces (C56_empty_value, C56_slash_in_value). C56_round_trip_exact and C56_path_round_trip_exact say exactly for which expressions and paths the round trip holds. C56_pattern: the parser is the regular expression of the code with its groups. C56_split_pattern: paths are split at the matches of the expression of the code, with its condition on the text behind."
  },
  {
   "property": "C57",
   "status": "proved",
   "theorems": [
    "Verif.C57_merge",
    "Verif.C57_select_none",
    "Verif.C57_select",
    "Verif.C57_longest_wrong"
   ],
   "note": "C57_merge, C57_select and C57_select_none. The length of a group is measured up to the end of its last range in order, as in the statement; where an earlier range in the group ends later, the selected group need not be the one that covers most (C57_longest_wrong)."
  },
  {
   "property": "C58",
   "status": "proved",
   "theorems": [
    "Verif.Props.C58_main_tags"
   ],
   "note": ""
  },
  {
   "property": "C59",
   "status": "partial",
   "theorems": [
    "Verif.Props.C59_sub_tag_lost_after_line_break",
    "Verif.Props.C59_sub_tags",
    "Verif.Props.C59_own_sub_tag_partial"
   ],
   "note": "C59_sub_tags gives the sub tags of all tokens exactly. The property holds where no tagged element nested in a tagged element has elements in it (C59_own_sub_tag_partial); it is violated by line breaks and other nested elements (C59_sub_tag_lost_after_line_break)."
  },
  {
   "property": "C60",
   "status": "proved",
   "theorems": [
    "Verif.Props.C60_pairs",
    "Verif.Props.C60_error"
   ],
   "note": ""
  },
  {
   "property": "C61",
   "status": "proved",
   "theorems": [
    "Verif.Props.C61_found",
    "Verif.Props.C61_all_ranges"
   ],
   "note": "Single chunk mode; the external matchers are assumed to return consistent blocks of equal elements."
  },
  {
   "property": "C62",
   "status": "proved",
   "theorems": [
    "Verif.C62_whole_words",
    "Verif.Props.C62_words",
    "Verif.Props.C62_blocks"
   ],
   "note": "difflib is external: assumed to return consistent blocks of equal words."
  },
  {
   "property": "C63",
   "status": "proved",
   "theorems": [
    "Verif.C63_first_spelling",
    "Verif.C63_too_short",
    "Verif.C63_within",
    "Verif.C63_literal_found",
    "Verif.C63_literal_chunks",
    "Verif.C63_nothing_missed",
    "Verif.C63_list",
    "Verif.C63_compared"
   ],
   "note": "The matchers (difflib and the external alignment library) are parameters: assumed to return consistent aligned blocks and, where the needle occurs in the haystack, one block covering the needle (difflib's autojunk heuristic is not modelled). C63_literal_found covers values with a single text and one chunk per match, C63_literal_chunks and C63_nothing_missed values with a single text and any number of chunks."
  },
  {
   "property": "C64",
   "status": "proved",
   "theorems": [
    "Verif.C64_prefix",
    "Verif.C64_placeholders",
    "Verif.C64_values",
    "Verif.C64_quantifier_replaced",
    "Verif.C64_pattern"
   ],
   "note": "re.search and re.escape are parameters. Quantifiers such as {2} are taken for placeholders (C64_quantifier_replaced). C64_pattern: placeholders are replaced as re.sub with the expression of the code does it."
  },
  {
   "property": "C65",
   "status": "proved",
   "theorems": [
    "Verif.C65_match_tagged"
   ],
   "note": "Assumes that re.search returns a start within the text."
  },
  {
   "property": "C66",
   "status": "proved",
   "theorems": [
    "Verif.C66_first_free",
    "Verif.C66_within_match"
   ],
   "note": "The search for the ranges itself is covered by C61/C62."
  },
  {
   "property": "C67",
   "status": "proved",
   "theorems": [
    "Verif.C67_late_front",
    "Verif.C67_no_threshold"
   ],
   "note": "Exact."
  },
  {
   "property": "C68",
   "status": "proved",
   "theorems": [
    "Verif.C68_etal",
    "Verif.C68_others",
    "Verif.C68_none_before"
   ],
   "note": "Exact for runs behind a run to be merged, kept otherwise; all other tags kept."
  },
  {
   "property": "C69",
   "status": "proved",
   "theorems": [
    "Verif.C69_suffix",
    "Verif.C69_others"
   ],
   "note": "Exact new tags of each untagged run behind a tagged run; everything else kept."
  },
  {
   "property": "C70",
   "status": "proved",
   "theorems": [
    "Verif.C70_prefix",
    "Verif.C70_no_gap",
    "Verif.C70_end",
    "Verif.C70_values",
    "Verif.C70_no_pattern",
    "Verif.C70_missing_pattern_fails"
   ],
   "note": "Exact new tags of an untagged run and the run behind it, given the search function; no gap and gap at the end: unchanged; exact condition for KeyError. Regular expressions are a parameter."
  },
  {
   "property": "C71",
   "status": "proved",
   "theorems": [
    "Verif.C71_references",
    "Verif.C71_local"
   ],
   "note": "The runs are specified by takeWhile/dropWhile on the main tags; locality proved for pairs of documents."
  },
  {
   "property": "C72",
   "status": "proved",
   "theorems": [
    "Verif.C72_between",
    "Verif.C72_edges",
    "Verif.C72_prefixes"
   ],
   "note": "Specialises the theorems about extending tags (C22) to the options used for references."
  },
  {
   "property": "C73",
   "status": "partial",
   "theorems": [
    "Verif.C73_end_ignored",
    "Verif.C73_unknown_end_closes_innermost",
    "Verif.C73_outer_end_closes_inner",
    "Verif.C73_text_after_end_tag_inside"
   ],
   "note": "The first two rules are proved for all event sequences; for the third the code leaves the element itself open, which is proved in general (C73_outer_end_closes_inner) and shown to differ from the property by a witness."
  },
  {
   "property": "C74",
   "status": "partial",
   "theorems": [
    "Verif.C74_matches_and_parts",
    "Verif.C74_no_match",
    "Verif.C74_parts_complete_partial",
    "Verif.C74_parts_in_order_partial",
    "Verif.C74_exact",
    "Verif.C74_character_lost"
   ],
   "note": "C74_exact says exactly which characters the parts have. All but white space is kept if each match is followed by white space, the next match or the end (C74_parts_complete_partial); otherwise the character following a match is dropped (C74_character_lost)."
  },
  {
   "property": "C75",
   "status": "partial",
   "theorems": [
    "Verif.C75_pattern",
    "Verif.C75_raw_text",
    "Verif.C75_excluded",
    "Verif.C75_words_apart_partial",
    "Verif.C75_exact",
    "Verif.C75_exact_excluding",
    "Verif.C75_words_run_together"
   ],
   "note": "All parts are proved for all trees except that words never run together, which needs that no text contains a line feed; a witness shows it fails otherwise. C75_exact says where spaces are added. C75_exact_excluding: the exact text with excluded elements, for elements without empty texts. C75_pattern: the tests for words are the regular expressions of the code."
  },
  {
   "property": "C76",
   "status": "partial",
   "theorems": [
    "Verif.C76_parents_excluded_partial",
    "Verif.C76_once_iff",
    "Verif.C76_grandparent_kept"
   ],
   "note": "Proved for direct parents; an element containing another selected element further inside is kept (witness). C76_once_iff says exactly when no text is used twice."
  },
  {
   "property": "C77",
   "status": "proved",
   "theorems": [
    "Verif.C77_sub_fields",
    "Verif.C77_sub_annotation_names"
   ],
   "note": "For mappings with distinct keys, which Python dictionaries are."
  },
  {
   "property": "C78",
   "status": "proved",
   "theorems": [
    "Verif.C78_options",
    "Verif.C78_expressions",
    "Verif.C78_entries"
   ],
   "note": "Int parsing is a parameter. That annotations carry the options of their field is part of C46_order (Spec.GroupOf)."
  },
  {
   "property": "C79",
   "status": "proved",
   "theorems": [
    "Verif.C79_ranges",
    "Verif.C79_children_texts",
    "Verif.C79_children_complete",
    "Verif.C79_concatenations"
   ],
   "note": "XPath evaluation, text functions of sciencebeam_utils and int parsing are parameters. Completeness is stated for selected children without selected children of their own (parents of others contribute their immediate text)."
  },
  {
   "property": "C80",
   "status": "partial",
   "theorems": [
    "Verif.C80_failures_partial",
    "Verif.C80_empty_doi_fails",
    "Verif.C80_adjacent_dois_fail",
    "Verif.C80_patterns",
    "Verif.C80_succeeds"
   ],
   "note": "Proved that the only failing step is the replacement of DOIs by links, and when; C80_succeeds: a reference can always be fixed if its DOI annotations have text and none directly follows another. Without that the property is false: C80_empty_doi_fails, C80_adjacent_dois_fail. C80_patterns: for the regular expressions of the code, without hypotheses about them."
  },
  {
   "property": "C81",
   "status": "proved",
   "theorems": [
    "Verif.C81_copies",
    "Verif.C81_progress",
    "Verif.C81_collision"
   ],
   "note": "Small steps of any number of threads in any order; written in pieces of any size. Needs outputs different from each other and from the sources; C81_collision shows what happens otherwise."
  },
  {
   "property": "C82",
   "status": "proved",
   "theorems": [
    "Verif.C82_only_missing",
    "Verif.C82_added"
   ],
   "note": "Regular expressions are parameters. The second theorem is about the step on one citation."
  },
  {
   "property": "C83",
   "status": "proved",
   "theorems": [
    "Verif.C83_safe"
   ],
   "note": "For every matcher. Names are assumed nonempty."
  },
  {
   "property": "C84",
   "status": "proved",
   "theorems": [
    "Verif.C84_terminates"
   ],
   "note": "The matchers of the alignment library are parameters assumed to return blocks inside the texts."
  },
  {
   "property": "C85",
   "status": "proved",
   "theorems": [
    "Verif.C85_tokens",
    "Verif.C85_order",
    "Verif.C85_next_line_shifted"
   ],
   "note": "C85_tokens and C85_order hold for all matches; C85_next_line_shifted shows that the matches found on a second line are shifted by one character, since the joining space is counted."
  },
  {
   "property": "C86",
   "status": "partial",
   "theorems": [
    "Verif.C86_exact",
    "Verif.C86_gap_partial",
    "Verif.C86_next_ignores_gap"
   ],
   "note": "C86_exact says for all matches what they are close to: an earlier match, or the line compared together with them. The property follows if lines compared together are within the gap (C86_gap_partial); the second line of a pair is not tested for the gap (C86_next_ignores_gap)."
  },
  {
   "property": "C87",
   "status": "proved",
   "theorems": [
    "Verif.C87_line",
    "Verif.C87_two_lines",
    "Verif.C87_found_again",
    "Verif.C87_empty_line_stops"
   ],
   "note": "Under the conditions in the statement (C87_line, C87_two_lines). A line without a text after normalising stops the search (C87_empty_line_stops); the search for a value on two lines goes on after it was found (C87_found_again)."
  },
  {
   "property": "C88",
   "status": "partial",
   "theorems": [
    "Verif.C88_last_partial",
    "Verif.C88_neighbours",
    "Verif.C88_stale_condition"
   ],
   "note": "Waiting matches are annotated exactly next to the new ones (C88_neighbours), and a last target annotation with require_next is never annotated (C88_last_partial); a stale condition can be met by any later target annotation (C88_stale_condition)."
  },
  {
   "property": "C89",
   "status": "partial",
   "theorems": [
    "Verif.C89_exact",
    "Verif.C89_neighbours_iff",
    "Verif.C89_alone",
    "Verif.C89_used",
    "Verif.C89_next_partial",
    "Verif.C89_list_misaligned"
   ],
   "note": "Proved for single values (C89_next_partial); false for lists of texts (C89_list_misaligned). C89_exact: for lists of texts each line is compared with one that is too far down by the lines looked at in addition for other texts; C89_neighbours_iff: when it is the line after it; C89_alone: after a text has not been found, lines are compared alone; C89_used: what a call says."
  },
  {
   "property": "C90",
   "status": "proved",
   "theorems": [
    "Verif.C90_bonding"
   ],
   "note": ""
  },
  {
   "property": "C91",
   "status": "proved",
   "theorems": [
    "Verif.C91_found",
    "Verif.C91_apart"
   ],
   "note": "A later sub annotation takes over the tokens of an earlier one it overlaps; C91_apart is the case without overlap."
  },
  {
   "property": "C92",
   "status": "partial",
   "theorems": [
    "Verif.C92_text",
    "Verif.C92_removing_repeats_text",
    "Verif.C92_containers",
    "Verif.C92_removed"
   ],
   "note": "Violated if references or affiliations without tags are to be removed (C92_removing_repeats_text) and for several containers with text. C92_removed and C92_containers give the text written in these cases, and when it is the text of the source file."
  },
  {
   "property": "C93",
   "status": "partial",
   "theorems": [
    "Verif.C93_minimum_partial",
    "Verif.C93_gap_ignored",
    "Verif.C93_ratio_fails",
    "Verif.C93_tools_fail"
   ],
   "note": "Only the minimum number is respected: the gap is ignored (C93_gap_ignored) and a ratio makes the tools fail (C93_ratio_fails, C93_tools_fail)."
  },
  {
   "property": "C94",
   "status": "proved",
   "theorems": [
    "Verif.C94_own_field"
   ],
   "note": ""
  },
  {
   "property": "C95",
   "status": "partial",
   "theorems": [
    "Verif.C95_lines",
    "Verif.C95_attributes_lost",
    "Verif.C95_name_space_breaks_lost"
   ],
   "note": "Lines are kept (C95_lines), unless tags ask for line break elements; attributes of the container are lost (C95_lines, C95_attributes_lost), and so are line breaks in files with a name space (C95_name_space_breaks_lost)."
  },
  {
   "property": "C96",
   "status": "proved",
   "theorems": [
    "Verif.C96_labels",
    "Verif.C96_nothing_preserved",
    "Verif.C96_annotated_fields_cleared"
   ],
   "note": ""
  },
  {
   "property": "C97",
   "status": "partial",
   "theorems": [
    "Verif.C97_segmentation",
    "Verif.C97_kept_partial",
    "Verif.C97_line_numbers_overwrite",
    "Verif.C97_line_numbers_exact",
    "Verif.C97_segmentation_overwrites"
   ],
   "note": "Proved for the tools other than segmentation without line numbers, if names of target annotations are not empty and do not begin like a prefix (C97_kept_partial). With line numbers exactly the tokens found as line numbers lose their label (C97_line_numbers_exact, C97_line_numbers_overwrite). Violated by segmentation (C97_segmentation_overwrites), where matching keeps the label and it is lost only if the whole line gets one label (C97_segmentation)."
  },
  {
   "property": "C98",
   "status": "partial",
   "theorems": [
    "Verif.C98_passes",
    "Verif.C98_any_order",
    "Verif.C98_failure_depends_on_order"
   ],
   "note": "Passing is proved for all documents and orders (C98_passes, C98_any_order). How a document fails depends on the order of a set: C98_failure_depends_on_order."
  },
  {
   "property": "C99",
   "status": "proved",
   "theorems": [
    "Verif.C99_fulltext"
   ],
   "note": ""
  },
  {
   "property": "C100",
   "status": "proved",
   "theorems": [
    "Verif.C100_found",
    "Verif.C100_extended",
    "Verif.C100_segmenting_tools",
    "Verif.C100_fulltext"
   ],
   "note": "The search itself is described by C36, C61 and C63. C100_segmenting_tools and C100_fulltext state the property for the tools which do not extend labels to lines."
  },
  {
   "property": "C101",
   "status": "proved",
   "theorems": [
    "Verif.C101_fields",
    "Verif.C101_options",
    "Verif.C101_errors",
    "Verif.C101_independent",
    "Verif.C101_other_sections"
   ],
   "note": "int, str.lower and re.compile are parameters. Options are also taken from the sections for other kinds of documents (C101_other_sections)."
  },
  {
   "property": "C102",
   "status": "proved",
   "theorems": [
    "Verif.C102_succeeds",
    "Verif.C102_document",
    "Verif.C102_read_unique",
    "Verif.C102_references",
    "Verif.C102_reference_kept",
    "Verif.C102_ids",
    "Verif.C102_no_line",
    "Verif.C102_one_bad_reference"
   ],
   "note": "etree.parse and etree.tostring are parameters. No reference contains another one (C102_references)."
  },
  {
   "property": "C103",
   "status": "partial",
   "theorems": [
    "Verif.C103_outcome_partial",
    "Verif.C103_untouched",
    "Verif.C103_progress",
    "Verif.C103_terminates",
    "Verif.C103_outputs",
    "Verif.C103_base",
    "Verif.C103_sources",
    "Verif.C103_overwritten",
    "Verif.C103_order_matters",
    "Verif.C103_bare_list_fails",
    "Verif.C103_repaired_partial"
   ],
   "note": "Proved for outputs that are no sources and different files, which holds if no source is below the output path (C103_outputs). The code violates the rest: the assertion compares paths and not files, and outputs of an earlier run may be taken as sources. relative_path, load_file_list and find_matching_filenames are parameters."
  },
  {
   "property": "C104",
   "status": "proved",
   "theorems": [
    "Verif.C104_found",
    "Verif.C104_tools",
    "Verif.C104_characters"
   ],
   "note": "The alignment library is a parameter. How lines follow each other is C86."
  },
  {
   "property": "C105",
   "status": "partial",
   "theorems": [
    "Verif.C105_round_trip",
    "Verif.C105_tools",
    "Verif.C105_list_item_becomes_list",
    "Verif.C105_untagged_becomes_body"
   ],
   "note": "Proved for every mapping and document whose tags can be told apart by their paths (C105_round_trip) and thereby for all tools with their main tags (C105_tools), except list items of the full text tool, read back as lists (C105_list_item_becomes_list), and text without a tag of the segmentation tool, read back as body (C105_untagged_becomes_body)."
  },
  {
   "property": "C106",
   "status": "partial",
   "theorems": [
    "Verif.C106_entities",
    "Verif.C106_tools",
    "Verif.C106_foreign_sub_tag_splits_entity"
   ],
   "note": "Proved for every mapping and document whose tags can be told apart by their paths and whose sub tags belong inside the main element (C106_entities), and thereby for all tools (C106_tools, with the exceptions of C105). A sub tag that does not belong inside the main element splits the entity (C106_foreign_sub_tag_splits_entity)."
  },
  {
   "property": "C107",
   "status": "proved",
   "theorems": [
    "Verif.C107_sub_pattern",
    "Verif.C107_pattern",
    "Verif.C107_pattern_refused",
    "Verif.C107_target",
    "Verif.C107_tools",
    "Verif.C107_different",
    "Verif.C107_unmatched",
    "Verif.C107_fixed_copy",
    "Verif.C107_sed_pattern"
   ],
   "note": "re.sub is modelled for expressions of the form (.*)SUFFIX with plain text and dots; for others it is a parameter. C107_sub_pattern: the unfolded substitution is re.sub with the expression (.*)SUFFIX, for each suffix of plain characters and dots that is not empty."
  },
  {
   "property": "C108",
   "status": "proved",
   "theorems": [
    "Verif.C108_pattern",
    "Verif.C108_paths",
    "Verif.C108_tag_paths",
    "Verif.C108_fields",
    "Verif.C108_field_note",
    "Verif.C108_note_without_namespace"
   ],
   "note": "One name space, as used by the tools. A field without a path is written to a note outside the name space (C108_note_without_namespace). C108_pattern: prefixes are replaced as re.sub with the expression of the code does it, for a name that starts with a word character."
  },
  {
   "property": "C109",
   "status": "partial",
   "theorems": [
    "Verif.C109_tokens",
    "Verif.C109_lines",
    "Verif.C109_labels",
    "Verif.C109_loaded_whole",
    "Verif.C109_loaded_apart",
    "Verif.C109_tools",
    "Verif.C109_tokens_merged",
    "Verif.C109_empty_last_line_dropped"
   ],
   "note": "Proved for documents whose tokens meet at token boundaries, which is proved for files with text and line breaks only, and whose last line has a token. Otherwise the statement is false: an element within a word makes two tokens that are merged on saving (C109_tokens_merged), and a final line without tokens is dropped (C109_empty_last_line_dropped)."
  },
  {
   "property": "C110",
   "status": "partial",
   "theorems": [
    "Verif.C110_exact",
    "Verif.C110_unchanged",
    "Verif.C110_removed",
    "Verif.C110_name",
    "Verif.C110_attributes",
    "Verif.C110_again"
   ],
   "note": "A well-formed file is changed if the start tag has attributes or white space (C110_attributes), since only the exact text `<content>` is looked for; C110_exact says which files are copied unchanged."
  },
  {
   "property": "C111",
   "status": "partial",
   "theorems": [
    "Verif.C111_total",
    "Verif.C111_single",
    "Verif.C111_found",
    "Verif.C111_only_sources",
    "Verif.C111_limit_never_passed",
    "Verif.C111_resume_stuck"
   ],
   "note": "The last sentence is false: the limit is applied before files with an output are dropped, so that files beyond the limit are never processed (C111_limit_never_passed) and further runs do nothing (C111_resume_stuck). The rest is proved for all histories. The first files found up to the limit are given by a library."
  },
  {
   "property": "C112",
   "status": "partial",
   "theorems": [
    "Verif.C112_save_again",
    "Verif.C112_stable",
    "Verif.C112_tools",
    "Verif.C112_tools_flat",
    "Verif.C112_sub_tag_lost",
    "Verif.C112_space_moved",
    "Verif.C112_line_break_lost"
   ],
   "note": "Proved for documents whose last line is not empty, whose sub labels belong to their main labels and start a new element or continue the text before in the same line (as in C125), and, where an element lies inside another element (header, reference segmenter), whose entities start with the begin prefix (all labels set by the tools have it). Without these conditions the property is false: C112_sub_tag_lost, C112_line_break_lost, C112_space_moved."
  },
  {
   "property": "C113",
   "status": "proved",
   "theorems": [
    "Verif.C113_types",
    "Verif.C113_only_types"
   ],
   "note": "The conversion to lower case is a parameter with the facts `Lowercase`."
  },
  {
   "property": "C114",
   "status": "partial",
   "theorems": [
    "Verif.C114_forms_partial",
    "Verif.C114_file_partial",
    "Verif.C114_identifiers_partial",
    "Verif.C114_dois_partial",
    "Verif.C114_plain",
    "Verif.C114_nested_identifiers"
   ],
   "note": "Proved for references without identifiers inside of identifiers; with them it is false: C114_nested_identifiers. C114_forms_partial: with the regular expressions of the code, the form of DOIs, PMIDs, PMCIDs and PIIs. C114_file_partial: for the document written for a file."
  },
  {
   "property": "C115",
   "status": "proved",
   "theorems": [
    "Verif.C115_doi_link",
    "Verif.C115_split",
    "Verif.C115_shortened",
    "Verif.C115_target",
    "Verif.C115_pattern",
    "Verif.C115_spaces_pattern"
   ],
   "note": " C115_pattern, C115_spaces_pattern: URLs are found and white space is removed as with the expressions of the code."
  },
  {
   "property": "C116",
   "status": "proved",
   "theorems": [
    "Verif.C116_own_text",
    "Verif.C116_texts",
    "Verif.C116_no_patterns",
    "Verif.C116_pattern",
    "Verif.C116_parts"
   ],
   "note": "XPath and regular expressions are parameters."
  },
  {
   "property": "C117",
   "status": "proved",
   "theorems": [
    "Verif.C117_read",
    "Verif.C117_only",
    "Verif.C117_comment",
    "Verif.C117_lower_case"
   ],
   "note": "Python's ConfigParser is modelled, not parsed from the repository's code."
  },
  {
   "property": "C118",
   "status": "proved",
   "theorems": [
    "Verif.C118_expansion",
    "Verif.C118_mapping",
    "Verif.C118_plain",
    "Verif.C118_segmentation"
   ],
   "note": "Reading of numbers and lists is a parameter."
  },
  {
   "property": "C119",
   "status": "partial",
   "theorems": [
    "Verif.C119_mapping",
    "Verif.C119_segmentation_valid",
    "Verif.C119_fields",
    "Verif.C119_elements",
    "Verif.C119_sub_elements",
    "Verif.C119_sub_elements_reference",
    "Verif.C119_sub_elements_segmenter",
    "Verif.C119_sub_fields",
    "Verif.C119_distinct",
    "Verif.C119_header_distinct",
    "Verif.C119_segmentation",
    "Verif.C119_segments",
    "Verif.C119_list_bibl",
    "Verif.C119_identifiers",
    "Verif.C119_address",
    "Verif.C119_address_elements",
    "Verif.C119_tei_elements",
    "Verif.C119_cross_references",
    "Verif.C119_all_cross_references"
   ],
   "note": "Fails for the segment `listBibl` (C119_list_bibl); proved otherwise."
  },
  {
   "property": "C120",
   "status": "proved",
   "theorems": [
    "Verif.C120_nothing_left",
    "Verif.C120_parse",
    "Verif.C120_parse_ok",
    "Verif.C120_url_slash"
   ],
   "note": "Temporary directories are assumed to be new; faults depend on the path and data only. A URL ending with a slash always fails (C120_url_slash)."
  },
  {
   "property": "C121",
   "status": "proved",
   "theorems": [
    "Verif.C121_result",
    "Verif.C121_only_output",
    "Verif.C121_success"
   ],
   "note": "Reads the source by way of the model of C120; the repair is that of C102."
  },
  {
   "property": "C122",
   "status": "proved",
   "theorems": [
    "Verif.C122_block_begins",
    "Verif.C122_block_stays",
    "Verif.C122_not_before"
   ],
   "note": "States what one round of the annotator does; values left over are looked for again in the next round (C63)."
  },
  {
   "property": "C123",
   "status": "partial",
   "theorems": [
    "Verif.C123_kept_partial",
    "Verif.C123_exact",
    "Verif.C123_replaced",
    "Verif.C123_neighbours_lost"
   ],
   "note": "Proved for tokens on whose line no token with the same sub label gets a new one (C123_kept_partial). Otherwise violated: sub labels are replaced where sub annotations are found (C123_replaced), and other tokens of the line lose theirs (C123_neighbours_lost). C123_exact: for figures and tables the sub label of a token is kept exactly if it gets no new one and no word on its line which had the same sub label gets one of another field."
  },
  {
   "property": "C124",
   "status": "partial",
   "theorems": [
    "Verif.C124_found",
    "Verif.C124_first",
    "Verif.C124_exact",
    "Verif.C124_missing_partial",
    "Verif.C124_predicates"
   ],
   "note": "Proved where all starts of the path are valid (C124_found, C124_first, C124_missing_partial). Violated if a predicate contains a slash (C124_predicates). C124_exact: for any path, the longest start for which the evaluation finds something or fails decides."
  },
  {
   "property": "C125",
   "status": "partial",
   "theorems": [
    "Verif.C125_begins",
    "Verif.C125_exact",
    "Verif.C125_round_trip",
    "Verif.C125_entities",
    "Verif.C125_tools",
    "Verif.C125_begin_added",
    "Verif.C125_title_in_two_lines",
    "Verif.C125_foreign_sub_tag_lost"
   ],
   "note": "C125_begins gives the sub label of every character after saving and loading and where it has the begin prefix, for all documents whose main labels can be told apart; C125_exact without the begin prefix. C125_round_trip and C125_tools: all sub labels are kept if text with a sub label starts a new element or continues the text before in the same line; C125_entities: the begin prefixes are kept if they are exactly where an element starts. Violated otherwise: behind a line break a sub label without begin prefix is lost (C125_title_in_two_lines), as is a sub label that does not belong to the main label (C125_foreign_sub_tag_lost); a missing begin prefix is added (C125_begin_added)."
  },
  {
   "property": "C126",
   "status": "proved",
   "theorems": [
    "Verif.C126_range",
    "Verif.C126_one_chunk",
    "Verif.C126_in_turn",
    "Verif.C126_spelled",
    "Verif.C126_first",
    "Verif.C126_tool"
   ],
   "note": "C126_range gives the range found, C126_in_turn the labels when the turn of a target annotation comes, C126_first the case that nothing was found for those before it, C126_tool the written document of the tools; C126_spelled tells that neighbouring tokens with the label spell the value. For a text of at most 1000 characters without white space nothing but literal occurrences is accepted (onlyLiteral_short). The matchers (Smith-Waterman and difflib) are assumed to find literal occurrences. C126_one_chunk: when values which may be found in several chunks are found as one."
  },
  {
   "property": "C127",
   "status": "partial",
   "theorems": [
    "Verif.C127_match_partial",
    "Verif.C127_in_turn_partial",
    "Verif.C127_first_partial",
    "Verif.C127_tool_partial",
    "Verif.C127_shifted",
    "Verif.C127_references_partial",
    "Verif.C127_etal_partial"
   ],
   "note": "Proved where lower case letters are as long as the letters (C127_match_partial for a match, C127_in_turn_partial and C127_first_partial for annotating, C127_tool_partial for the written document). Otherwise violated: another word gets the sub label (C127_shifted). C127_tool_partial covers the tools for figures, tables and affiliations. C127_references_partial: the tool for references, without 'et al'. C127_etal_partial: 'et al' gets its own label or that of authors or editors."
  },
  {
   "property": "C128",
   "status": "proved",
   "theorems": [
    "Verif.C128_annotated",
    "Verif.C128_written"
   ],
   "note": "Shown by C128_annotated for the labels and by C128_written for the file written. Labels not to be kept: those of the fields annotated, or all with --no-preserve-tags (keepsNothing_noneKept)."
  },
  {
   "property": "C129",
   "status": "partial",
   "theorems": [
    "Verif.C129_again_partial",
    "Verif.C129_settles_partial",
    "Verif.C129_plain_partial",
    "Verif.C129_tool_labels",
    "Verif.C129_text_grows",
    "Verif.C129_kept_field_found_again"
   ],
   "note": "Proved for source files in which no element starts or ends within a word, no line but the last ends with white space and the last line is not empty (C129_again_partial); otherwise the second file is the one that stays (C129_settles_partial), as white space moves to the next line. Violated if references without tags are removed: the text doubles with each run (C129_text_grows). With a field to be always preserved a second run may label another occurrence (C129_kept_field_found_again)."
  },
  {
   "property": "C130",
   "status": "proved",
   "theorems": [
    "Verif.C130_separate",
    "Verif.C130_depends",
    "Verif.C130_paths",
    "Verif.C130_document",
    "Verif.C130_source",
    "Verif.C130_run",
    "Verif.C130_resumed",
    "Verif.C130_alone",
    "Verif.C130_text",
    "Verif.C130_same_name"
   ],
   "note": "C130_run is the statement about all files; C130_depends, C130_alone, C130_resumed, C130_text and C130_paths the others. It takes that no output is also read as source or target file and that the source files have different names (C130_separate: exactly then their outputs are different files; C130_same_name: otherwise the result depends on the schedule). Parsing and serialising XML are parameters. The temporary copies of two tools are assumed to exist until they are read, see C18."
  },
  {
   "property": "C131",
   "status": "proved",
   "theorems": [
    "Verif.C131_paths",
    "Verif.C131_checks",
    "Verif.C131_document",
    "Verif.C131_run",
    "Verif.C131_segmentation",
    "Verif.C131_fields",
    "Verif.C131_segmentation_failure"
   ],
   "note": "C131_document (one document) and C131_run (a whole run); C131_paths and C131_checks for the two places where the code iterates over the sets, C131_fields for the options they are read from. For the tool for segmentation with checks only which documents pass and what is written for them is independent of the order (C131_segmentation); whether a document that does not pass is saved or raises KeyError is not (C131_segmentation_failure)."
  },
  {
   "property": "C132",
   "status": "proved",
   "theorems": [
    "Verif.C132_sub_fields",
    "Verif.C132_defaults",
    "Verif.C132_defaults_all",
    "Verif.C132_segmentation",
    "Verif.C132_no_merge",
    "Verif.C132_options",
    "Verif.C132_labels",
    "Verif.C132_mapping",
    "Verif.C132_only_listed",
    "Verif.C132_header_keeps"
   ],
   "note": "C132_options (what the option texts select, with the default of each tool), C132_mapping (exactly which mapping entries are used), C132_labels (labels and sub labels of the annotated document of a run), C132_only_listed (corollary without labels of the source file). C132_header_keeps: the header tool without --fields annotates all fields of the mapping but also keeps the labels of all fields of the source file. Labels are compared without a prefix b- or i- (oneOf: a field whose own name begins with such a prefix occurs without it). C132_defaults, C132_defaults_all (the default fields), C132_segmentation, C132_no_merge (the options of the segmentation tool). The documents of C132_labels, C132_only_listed and C132_no_merge are those in the source and target files. C132_sub_fields: which tools use the option for sub fields."
  },
  {
   "property": "C133",
   "status": "proved",
   "theorems": [
    "Verif.C133_range",
    "Verif.C133_in_turn",
    "Verif.C133_first",
    "Verif.C133_one_group",
    "Verif.C133_each",
    "Verif.C133_tool",
    "Verif.C133_far_left_out"
   ],
   "note": "C133_range (the range found), C133_in_turn and C133_first (annotating a document, as in C126), C133_one_group and C133_each (places close together: each value is labelled), C133_tool (the document which is written). C133_far_left_out: a value far from the others is not labelled although it occurs literally."
  },
  {
   "property": "C134",
   "status": "proved",
   "theorems": [
    "Verif.C134_written",
    "Verif.C134_read_back",
    "Verif.C134_read_back_many"
   ],
   "note": "C134_written (the labels read back are those given), C134_read_back (one value), C134_read_back_many (lists of values)."
  },
  {
   "property": "C135",
   "status": "proved",
   "theorems": [
    "Verif.C135_labels",
    "Verif.C135_entities",
    "Verif.C135_shipped",
    "Verif.C135_other_lost",
    "Verif.C135_slash_fails"
   ],
   "note": "C135_labels, C135_entities (for all documents), C135_shipped (the shipped fields meet the conditions). C135_other_lost and C135_slash_fails show that the conditions on names are needed: with a field `other` unlabelled text is read back with this label, and text of a field with a slash in its name cannot be saved."
  },
  {
   "property": "C136",
   "status": "proved",
   "theorems": [
    "Verif.C136_run",
    "Verif.C136_header",
    "Verif.C136_listed"
   ],
   "note": "C136_run (any options whose fields can be read back), C136_header (the header tool without --fields and the shipped mapping), C136_listed (any tool that labels by matching, with listed fields of the tool)."
  },
  {
   "property": "C137",
   "status": "partial",
   "theorems": [
    "Verif.C137_same_result",
    "Verif.C137_search",
    "Verif.C137_searches",
    "Verif.C137_first_rows",
    "Verif.C137_file",
    "Verif.C137_details",
    "Verif.C137_last_document"
   ],
   "note": "C137_same_result, C137_search, C137_searches, C137_file, C137_details, C137_first_rows hold for every document. The last sentence does not hold: a reporter is made for each document, which opens the file again, so if opening empties the file only the rows of the last document are left (C137_last_document)."
  },
  {
   "property": "C138",
   "status": "proved",
   "theorems": [
    "Verif.C138_patterns",
    "Verif.C138_file",
    "Verif.C138_all_repaired"
   ],
   "note": "C138_file and C138_all_repaired; the condition on DOI annotations is needed, see C80. Reading and writing XML and the regular expressions are parameters. C138_patterns: for the regular expressions of the code."
  },
  {
   "property": "C139",
   "status": "proved",
   "theorems": [
    "Verif.C139_unchanged",
    "Verif.C139_file",
    "Verif.C139_file_total",
    "Verif.C139_again"
   ],
   "note": "C139_unchanged, C139_file, C139_file_total. Missing texts may become empty texts, which are written the same (`shown`). A repaired reference need not be one with nothing to fix: C139_again."
  },
  {
   "property": "C140",
   "status": "proved",
   "theorems": [
    "Verif.C140_layout",
    "Verif.C140_words",
    "Verif.C140_read_back",
    "Verif.C140_outside"
   ],
   "note": "C140_layout, C140_words, C140_read_back. XSLT selection and positions are modelled as lists in document order. Words outside of a line are lost: C140_outside."
  },
  {
   "property": "C141",
   "status": "proved",
   "theorems": [
    "Verif.C141_all",
    "Verif.C141_exact",
    "Verif.C141_tool",
    "Verif.C141_read_back",
    "Verif.C141_run",
    "Verif.C141_header"
   ],
   "note": "C141_all, C141_exact, C141_tool, C141_read_back, C141_run, C141_header (from the options and files; for the header tool with the shipped mapping and default fields), with examples: for values which occur literally (condition of C126) and whose places are determined; values of lists are C133, sub labels C127."
  },
  {
   "property": "C142",
   "status": "proved",
   "theorems": [
    "Verif.C142_segments_back",
    "Verif.C142_shipped",
    "Verif.C142_run",
    "Verif.C142_command_line"
   ],
   "note": "C142_segments_back, C142_run, C142_command_line (from the options and files; with the shipped mapping, segments and default fields), C142_shipped (the conditions on the segments hold for the shipped configuration and the default fields if references are merged), with example."
  },
  {
   "property": "C143",
   "status": "proved",
   "theorems": [
    "Verif.C143_file",
    "Verif.C143_run"
   ],
   "note": "C143_file (one file), C143_run (after all schedules), with examples for the tools for full text and tables; which texts count as found is C28 and C98. The document checked is that in the source file."
  },
  {
   "property": "C144",
   "status": "proved",
   "theorems": [
    "Verif.C144_listed",
    "Verif.C144_default",
    "Verif.C144_edited",
    "Verif.C144_document",
    "Verif.C144_run",
    "Verif.C144_segmentation"
   ],
   "note": "C144_document, C144_run for command lines which select the same (SameCommand), if both can be read; C144_listed, C144_default and C144_edited say which option texts select the same fields. With the checks of the segmentation, for documents which pass (C144_segmentation), because of C131_segmentation_failure."
  },
  {
   "property": "C145",
   "status": "partial",
   "theorems": [
    "Verif.C145_among_partial",
    "Verif.C145_hidden"
   ],
   "note": "C145_among_partial: for other numbers which are greater than all line numbers, smaller and above all of them, repeat one further down, or are above the line number which is the next smaller one. Violated otherwise: a smaller number below, such as the number of the page at its bottom, hides all line numbers above it (C145_hidden)."
  },
  {
   "property": "C146",
   "status": "partial",
   "theorems": [
    "Verif.C146_sub_elements",
    "Verif.C146_sub_elements_references",
    "Verif.C146_read_back_partial",
    "Verif.C146_references_partial",
    "Verif.C146_first_line_partial",
    "Verif.C146_references_first_line_partial",
    "Verif.C146_two_lines"
   ],
   "note": "C146_read_back_partial: for values whose occurrences lie on one line, if the element of the sub label lies below that of the main label (as it does for the elements of the tools). Violated for values on two lines: when the file is loaded again, what is on the second line has lost the sub label (C146_two_lines). It covers the tools for figures, tables and affiliations. C146_references_partial: the tool for references, for sub labels which are not merged, extended or renamed. C146_first_line_partial, C146_references_first_line_partial: of values on several lines, what is on the first line is read back. C146_sub_elements, C146_sub_elements_references: the sub fields the tools annotate by default have elements for which this holds, but for 'et al' and the first and last page of references."
  },
  {
   "property": "C147",
   "status": "proved",
   "theorems": [
    "Verif.C147_run",
    "Verif.C147_nothing",
    "Verif.C147_default"
   ],
   "note": "C147_run: at each reachable state no copy has failed and nothing but outputs is changed, the run can be finished, and the final contents are those of the sources; C147_nothing: the errors before anything is copied; C147_default: without patterns it is enough that the names are different, the output directories differ and contain no source. The names needing to be different is C52_default_collision."
  },
  {
   "property": "C148",
   "status": "proved",
   "theorems": [
    "Verif.C148_run",
    "Verif.C148_file"
   ],
   "note": "C148_run: for a run of a tool on a document; C148_file: from the source file to the file written. The attributes of the container and the text following it are not kept (C95_attributes_lost)."
  },
  {
   "property": "C149",
   "status": "partial",
   "theorems": [
    "Verif.C149_doi",
    "Verif.C149_doi_link",
    "Verif.C149_pii_longest",
    "Verif.C149_doi_url",
    "Verif.C149_pmid",
    "Verif.C149_wos",
    "Verif.C149_number",
    "Verif.C149_pmcid",
    "Verif.C149_pii",
    "Verif.C149_pii_other",
    "Verif.C149_title",
    "Verif.C149_cut",
    "Verif.C149_pii_comma",
    "Verif.C149_number_before_label"
   ],
   "note": "C149_pmid, C149_wos, C149_number, C149_pmcid, C149_pii, C149_pii_other, C149_title, C149_cut: when something is found, and what. They are about the regular expressions of the code with a model of the matcher of `re` (Model/Regex). Violated for PIIs: a comma counts as their first letter (C149_pii_comma); a PMID annotation with another number before the label keeps that number (C149_number_before_label). C149_doi: the DOI found is the first in the text and goes on to the end of the line, and the function of JatsText used in the other theorems finds the same as the regular expression of the code; C149_doi_link: the DOI in brackets before which a text is cut; C149_doi_url: the prefixes removed from DOIs; C149_pii_longest: PIIs are as long as possible."
  },
  {
   "property": "C150",
   "status": "proved",
   "theorems": [
    "Verif.C150_search",
    "Verif.C150_prefix"
   ],
   "note": "C150_search: when the pattern of a sub tag is found and where, for the regular expressions of the code; C150_prefix: what becomes of the tokens, from C70_prefix. The character classes and the comparison of letters whatever the case are parameters."
  },
  {
   "property": "C151",
   "status": "partial",
   "theorems": [
    "Verif.C151_configured",
    "Verif.C151_heading",
    "Verif.C151_label",
    "Verif.C151_no_label",
    "Verif.C151_capital_label_missed",
    "Verif.C151_label_in_number",
    "Verif.C151_heading_labelled",
    "Verif.C151_label_labelled",
    "Verif.C151_tool_heading"
   ],
   "note": "C151_configured: which fields have a pattern in the configuration shipped, and which; C151_heading, C151_label, C151_no_label: what the patterns find, for the regular expressions of the code with a model of the matcher of `re`; the first such place if there are several. Violated for labels with capital letters, since only the text of the document is converted to lower case (C151_capital_label_missed); a label is also found at the end of a longer number (C151_label_in_number). C151_heading_labelled, C151_label_labelled: each token of the heading or label gets the label when the turn of the abstract or affiliation comes; C151_tool_heading: in the document written by the tools."
  },
  {
   "property": "C152",
   "status": "partial",
   "theorems": [
    "Verif.C152_kept",
    "Verif.C152_references",
    "Verif.C152_headers",
    "Verif.C152_fulltext",
    "Verif.C152_segmentation",
    "Verif.C152_neighbours_lost",
    "Verif.C152_segmentation_lost"
   ],
   "note": "C152_kept: for the tools for figures, tables and affiliations. Violated for references: C152_references states exactly which labels are kept there (references without tags not removed), C152_neighbours_lost that a word loses its label since another word on the line with the same label gets another one (also with the tool for headers). C152_headers: exactly which labels are kept by the tools for headers and for the segmentation of references (simple matcher, no line numbers). C152_fulltext: the tool for full texts keeps them if it gives no label to the token and, where labels are extended to lines, to the words on the line with the same label; it removes labels of other notes. C152_segmentation: segmentation keeps them on lines on which nothing is found and which get no label; otherwise they may be removed from lines without a label (C152_segmentation_lost)."
  },
  {
   "property": "C153",
   "status": "proved",
   "theorems": [
    "Verif.C153_normalised",
    "Verif.C153_complex_text",
    "Verif.C153_simple",
    "Verif.C153_complex",
    "Verif.C153_tool",
    "Verif.C153_sub_spelling",
    "Verif.C153_alternative_spelling"
   ],
   "note": "C153_normalised, C153_complex_text: what is compared. C153_simple, C153_complex: the document is the same. C153_tool: the same for the files written by the tools. It does matter how the values of sub annotations of the simple matcher are spelled (C153_sub_spelling), and those of fields with alternative spellings (C153_alternative_spelling)."
  },
  {
   "property": "C154",
   "status": "partial",
   "theorems": [
    "Verif.C154_part",
    "Verif.C154_missing",
    "Verif.C154_written",
    "Verif.C154_namespace_partial",
    "Verif.C154_namespace_iff"
   ],
   "note": "C154_part: which elements are read; C154_missing: documents without them; C154_written: the file written differs from the source file only inside of the first of these elements. C154_namespace_partial: the elements of the labels with a path in the configuration of a tool. Missing: fields without such a path are written to elements outside of the name space, so the last sentence does not hold for them; C154_namespace_iff says exactly when it holds."
  },
  {
   "property": "C155",
   "status": "proved",
   "theorems": [
    "Verif.C155_files",
    "Verif.C155_sources",
    "Verif.C155_run",
    "Verif.C155_apart",
    "Verif.C155_outputs",
    "Verif.C155_written",
    "Verif.C155_two_tools"
   ],
   "note": "C155_files: the names; C155_sources: with the directory; C155_run: the source files of a run; C155_apart: no file of two tools; C155_outputs: the files written. With .tei.xml in two places a file can be one of two tools (C155_two_tools). C155_written: the files written are files of the same tool."
  }
 ]
}