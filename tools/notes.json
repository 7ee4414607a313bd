{
 "C01": [
  "proved",
  "Exact characterisation: the round trip holds for every tag except the bare prefixes 'b-' and 'i-'."
 ],
 "C02": [
  "proved",
  "Levels are None or natural numbers."
 ],
 "C03": [
  "partial",
  "The merge fails exactly if the texts of corresponding tokens differ; a document that is longer or shorter is not detected by the code (zip): C03_length_mismatch_not_detected."
 ],
 "C10": [
  "partial",
  "Violated for several containers (C10_several_containers_duplicate_text). C10_written gives the text written for any document and C10_exact says when it is the same: if and only if the containers after the first have no text."
 ],
 "C09": [
  "partial",
  "Violated for sub tags which are ignored: their begin prefix starts a new main element (C09_ignored_sub_tag_splits_element). C09_exact says for all text when the main element and the innermost element of the previous text are continued (if and only if)."
 ],
 "C07": [
  "proved",
  "Up to white space at the end of a line, which the code writes behind the line break; tags asking for lb elements excluded."
 ],
 "C13": [
  "partial",
  "Violated by the code for documents with more than one line (C13_tokens_duplicated). C13_exact gives the exact result for all documents, with C13_text_stays; the partial theorems say what holds of the property."
 ],
 "C56": [
  "partial",
  "Violated for empty values, line feeds in values and slashes outside of braces (C56_empty_value, C56_slash_in_value). C56_round_trip_exact and C56_path_round_trip_exact say exactly for which expressions and paths the round trip holds. C56_pattern: the parser is the regular expression of the code with its groups. C56_split_pattern: paths are split at the matches of the expression of the code, with its condition on the text behind."
 ],
 "C59": [
  "partial",
  "C59_sub_tags gives the sub tags of all tokens exactly. The property holds where no tagged element nested in a tagged element has elements in it (C59_own_sub_tag_partial); it is violated by line breaks and other nested elements (C59_sub_tag_lost_after_line_break)."
 ],
 "C14": [
  "proved",
  "C14_preserving_a_field_drops_others shows a surprising consequence: naming one preserved field removes all other tags."
 ],
 "C15": [
  "proved",
  "Loading, annotators, checks and serialising are parameters that may raise."
 ],
 "C23": [
  "proved",
  "Exact effect on each token; tokens of the document distinct, which holds for every loaded document (C23_tokens_distinct)."
 ],
 "C24": [
  "partial",
  "C24_exact says exactly what replacing tags does for every document: which tokens get the tag in the table, which labels of the source file are removed. The property itself holds if replaced tokens have no preserved tags (C24_replaced_partial) and is violated otherwise (C24_preserved_tags_lost)."
 ],
 "C25": [
  "proved",
  "Exact effect on each token."
 ],
 "C34": [
  "partial",
  "Violated for documents with current main tags which are not preserved ones (C34_current_tags_lost). C34_exact gives the main tags of the result for every document and says when they are the same; proved for documents as after loading and clearing (C34_main_tags_kept_partial, C34_sub_tags_only, C94_own_field)."
 ],
 "C26": [
  "proved",
  "int() is a parameter; the threshold is a rational number. Soundness, completeness for a single sequence and effect on the document."
 ],
 "C27": [
  "proved",
  "Exact list of entities, with the properties of a partition into maximal runs."
 ],
 "C28": [
  "proved",
  "Levenshtein ratio is a parameter; exact condition for passing and for errors."
 ],
 "C42": [
  "proved",
  "Lists are objects in a heap, so that leaving the default unmodified is a statement about the model."
 ],
 "C43": [
  "partial",
  "C43_entries, C43_sections, C43_fields and C43_overrides describe the filters for all mappings. The property fails for options of a selected sub field: C43_sub_field_option_dropped."
 ],
 "C60": [
  "proved",
  ""
 ],
 "C37": [
  "proved",
  "For the scores of core/annotation/fuzzy_match.py, as exact fractions."
 ],
 "C53": [
  "partial",
  "C53_split_a_partial and C53_split_b_partial: counts, positions and the first part, and the second part when no block crosses the split. C53_split_a_pairs and C53_split_b_pairs say exactly which positions the parts pair for any blocks; C53_crossing_block_misaligned shows that the property fails for a crossing block."
 ],
 "C54": [
  "partial",
  "C54_exact says what is covered for all sorted ranges. It is the complement for ranges which start within the given range (C54_complement_partial, as all callers have them); C54_range_before_start shows that it fails otherwise."
 ],
 "C55": [
  "proved",
  ""
 ],
 "C35": [
  "proved",
  "View, recorded indices and original text agree for every junk predicate."
 ],
 "C36": [
  "proved",
  "Order and disjointness for every matcher with a positive threshold; number of matches bounded by the length; every match is the one found from the end of the previous one on and the iteration only ends at the end, on failure or when nothing is found."
 ],
 "C38": [
  "partial",
  "Termination (with the bound on rounds and independence from it), window coverage and the first accepted window for a single chunk are proved. Chunk mode: the first chunk is reported at its position in the window (C38_chunk_misplaced), so the position claim does not hold there; acceptance uses positions of the window in the text of the haystack (C38_score_of_other_text)."
 ],
 "C61": [
  "proved",
  "Single chunk mode; the external matchers are assumed to return consistent blocks of equal elements."
 ],
 "C62": [
  "proved",
  "difflib is external: assumed to return consistent blocks of equal words."
 ],
 "C39": [
  "partial",
  "Without padding (no caller passes any) text and ranges are proved for every list of items, separator and white space list; with padding the ranges are wrong (C39_padding_wrong)."
 ],
 "C40": [
  "proved",
  "Positions may be negative or beyond the text."
 ],
 "C41": [
  "proved",
  "Pending sequences contain exactly the untagged non-space tokens of the given sequences, in order; the limit cuts the number of sequences."
 ],
 "C19": [
  "proved",
  "For all matchers, regular expressions and configurations (C19_text_and_sub_tags, C19_never_overwrites without extension to lines, C19_keeps_values with it). C19_preserved_fields composes this with the preparation of documents (C14)."
 ],
 "C20": [
  "proved",
  "The tokens are those untagged tokens whose characters overlap the match in the text built from the token sequences; sequences are not empty and no token occurs twice, which holds for those taken from a document."
 ],
 "C21": [
  "proved",
  "Termination for every matcher, with a bound on the number of rounds; left over target annotations are not found in the final text."
 ],
 "C22": [
  "proved",
  "For every list of line tags and configuration, and for whole documents (C22_document). Tags are proper: not empty, with a value which is not empty, as written by the annotators."
 ],
 "C57": [
  "proved",
  "C57_merge, C57_select and C57_select_none. The length of a group is measured up to the end of its last range in order, as in the statement; where an earlier range in the group ends later, the selected group need not be the one that covers most (C57_longest_wrong)."
 ],
 "C63": [
  "proved",
  "The matchers (difflib and the external alignment library) are parameters: assumed to return consistent aligned blocks and, where the needle occurs in the haystack, one block covering the needle (difflib's autojunk heuristic is not modelled). C63_literal_found covers values with a single text and one chunk per match, C63_literal_chunks and C63_nothing_missed values with a single text and any number of chunks."
 ],
 "C64": [
  "proved",
  "re.search and re.escape are parameters. Quantifiers such as {2} are taken for placeholders (C64_quantifier_replaced). C64_pattern: placeholders are replaced as re.sub with the expression of the code does it."
 ],
 "C65": [
  "proved",
  "Assumes that re.search returns a start within the text."
 ],
 "C66": [
  "proved",
  "The search for the ranges itself is covered by C61/C62."
 ],
 "C29": [
  "partial",
  "C29_labels states exactly which label each line gets through all stages, for both values of preserve_tags; C29_one_label: one label on all tokens, from the configuration or the fixed ones. The exception is real: a line whose majority tag is not mapped keeps its mixed tags (C29_unmapped_mixed)."
 ],
 "C30": [
  "proved",
  "Exact effect of merge_lines, including the lines behind the last block, which only the annex takes."
 ],
 "C31": [
  "partial",
  "Exactly which lines are found (C31_found), their consistency with the numbers known before and completeness for increasing numbers. The numbers found are not always increasing and may repeat the previous one (witnesses); preserved page numbers are not recognised because of their prefix. C31_pattern, C31_header_pattern: the tests for page numbers and page headers are the regular expressions of the code."
 ],
 "C32": [
  "proved",
  "Exactly which lines become page headers. Labelled lines with such a text are overwritten too (witness)."
 ],
 "C67": [
  "proved",
  "Exact."
 ],
 "C33": [
  "proved",
  "For loaded (and annotated) documents with proper sub tags: text, main tags and preserved main tags unchanged, one sub tag per token in each step, tagged tokens stay tagged, exact values (name mapped four times, or a value merged with 'et al'), total if each enabled prefix value has a pattern. Chained or swapped names in the map give surprising results (witnesses). C33_kept: sub labels which are neither mapped nor merged nor extended stay exactly as they are."
 ],
 "C68": [
  "proved",
  "Exact for runs behind a run to be merged, kept otherwise; all other tags kept."
 ],
 "C69": [
  "proved",
  "Exact new tags of each untagged run behind a tagged run; everything else kept."
 ],
 "C70": [
  "proved",
  "Exact new tags of an untagged run and the run behind it, given the search function; no gap and gap at the end: unchanged; exact condition for KeyError. Regular expressions are a parameter."
 ],
 "C71": [
  "proved",
  "The runs are specified by takeWhile/dropWhile on the main tags; locality proved for pairs of documents."
 ],
 "C72": [
  "proved",
  "Specialises the theorems about extending tags (C22) to the options used for references."
 ],
 "C44": [
  "proved",
  "The HTML parser of the standard library is external: the theorem is about the events it reports, output and escaping are modelled character by character. Balanced and complete, not necessarily a single root; an attribute without value makes the repair fail."
 ],
 "C73": [
  "partial",
  "The first two rules are proved for all event sequences; for the third the code leaves the element itself open, which is proved in general (C73_outer_end_closes_inner) and shown to differ from the property by a witness."
 ],
 "C45": [
  "proved",
  "Equality with an independent one-pass specification; idempotence and normal form follow. The loop bound of the model is proved to be sufficient."
 ],
 "C74": [
  "partial",
  "C74_exact says exactly which characters the parts have. All but white space is kept if each match is followed by white space, the next match or the end (C74_parts_complete_partial); otherwise the character following a match is dropped (C74_character_lost)."
 ],
 "C46": [
  "proved",
  "annotation/target_annotation.py is modelled completely; evaluation of XPath expressions, regular expressions, JSON and int parsing are parameters. What is found for an element is described by Spec.GroupOf and Spec.FoundIn."
 ],
 "C75": [
  "partial",
  "All parts are proved for all trees except that words never run together, which needs that no text contains a line feed; a witness shows it fails otherwise. C75_exact says where spaces are added. C75_exact_excluding: the exact text with excluded elements, for elements without empty texts. C75_pattern: the tests for words are the regular expressions of the code."
 ],
 "C76": [
  "partial",
  "Proved for direct parents; an element containing another selected element further inside is kept (witness). C76_once_iff says exactly when no text is used twice."
 ],
 "C77": [
  "proved",
  "For mappings with distinct keys, which Python dictionaries are."
 ],
 "C78": [
  "proved",
  "Int parsing is a parameter. That annotations carry the options of their field is part of C46_order (Spec.GroupOf)."
 ],
 "C79": [
  "proved",
  "XPath evaluation, text functions of sciencebeam_utils and int parsing are parameters. Completeness is stated for selected children without selected children of their own (parents of others contribute their immediate text)."
 ],
 "C47": [
  "partial",
  "Regular expressions other than the one for DOIs are parameters, with those of the code in C47_patterns; XML comments are not modelled. Proved for all references: no character is added or duplicated; six of the seventeen steps keep the text always; the others keep it unless they meet an element described by Spec.safeAt. For the rest the property is false: C47_tail_lost, C47_inner_text_lost, C47_text_moved, C47_link_text_moved, C47_comment_text_moved."
 ],
 "C48": [
  "partial",
  "The pattern of truncating tokens is a parameter that cuts at white space or a bracket. That the DOI contains no URL and no duplicate is false in general: C48_url_inside, C48_duplicate_left; duplicates that are part of the text before them are removed (C48_duplicate_removed). C48_repetition and C48_pii say what is removed at a repetition and at a PII. C48_removed_pattern: what is removed before comparing parts is what the expressions of the code match."
 ],
 "C49": [
  "partial",
  "Proved for the text of a title (find_article_title_start_end). The handling of quotes on elements violates the property: C49_only_opening_removed, C49_only_closing_removed. C49_element_quotes and C49_element_comma say when they are moved out correctly."
 ],
 "C50": [
  "proved",
  ""
 ],
 "C80": [
  "partial",
  "Proved that the only failing step is the replacement of DOIs by links, and when; C80_succeeds: a reference can always be fixed if its DOI annotations have text and none directly follows another. Without that the property is false: C80_empty_doi_fails, C80_adjacent_dois_fail. C80_patterns: for the regular expressions of the code, without hypotheses about them."
 ],
 "C51": [
  "proved",
  "Path functions of sciencebeam_utils, file existence, loading of the lists (with the limit) and parsing of format strings are parameters. Making a path absolute twice must give the same as once (AbsStable); lists of different lengths are an error in the code."
 ],
 "C52": [
  "partial",
  "Proved for the pattern {dir}{filename}, for patterns with the number of the pair, and for annotated documents of one directory. With the default pattern the property is false: C52_default_collision; C52_default_exact says that two outputs are the same exactly if the file names are."
 ],
 "C81": [
  "proved",
  "Small steps of any number of threads in any order; written in pieces of any size. Needs outputs different from each other and from the sources; C81_collision shows what happens otherwise."
 ],
 "C82": [
  "proved",
  "Regular expressions are parameters. The second theorem is about the step on one citation."
 ],
 "C16": [
  "partial",
  "No file with an existing output is processed again, over any history of runs stopped at any step (C16_not_again), and every other file is (C16_all_others). After any history of crashes outside the writing of an output, a complete run leaves all files as one uninterrupted run does (C16_resume_partial). It fails for a crash in the middle of writing, with a witness (C16_truncated). Assumes distinct outputs and documents independent of the output files."
 ],
 "C17": [
  "partial",
  "For every interleaving: all processable documents are saved whatever happens to others, and an error is reported exactly without skip-errors if a document fails (C17_outcome_partial); a run never gets stuck (C17_progress) and always ends (C17_terminates). For documents read from temporary copies by several threads the property is violated: one job can make another one fail (C18_shared)."
 ],
 "C18": [
  "partial",
  "Proved for worker processes and for a single worker, for all schedules and any number of jobs; refuted for two worker threads sharing the exit stack (C18_shared, C18_shared_before_enter)."
 ],
 "C83": [
  "proved",
  "For every matcher. Names are assumed nonempty."
 ],
 "C84": [
  "proved",
  "The matchers of the alignment library are parameters assumed to return blocks inside the texts."
 ],
 "C85": [
  "proved",
  "C85_tokens and C85_order hold for all matches; C85_next_line_shifted shows that the matches found on a second line are shifted by one character, since the joining space is counted."
 ],
 "C86": [
  "partial",
  "C86_exact says for all matches what they are close to: an earlier match, or the line compared together with them. The property follows if lines compared together are within the gap (C86_gap_partial); the second line of a pair is not tested for the gap (C86_next_ignores_gap)."
 ],
 "C87": [
  "proved",
  "Under the conditions in the statement (C87_line, C87_two_lines). A line without a text after normalising stops the search (C87_empty_line_stops); the search for a value on two lines goes on after it was found (C87_found_again)."
 ],
 "C88": [
  "partial",
  "Waiting matches are annotated exactly next to the new ones (C88_neighbours), and a last target annotation with require_next is never annotated (C88_last_partial); a stale condition can be met by any later target annotation (C88_stale_condition)."
 ],
 "C89": [
  "partial",
  "Proved for single values (C89_next_partial); false for lists of texts (C89_list_misaligned). C89_exact: for lists of texts each line is compared with one that is too far down by the lines looked at in addition for other texts; C89_neighbours_iff: when it is the line after it; C89_alone: after a text has not been found, lines are compared alone; C89_used: what a call says."
 ],
 "C90": [
  "proved",
  ""
 ],
 "C91": [
  "proved",
  "A later sub annotation takes over the tokens of an earlier one it overlaps; C91_apart is the case without overlap."
 ],
 "C92": [
  "partial",
  "Violated if references or affiliations without tags are to be removed (C92_removing_repeats_text) and for several containers with text. C92_removed and C92_containers give the text written in these cases, and when it is the text of the source file."
 ],
 "C93": [
  "partial",
  "Only the minimum number is respected: the gap is ignored (C93_gap_ignored) and a ratio makes the tools fail (C93_ratio_fails, C93_tools_fail)."
 ],
 "C94": [
  "proved",
  ""
 ],
 "C95": [
  "partial",
  "Lines are kept (C95_lines), unless tags ask for line break elements; attributes of the container are lost (C95_lines, C95_attributes_lost), and so are line breaks in files with a name space (C95_name_space_breaks_lost)."
 ],
 "C96": [
  "proved",
  ""
 ],
 "C97": [
  "partial",
  "Proved for the tools other than segmentation without line numbers, if names of target annotations are not empty and do not begin like a prefix (C97_kept_partial). With line numbers exactly the tokens found as line numbers lose their label (C97_line_numbers_exact, C97_line_numbers_overwrite). Violated by segmentation (C97_segmentation_overwrites), where matching keeps the label and it is lost only if the whole line gets one label (C97_segmentation)."
 ],
 "C98": [
  "partial",
  "Passing is proved for all documents and orders (C98_passes, C98_any_order). How a document fails depends on the order of a set: C98_failure_depends_on_order."
 ],
 "C99": [
  "proved",
  ""
 ],
 "C100": [
  "proved",
  "The search itself is described by C36, C61 and C63. C100_segmenting_tools and C100_fulltext state the property for the tools which do not extend labels to lines."
 ],
 "C101": [
  "proved",
  "int, str.lower and re.compile are parameters. Options are also taken from the sections for other kinds of documents (C101_other_sections)."
 ],
 "C102": [
  "proved",
  "etree.parse and etree.tostring are parameters. No reference contains another one (C102_references)."
 ],
 "C103": [
  "partial",
  "Proved for outputs that are no sources and different files, which holds if no source is below the output path (C103_outputs). The code violates the rest: the assertion compares paths and not files, and outputs of an earlier run may be taken as sources. relative_path, load_file_list and find_matching_filenames are parameters."
 ],
 "C104": [
  "proved",
  "The alignment library is a parameter. How lines follow each other is C86."
 ],
 "C105": [
  "partial",
  "Proved for every mapping and document whose tags can be told apart by their paths (C105_round_trip) and thereby for all tools with their main tags (C105_tools), except list items of the full text tool, read back as lists (C105_list_item_becomes_list), and text without a tag of the segmentation tool, read back as body (C105_untagged_becomes_body)."
 ],
 "C106": [
  "partial",
  "Proved for every mapping and document whose tags can be told apart by their paths and whose sub tags belong inside the main element (C106_entities), and thereby for all tools (C106_tools, with the exceptions of C105). A sub tag that does not belong inside the main element splits the entity (C106_foreign_sub_tag_splits_entity)."
 ],
 "C107": [
  "proved",
  "re.sub is modelled for expressions of the form (.*)SUFFIX with plain text and dots; for others it is a parameter. C107_sub_pattern: the unfolded substitution is re.sub with the expression (.*)SUFFIX, for each suffix of plain characters and dots that is not empty."
 ],
 "C108": [
  "proved",
  "One name space, as used by the tools. A field without a path is written to a note outside the name space (C108_note_without_namespace). C108_pattern: prefixes are replaced as re.sub with the expression of the code does it, for a name that starts with a word character."
 ],
 "C109": [
  "partial",
  "Proved for documents whose tokens meet at token boundaries, which is proved for files with text and line breaks only, and whose last line has a token. Otherwise the statement is false: an element within a word makes two tokens that are merged on saving (C109_tokens_merged), and a final line without tokens is dropped (C109_empty_last_line_dropped)."
 ],
 "C110": [
  "partial",
  "A well-formed file is changed if the start tag has attributes or white space (C110_attributes), since only the exact text `<content>` is looked for; C110_exact says which files are copied unchanged."
 ],
 "C111": [
  "partial",
  "The last sentence is false: the limit is applied before files with an output are dropped, so that files beyond the limit are never processed (C111_limit_never_passed) and further runs do nothing (C111_resume_stuck). The rest is proved for all histories. The first files found up to the limit are given by a library."
 ],
 "C112": [
  "partial",
  "Proved for documents whose last line is not empty, whose sub labels belong to their main labels and start a new element or continue the text before in the same line (as in C125), and, where an element lies inside another element (header, reference segmenter), whose entities start with the begin prefix (all labels set by the tools have it). Without these conditions the property is false: C112_sub_tag_lost, C112_line_break_lost, C112_space_moved."
 ],
 "C113": [
  "proved",
  "The conversion to lower case is a parameter with the facts `Lowercase`."
 ],
 "C114": [
  "partial",
  "Proved for references without identifiers inside of identifiers; with them it is false: C114_nested_identifiers. C114_forms_partial: with the regular expressions of the code, the form of DOIs, PMIDs, PMCIDs and PIIs. C114_file_partial: for the document written for a file."
 ],
 "C115": [
  "proved",
  " C115_pattern, C115_spaces_pattern: URLs are found and white space is removed as with the expressions of the code."
 ],
 "C116": [
  "proved",
  "XPath and regular expressions are parameters."
 ],
 "C117": [
  "proved",
  "Python's ConfigParser is modelled, not parsed from the repository's code."
 ],
 "C118": [
  "proved",
  "Reading of numbers and lists is a parameter."
 ],
 "C119": [
  "partial",
  "Fails for the segment `listBibl` (C119_list_bibl); proved otherwise."
 ],
 "C120": [
  "proved",
  "Temporary directories are assumed to be new; faults depend on the path and data only. A URL ending with a slash always fails (C120_url_slash)."
 ],
 "C121": [
  "proved",
  "Reads the source by way of the model of C120; the repair is that of C102."
 ],
 "C122": [
  "proved",
  "States what one round of the annotator does; values left over are looked for again in the next round (C63)."
 ],
 "C123": [
  "partial",
  "Proved for tokens on whose line no token with the same sub label gets a new one (C123_kept_partial). Otherwise violated: sub labels are replaced where sub annotations are found (C123_replaced), and other tokens of the line lose theirs (C123_neighbours_lost). C123_exact: for figures and tables the sub label of a token is kept exactly if it gets no new one and no word on its line which had the same sub label gets one of another field."
 ],
 "C124": [
  "partial",
  "Proved where all starts of the path are valid (C124_found, C124_first, C124_missing_partial). Violated if a predicate contains a slash (C124_predicates). C124_exact: for any path, the longest start for which the evaluation finds something or fails decides."
 ],
 "C125": [
  "partial",
  "C125_begins gives the sub label of every character after saving and loading and where it has the begin prefix, for all documents whose main labels can be told apart; C125_exact without the begin prefix. C125_round_trip and C125_tools: all sub labels are kept if text with a sub label starts a new element or continues the text before in the same line; C125_entities: the begin prefixes are kept if they are exactly where an element starts. Violated otherwise: behind a line break a sub label without begin prefix is lost (C125_title_in_two_lines), as is a sub label that does not belong to the main label (C125_foreign_sub_tag_lost); a missing begin prefix is added (C125_begin_added)."
 ],
 "C126": [
  "proved",
  "C126_range gives the range found, C126_in_turn the labels when the turn of a target annotation comes, C126_first the case that nothing was found for those before it, C126_tool the written document of the tools; C126_spelled tells that neighbouring tokens with the label spell the value. For a text of at most 1000 characters without white space nothing but literal occurrences is accepted (onlyLiteral_short). The matchers (Smith-Waterman and difflib) are assumed to find literal occurrences. C126_one_chunk: when values which may be found in several chunks are found as one."
 ],
 "C127": [
  "partial",
  "Proved where lower case letters are as long as the letters (C127_match_partial for a match, C127_in_turn_partial and C127_first_partial for annotating, C127_tool_partial for the written document). Otherwise violated: another word gets the sub label (C127_shifted). C127_tool_partial covers the tools for figures, tables and affiliations. C127_references_partial: the tool for references, without 'et al'. C127_etal_partial: 'et al' gets its own label or that of authors or editors."
 ],
 "C128": [
  "proved",
  "Shown by C128_annotated for the labels and by C128_written for the file written. Labels not to be kept: those of the fields annotated, or all with --no-preserve-tags (keepsNothing_noneKept)."
 ],
 "C129": [
  "partial",
  "Proved for source files in which no element starts or ends within a word, no line but the last ends with white space and the last line is not empty (C129_again_partial); otherwise the second file is the one that stays (C129_settles_partial), as white space moves to the next line. Violated if references without tags are removed: the text doubles with each run (C129_text_grows). With a field to be always preserved a second run may label another occurrence (C129_kept_field_found_again)."
 ],
 "C130": [
  "proved",
  "C130_run is the statement about all files; C130_depends, C130_alone, C130_resumed, C130_text and C130_paths the others. It takes that no output is also read as source or target file and that the source files have different names (C130_separate: exactly then their outputs are different files; C130_same_name: otherwise the result depends on the schedule). Parsing and serialising XML are parameters. The temporary copies of two tools are assumed to exist until they are read, see C18."
 ],
 "C131": [
  "proved",
  "C131_document (one document) and C131_run (a whole run); C131_paths and C131_checks for the two places where the code iterates over the sets, C131_fields for the options they are read from. For the tool for segmentation with checks only which documents pass and what is written for them is independent of the order (C131_segmentation); whether a document that does not pass is saved or raises KeyError is not (C131_segmentation_failure)."
 ],
 "C132": [
  "proved",
  "C132_options (what the option texts select, with the default of each tool), C132_mapping (exactly which mapping entries are used), C132_labels (labels and sub labels of the annotated document of a run), C132_only_listed (corollary without labels of the source file). C132_header_keeps: the header tool without --fields annotates all fields of the mapping but also keeps the labels of all fields of the source file. Labels are compared without a prefix b- or i- (oneOf: a field whose own name begins with such a prefix occurs without it). C132_defaults, C132_defaults_all (the default fields), C132_segmentation, C132_no_merge (the options of the segmentation tool). The documents of C132_labels, C132_only_listed and C132_no_merge are those in the source and target files. C132_sub_fields: which tools use the option for sub fields."
 ],
 "C133": [
  "proved",
  "C133_range (the range found), C133_in_turn and C133_first (annotating a document, as in C126), C133_one_group and C133_each (places close together: each value is labelled), C133_tool (the document which is written). C133_far_left_out: a value far from the others is not labelled although it occurs literally."
 ],
 "C134": [
  "proved",
  "C134_written (the labels read back are those given), C134_read_back (one value), C134_read_back_many (lists of values)."
 ],
 "C135": [
  "proved",
  "C135_labels, C135_entities (for all documents), C135_shipped (the shipped fields meet the conditions). C135_other_lost and C135_slash_fails show that the conditions on names are needed: with a field `other` unlabelled text is read back with this label, and text of a field with a slash in its name cannot be saved."
 ],
 "C136": [
  "proved",
  "C136_run (any options whose fields can be read back), C136_header (the header tool without --fields and the shipped mapping), C136_listed (any tool that labels by matching, with listed fields of the tool)."
 ],
 "C137": [
  "partial",
  "C137_same_result, C137_search, C137_searches, C137_file, C137_details, C137_first_rows hold for every document. The last sentence does not hold: a reporter is made for each document, which opens the file again, so if opening empties the file only the rows of the last document are left (C137_last_document)."
 ],
 "C138": [
  "proved",
  "C138_file and C138_all_repaired; the condition on DOI annotations is needed, see C80. Reading and writing XML and the regular expressions are parameters. C138_patterns: for the regular expressions of the code."
 ],
 "C139": [
  "proved",
  "C139_unchanged, C139_file, C139_file_total. Missing texts may become empty texts, which are written the same (`shown`). A repaired reference need not be one with nothing to fix: C139_again."
 ],
 "C140": [
  "proved",
  "C140_layout, C140_words, C140_read_back. XSLT selection and positions are modelled as lists in document order. Words outside of a line are lost: C140_outside."
 ],
 "C141": [
  "proved",
  "C141_all, C141_exact, C141_tool, C141_read_back, C141_run, C141_header (from the options and files; for the header tool with the shipped mapping and default fields), with examples: for values which occur literally (condition of C126) and whose places are determined; values of lists are C133, sub labels C127."
 ],
 "C142": [
  "proved",
  "C142_segments_back, C142_run, C142_command_line (from the options and files; with the shipped mapping, segments and default fields), C142_shipped (the conditions on the segments hold for the shipped configuration and the default fields if references are merged), with example."
 ],
 "C143": [
  "proved",
  "C143_file (one file), C143_run (after all schedules), with examples for the tools for full text and tables; which texts count as found is C28 and C98. The document checked is that in the source file."
 ],
 "C144": [
  "proved",
  "C144_document, C144_run for command lines which select the same (SameCommand), if both can be read; C144_listed, C144_default and C144_edited say which option texts select the same fields. With the checks of the segmentation, for documents which pass (C144_segmentation), because of C131_segmentation_failure."
 ],
 "C145": [
  "partial",
  "C145_among_partial: for other numbers which are greater than all line numbers, smaller and above all of them, repeat one further down, or are above the line number which is the next smaller one. Violated otherwise: a smaller number below, such as the number of the page at its bottom, hides all line numbers above it (C145_hidden)."
 ],
 "C146": [
  "partial",
  "C146_read_back_partial: for values whose occurrences lie on one line, if the element of the sub label lies below that of the main label (as it does for the elements of the tools). Violated for values on two lines: when the file is loaded again, what is on the second line has lost the sub label (C146_two_lines). It covers the tools for figures, tables and affiliations. C146_references_partial: the tool for references, for sub labels which are not merged, extended or renamed. C146_first_line_partial, C146_references_first_line_partial: of values on several lines, what is on the first line is read back. C146_sub_elements, C146_sub_elements_references: the sub fields the tools annotate by default have elements for which this holds, but for 'et al' and the first and last page of references."
 ],
 "C147": [
  "proved",
  "C147_run: at each reachable state no copy has failed and nothing but outputs is changed, the run can be finished, and the final contents are those of the sources; C147_nothing: the errors before anything is copied; C147_default: without patterns it is enough that the names are different, the output directories differ and contain no source. The names needing to be different is C52_default_collision."
 ],
 "C148": [
  "proved",
  "C148_run: for a run of a tool on a document; C148_file: from the source file to the file written. The attributes of the container and the text following it are not kept (C95_attributes_lost)."
 ],
 "C149": [
  "partial",
  "C149_pmid, C149_wos, C149_number, C149_pmcid, C149_pii, C149_pii_other, C149_title, C149_cut: when something is found, and what. They are about the regular expressions of the code with a model of the matcher of `re` (Model/Regex). Violated for PIIs: a comma counts as their first letter (C149_pii_comma); a PMID annotation with another number before the label keeps that number (C149_number_before_label). C149_doi: the DOI found is the first in the text and goes on to the end of the line, and the function of JatsText used in the other theorems finds the same as the regular expression of the code; C149_doi_link: the DOI in brackets before which a text is cut; C149_doi_url: the prefixes removed from DOIs; C149_pii_longest: PIIs are as long as possible."
 ],
 "C150": [
  "proved",
  "C150_search: when the pattern of a sub tag is found and where, for the regular expressions of the code; C150_prefix: what becomes of the tokens, from C70_prefix. The character classes and the comparison of letters whatever the case are parameters."
 ],
 "C151": [
  "partial",
  "C151_configured: which fields have a pattern in the configuration shipped, and which; C151_heading, C151_label, C151_no_label: what the patterns find, for the regular expressions of the code with a model of the matcher of `re`; the first such place if there are several. Violated for labels with capital letters, since only the text of the document is converted to lower case (C151_capital_label_missed); a label is also found at the end of a longer number (C151_label_in_number). C151_heading_labelled, C151_label_labelled: each token of the heading or label gets the label when the turn of the abstract or affiliation comes; C151_tool_heading: in the document written by the tools."
 ],
 "C152": [
  "partial",
  "C152_kept: for the tools for figures, tables and affiliations. Violated for references: C152_references states exactly which labels are kept there (references without tags not removed), C152_neighbours_lost that a word loses its label since another word on the line with the same label gets another one (also with the tool for headers). C152_headers: exactly which labels are kept by the tools for headers and for the segmentation of references (simple matcher, no line numbers). C152_fulltext: the tool for full texts keeps them if it gives no label to the token and, where labels are extended to lines, to the words on the line with the same label; it removes labels of other notes. C152_segmentation: segmentation keeps them on lines on which nothing is found and which get no label; otherwise they may be removed from lines without a label (C152_segmentation_lost)."
 ],
 "C04": [
  "proved",
  " C04_pattern: the text is split as re.split with the expression of the code does it."
 ],
 "C153": [
  "proved",
  "C153_normalised, C153_complex_text: what is compared. C153_simple, C153_complex: the document is the same. C153_tool: the same for the files written by the tools. It does matter how the values of sub annotations of the simple matcher are spelled (C153_sub_spelling), and those of fields with alternative spellings (C153_alternative_spelling)."
 ],
 "C154": [
  "partial",
  "C154_part: which elements are read; C154_missing: documents without them; C154_written: the file written differs from the source file only inside of the first of these elements. C154_namespace_partial: the elements of the labels with a path in the configuration of a tool. Missing: fields without such a path are written to elements outside of the name space, so the last sentence does not hold for them; C154_namespace_iff says exactly when it holds."
 ],
 "C155": [
  "proved",
  "C155_files: the names; C155_sources: with the directory; C155_run: the source files of a run; C155_apart: no file of two tools; C155_outputs: the files written. With .tei.xml in two places a file can be one of two tools (C155_two_tools). C155_written: the files written are files of the same tool."
 ]
}