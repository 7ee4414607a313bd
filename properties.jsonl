{"id": "C01", "title": "Tag prefix round trip", "statement": "Splitting a tag into its begin/inside prefix and its value and putting them together again gives back the tag, for every tag that is not a bare prefix; adding a prefix to a non-empty value and splitting gives back prefix and value.", "quantifier": "all optional tag strings; both prefixes", "why_tests_cant": "The set of inputs is infinite; tests only sample a few hand-written cases.", "anchors": [{"file": "sciencebeam_trainer_grobid_tools/core/structured_document/__init__.py", "symbols": ["split_tag_prefix", "strip_tag_prefix", "add_tag_prefix"]}]}
{"id": "C02", "title": "Tags stored under different scopes and levels do not interfere", "statement": "After setting the tag of a token for one (scope, level), reading that (scope, level) returns the new tag, and reading any other (scope, level) returns what it returned before; reading all tags by scope reports the main tag of each scope.", "quantifier": "all tokens, all scopes (any string or none), all integer levels, all tag values", "why_tests_cant": "The key is built by string concatenation, so absence of collisions is a statement about all pairs of strings.", "anchors": [{"file": "sciencebeam_trainer_grobid_tools/core/structured_document/__init__.py", "symbols": ["get_scoped_attrib_name", "get_attrib_by_scope", "SimpleToken.set_tag", "SimpleToken.get_tag"]}]}
{"id": "C03", "title": "Merging two documents copies exactly the non-empty tags", "statement": "Merging a document with another document of the same text transfers each non-empty tag of the source scope to the corresponding token under the target scope and changes nothing else; if the texts differ the merge fails instead of tagging the wrong token.", "quantifier": "all pairs of token sequences, all scopes", "why_tests_cant": "The set of inputs is infinite; tests only sample a few hand-written cases.", "anchors": [{"file": "sciencebeam_trainer_grobid_tools/core/structured_document/__init__.py", "symbols": ["AbstractStructuredDocument.merge_with", "merge_token_tag"]}]}
{"id": "C04", "title": "Tokenising text loses nothing", "statement": "The tokens and white space produced for a piece of training text, concatenated in order, are exactly that text; no token is empty, and text tokens and white space alternate correctly.", "quantifier": "all strings", "why_tests_cant": "The set of inputs is infinite; tests only sample a few hand-written cases.", "anchors": [{"file": "sciencebeam_trainer_grobid_tools/structured_document/grobid_training_tei.py", "symbols": ["_tokenize_text", "_iter_split_lower_to_upper_case", "_to_text_token", "TokenWriter.append_tokenized_text_token"]}]}
{"id": "C05", "title": "Loading a training TEI file keeps all text and the line structure", "statement": "The lines of a loaded document, concatenated, contain exactly the text of the container elements in document order (each with the text directly behind it); there is one line per line break element (plus the final one, if it is not empty).", "quantifier": "all XML trees under the container element, of any depth", "why_tests_cant": "Recursion over arbitrary element nesting; tests use small trees.", "anchors": [{"file": "sciencebeam_trainer_grobid_tools/structured_document/grobid_training_tei.py", "symbols": ["_iter_extract_lines_from_element", "LineBuffer.flush", "TokenWriter"]}]}
{"id": "C06", "title": "Saving an annotated document keeps all text", "statement": "However the tokens are tagged, the text content of the XML written for a list of lines equals the concatenation of the text and white space of all tokens in order.", "quantifier": "all lists of lines with arbitrary tags and sub tags, all tag-to-path maps", "why_tests_cant": "The writer is a state machine over tags; the number of tag sequences is unbounded.", "anchors": [{"file": "sciencebeam_trainer_grobid_tools/structured_document/grobid_training_tei.py", "symbols": ["_lines_to_tei", "XmlTreeWriter", "_append_text", "_get_common_path"]}]}
{"id": "C07", "title": "Saving keeps the line breaks", "statement": "The XML written for a document contains exactly one line break element between the texts of any two consecutive lines, in order, no matter which elements are open (white space at the end of a line may be written behind the line break; tag paths that are line break elements themselves are excluded).", "quantifier": "all lists of lines with arbitrary tags", "why_tests_cant": "The set of inputs is infinite; tests only sample a few hand-written cases.", "anchors": [{"file": "sciencebeam_trainer_grobid_tools/structured_document/grobid_training_tei.py", "symbols": ["_lines_to_tei"]}]}
{"id": "C08", "title": "Every annotated token is written inside the element its tag asks for", "statement": "In the written XML the text of each token lies directly inside the element chain given by the path configured for its tag (and, for a sub tag, the sub element below it); untagged text lies directly in the container.", "quantifier": "all token sequences, tags and tag-to-path maps", "why_tests_cant": "The set of inputs is infinite; tests only sample a few hand-written cases.", "anchors": [{"file": "sciencebeam_trainer_grobid_tools/structured_document/grobid_training_tei.py", "symbols": ["_get_tag_required_path", "_get_element_at_path", "_lines_to_tei", "_get_common_path"]}]}
{"id": "C09", "title": "A begin prefix starts a new element and an inside prefix continues it", "statement": "When consecutive tokens carry the same tag value, a token with begin prefix starts a new XML element whereas a token with inside prefix (or none) is added to the same element.", "quantifier": "all token sequences with prefixed tags", "why_tests_cant": "The set of inputs is infinite; tests only sample a few hand-written cases.", "anchors": [{"file": "sciencebeam_trainer_grobid_tools/structured_document/grobid_training_tei.py", "symbols": ["_lines_to_tei"]}]}
{"id": "C10", "title": "Loading and saving a document without changing it preserves the text of the file", "statement": "Loading a TEI training file and saving it unchanged yields a file whose text content is the same, for every file.", "quantifier": "all TEI files", "why_tests_cant": "Quantifies over all files; test files each have one container.", "anchors": [{"file": "sciencebeam_trainer_grobid_tools/structured_document/grobid_training_tei.py", "symbols": ["GrobidTrainingTeiStructuredDocument", "_updated_tei_with_lines", "_iter_extract_lines_from_container_elements"]}]}
{"id": "C11", "title": "Preserving existing tags on load", "statement": "When tags are preserved, after loading every token has no explicit tag but its preserved tag is the tag it had in the file (main tag, and sub tag when sub tags are preserved); when tags are not preserved neither is present.", "quantifier": "all documents and all combinations of the preserve flags", "why_tests_cant": "The set of inputs is infinite; tests only sample a few hand-written cases.", "anchors": [{"file": "sciencebeam_trainer_grobid_tools/structured_document/grobid_training_tei.py", "symbols": ["GrobidTrainingTeiStructuredDocument.__init__", "_preserve_current_tags", "_reset_current_tags"]}]}
{"id": "C12", "title": "Setting a tag has a bounded effect", "statement": "Setting the tag of a token changes that token and, besides it, at most clears preserved tags of the same value on the same line; no other line, no text and no other explicit tag is changed.", "quantifier": "all documents, tokens, tags, levels", "why_tests_cant": "The set of inputs is infinite; tests only sample a few hand-written cases.", "anchors": [{"file": "sciencebeam_trainer_grobid_tools/structured_document/grobid_training_tei.py", "symbols": ["set_tag", "set_tag_only", "_clear_same_preserved_tag_on_same_line"]}]}
{"id": "C13", "title": "Removing untagged text keeps exactly the tagged tokens", "statement": "After removing untagged text, the document contains every tagged token exactly once, in the original order and on its original line, and no untagged text token.", "quantifier": "all documents", "why_tests_cant": "Needs arbitrary documents with several lines; aliasing between lines only shows with more than one line.", "anchors": [{"file": "sciencebeam_trainer_grobid_tools/structured_document/grobid_training_tei.py", "symbols": ["remove_all_untagged"]}, {"file": "sciencebeam_trainer_grobid_tools/annotation/remove_untagged_annotator.py", "symbols": ["RemoveUntaggedPostProcessingAnnotator"]}]}
{"id": "C14", "title": "Preserved fields survive annotation, others do not", "statement": "Before the annotators run, the original tags to be kept (preserved fields if any are named, otherwise all but the fields to be annotated when tags are preserved) are still there and all others are gone; a token whose original tag belongs to a preserved field ends up with that tag for any annotators that do not change tagged tokens.", "quantifier": "all documents, all annotators that leave tagged tokens alone, all include/preserve field lists", "why_tests_cant": "Quantifies over arbitrary annotators.", "anchors": [{"file": "sciencebeam_trainer_grobid_tools/annotation/annotator.py", "symbols": ["annotate_structured_document_inplace", "_apply_preserved_fields", "_map_token_tags", "_preserve_tag_fn"]}]}
{"id": "C15", "title": "Where a document is saved", "statement": "A document is saved to the normal output if and only if no checks are required or all pass; otherwise it is saved to the failed output if one is configured and nowhere if not. It is never saved to both and never modified after the checks.", "quantifier": "all documents, all check results, all configurations", "why_tests_cant": "The set of inputs is infinite; tests only sample a few hand-written cases.", "anchors": [{"file": "sciencebeam_trainer_grobid_tools/annotation/annotator.py", "symbols": ["annotate_structured_document"]}]}
{"id": "C16", "title": "Resuming after a crash processes every file and no finished file twice", "statement": "With resume enabled, over any history of runs each interrupted at an arbitrary point, a file whose output exists is never processed again, and a run that is not interrupted leaves every processable file with an output equal to that of a single uninterrupted run.", "quantifier": "all file lists, all sequences of crash points", "why_tests_cant": "Crash points and histories are unbounded.", "anchors": [{"file": "sciencebeam_trainer_grobid_tools/auto_annotate_utils.py", "symbols": ["get_file_list_without_output_file", "get_remaining_source_file_list", "run_local_pipeline"]}]}
{"id": "C17", "title": "Skipping errors isolates failing documents", "statement": "With skip-errors every document that can be processed is processed whatever happens to the others; without it a failing document is reported as an error.", "quantifier": "all sequences of documents and failure patterns", "why_tests_cant": "The set of inputs is infinite; tests only sample a few hand-written cases.", "anchors": [{"file": "sciencebeam_trainer_grobid_tools/auto_annotate_utils.py", "symbols": ["auto_annotate", "_auto_annotate"]}]}
{"id": "C18", "title": "Temporary source files live as long as the document using them", "statement": "The temporary fixed copy of a source file exists until the document created from it is completely processed, whatever the interleaving of worker threads.", "quantifier": "all schedules of any number of workers", "why_tests_cant": "Depends on thread interleavings that tests do not control.", "anchors": [{"file": "sciencebeam_trainer_grobid_tools/auto_annotate_utils.py", "symbols": ["file_exit_stack", "auto_annotate", "run_local_pipeline"]}]}
{"id": "C19", "title": "Matching never overwrites an existing tag", "statement": "The matching annotator never changes text or lines and only tags tokens that are untagged: a token already tagged (by an earlier target value or beforehand) keeps its tag and its sub tag, and every new tag is the name of a target annotation. If tags are extended to lines afterwards, the value of each tag is kept and new values come from the targets or from the same line.", "quantifier": "all documents, all target annotations, all match results", "why_tests_cant": "Independent of what the fuzzy matcher returns, so quantifies over all matchers.", "anchors": [{"file": "sciencebeam_trainer_grobid_tools/annotation/simple_matching_annotator.py", "symbols": ["update_annotation_for_index_range", "process_target_annotations", "annotate"]}]}
{"id": "C20", "title": "A match is tagged as one entity", "statement": "The tokens tagged for one match receive the begin prefix on the first token and the inside prefix on all following ones, all with the tag of the field.", "quantifier": "all token sequences", "why_tests_cant": "The set of inputs is infinite; tests only sample a few hand-written cases.", "anchors": [{"file": "sciencebeam_trainer_grobid_tools/annotation/simple_matching_annotator.py", "symbols": ["update_annotation_for_index_range"]}]}
{"id": "C21", "title": "The matching annotator terminates", "statement": "Annotating terminates for every document and every list of target annotations, after at most as many rounds as there are target annotations; target annotations left over at the end are those given, in order, which are not found in the text of the tokens that are still untagged.", "quantifier": "all lists of target annotations and block names", "why_tests_cant": "Loop termination is a universally quantified claim.", "anchors": [{"file": "sciencebeam_trainer_grobid_tools/annotation/simple_matching_annotator.py", "symbols": ["_do_annotate", "process_target_annotations"]}]}
{"id": "C22", "title": "Extending a match to the line never destroys tags", "statement": "Extending tags to the whole line returns one tag per token, keeps the value of each tagged token, only fills untagged tokens, and only with a tag value present on the same line that is enabled for extension or merging.", "quantifier": "all lists of line tags, all configuration maps", "why_tests_cant": "The set of inputs is infinite; tests only sample a few hand-written cases.", "anchors": [{"file": "sciencebeam_trainer_grobid_tools/annotation/simple_matching_annotator.py", "symbols": ["get_extended_line_token_tags"]}]}
{"id": "C23", "title": "Expanding to adjacent untagged tokens", "statement": "Expanding a field backwards (forwards) tags exactly the runs of untagged tokens directly before (after) a token with that field, as one begin/inside sequence of the field that includes the tagged token (inside tags only when forwards); no tag value of a tagged token and nothing else is changed.", "quantifier": "all documents and enabled field sets", "why_tests_cant": "The set of inputs is infinite; tests only sample a few hand-written cases.", "anchors": [{"file": "sciencebeam_trainer_grobid_tools/annotation/expand_to_untagged_lines_annotator.py", "symbols": ["ExpandToPreviousUntaggedLinesPostProcessingAnnotator", "ExpandToFollowingUntaggedLinesPostProcessingAnnotator"]}]}
{"id": "C24", "title": "Replacing tags is a pointwise renaming", "statement": "Replacing tags renames the value of every mapped tag, keeps its prefix, and leaves all other tokens unchanged.", "quantifier": "all documents and tag maps", "why_tests_cant": "The set of inputs is infinite; tests only sample a few hand-written cases.", "anchors": [{"file": "sciencebeam_trainer_grobid_tools/annotation/replace_tags_annotator.py", "symbols": ["ReplaceTagsPostProcessingAnnotator"]}]}
{"id": "C25", "title": "Merging group tags", "statement": "Untagged tokens behind a token whose tag belongs to a group get the group tag with inside prefix; no other token, tag or text is changed. For sub tags, tokens without a main tag are neither changed nor looked at.", "quantifier": "all documents and group maps", "why_tests_cant": "The set of inputs is infinite; tests only sample a few hand-written cases.", "anchors": [{"file": "sciencebeam_trainer_grobid_tools/annotation/merge_group_tags_annotator.py", "symbols": ["MergeGroupTagsPostProcessingAnnotator"]}]}
{"id": "C26", "title": "Line numbers are recognised consistently", "statement": "Only first tokens of lines that are positive integers are tagged as line numbers, only in sequences of the configured minimum length going down the page with numbers increasing by at most the gap plus one, and only if they are enough of the lines; if the numbers at the beginning of lines are one such sequence all of them are tagged; no other token is tagged and no text changed.", "quantifier": "all documents and configurations", "why_tests_cant": "The set of inputs is infinite; tests only sample a few hand-written cases.", "anchors": [{"file": "sciencebeam_trainer_grobid_tools/annotation/line_number_annotator.py", "symbols": ["iter_find_line_number_tokens_in_lines", "get_line_number_candidates", "TextLineNumberAnnotator"]}]}
{"id": "C27", "title": "Entities used by the checks", "statement": "The entities reported for a document partition its tagged tokens into maximal runs of one tag value, starting a new entity at each begin prefix, in document order.", "quantifier": "all documents", "why_tests_cant": "The set of inputs is infinite; tests only sample a few hand-written cases.", "anchors": [{"file": "sciencebeam_trainer_grobid_tools/annotation/checks.py", "symbols": ["iter_structured_document_entities", "get_structured_document_entities_by_name"]}]}
{"id": "C28", "title": "A document passes the checks exactly when all required fields match", "statement": "A document passes if and only if there are no fields to check, or there are target values, every required field has one, no field to check has several target values or a list as value, and for every field to check with a target value there is an extracted entity of the field, whose text has a similarity to the target value at or above the threshold; fields without target value that are not required are not checked.", "quantifier": "all documents, required fields, scores", "why_tests_cant": "The set of inputs is infinite; tests only sample a few hand-written cases.", "anchors": [{"file": "sciencebeam_trainer_grobid_tools/annotation/checks.py", "symbols": ["is_structured_document_passing_checks", "get_required_target_value_by_name"]}]}
{"id": "C29", "title": "Segmentation assigns a label to every line", "statement": "After segmentation with no preserved tags every non-empty line carries one segmentation label on all its tokens, labels come from the configuration (or the fixed front/body/page/headnote labels), and the text is unchanged.", "quantifier": "all documents, all configurations", "why_tests_cant": "The set of inputs is infinite; tests only sample a few hand-written cases.", "anchors": [{"file": "sciencebeam_trainer_grobid_tools/annotation/segmentation_annotator.py", "symbols": ["SegmentationAnnotator.annotate", "SegmentationLine", "merge_lines"]}]}
{"id": "C30", "title": "Merging of segmentation blocks only fills gaps", "statement": "Merging blocks tags only lines that are not yet tagged, with the block tag enclosing them on both sides (or front/body for the rest); a tagged line keeps its label.", "quantifier": "all lists of lines", "why_tests_cant": "The set of inputs is infinite; tests only sample a few hand-written cases.", "anchors": [{"file": "sciencebeam_trainer_grobid_tools/annotation/segmentation_annotator.py", "symbols": ["merge_lines", "SegmentationLineList"]}]}
{"id": "C31", "title": "Page numbers", "statement": "A line is marked as a page number only if its text is an integer consistent with the surrounding page numbers; the numbers marked are strictly increasing in document order.", "quantifier": "all lists of lines and existing page numbers", "why_tests_cant": "The set of inputs is infinite; tests only sample a few hand-written cases.", "anchors": [{"file": "sciencebeam_trainer_grobid_tools/annotation/segmentation_annotator.py", "symbols": ["find_missing_page_numbers", "apply_preserved_page_numbers"]}]}
{"id": "C32", "title": "Page headers", "statement": "A line is marked as page header only if its text repeats often enough among the untagged lines and is not a bare number; lines with another text are unchanged.", "quantifier": "all lists of lines", "why_tests_cant": "The set of inputs is infinite; tests only sample a few hand-written cases.", "anchors": [{"file": "sciencebeam_trainer_grobid_tools/annotation/segmentation_annotator.py", "symbols": ["find_and_tag_page_headers", "is_valid_page_header_candidate"]}]}
{"id": "C33", "title": "Reference post-processing keeps token alignment", "statement": "The tag lists computed for the tokens of a reference (et al mapping, prefix and suffix extension, merging) have one tag per token, never change a tagged token to untagged and never change the main tag.", "quantifier": "all token sequences, tags and patterns", "why_tests_cant": "The set of inputs is infinite; tests only sample a few hand-written cases.", "anchors": [{"file": "sciencebeam_trainer_grobid_tools/annotation/reference_annotator.py", "symbols": ["get_prefix_extended_token_tags", "get_suffix_extended_token_tags", "get_etal_mapped_tags", "ReferencePostProcessingAnnotator"]}]}
{"id": "C34", "title": "The sub-tag-only annotator leaves main tags alone", "statement": "Running the sub-tag-only annotator changes sub tags only: the main tag of every token is the same before and after.", "quantifier": "all documents and all wrapped annotators", "why_tests_cant": "Quantifies over arbitrary annotators.", "anchors": [{"file": "sciencebeam_trainer_grobid_tools/annotation/sub_tag_annotator.py", "symbols": ["SubTagOnlyAnnotator"]}]}
{"id": "C35", "title": "Positions in the junk-free view map back to the original text", "statement": "The i-th character of the junk-free view of a string is the character of the original string at the recorded original index; the recorded indices are strictly increasing and within the string.", "quantifier": "all strings and junk predicates", "why_tests_cant": "The set of inputs is infinite; tests only sample a few hand-written cases.", "anchors": [{"file": "sciencebeam_trainer_grobid_tools/utils/fuzzy.py", "symbols": ["StringView", "get_no_junk_string_view"]}]}
{"id": "C36", "title": "Searching for all matches terminates and returns disjoint matches", "statement": "Searching for all occurrences terminates for every matcher and haystack and the index ranges returned are in order and do not overlap.", "quantifier": "all haystacks, needles and matchers", "why_tests_cant": "Loop over unbounded haystack.", "anchors": [{"file": "sciencebeam_trainer_grobid_tools/utils/fuzzy.py", "symbols": ["iter_fuzzy_search_all"]}]}
{"id": "C37", "title": "Match scores are ratios", "statement": "The scores of a match lie between 0 and 1 for consistent matching blocks and equal 1 for an identical pair; division by zero is handled.", "quantifier": "all strings and matching blocks", "why_tests_cant": "The set of inputs is infinite; tests only sample a few hand-written cases.", "anchors": [{"file": "sciencebeam_trainer_grobid_tools/core/annotation/fuzzy_match.py", "symbols": ["FuzzyMatchResult"]}, {"file": "sciencebeam_trainer_grobid_tools/utils/fuzzy.py", "symbols": ["FuzzyMatchResult.b_gap_ratio"]}]}
{"id": "C38", "title": "Strided search covers the text and terminates", "statement": "The windows examined by the strided search overlap enough that any match of the admissible length lies completely inside one window, and the search terminates for every input.", "quantifier": "all haystack and needle lengths and thresholds", "why_tests_cant": "Arithmetic over all lengths.", "anchors": [{"file": "sciencebeam_trainer_grobid_tools/utils/fuzzy.py", "symbols": ["get_default_max_length_and_stride", "get_str_left_strided_matching_blocks_chunks"]}]}
{"id": "C39", "title": "Index ranges of joined text", "statement": "Joining items into a text records for each item the index range where it is found in the text, and asking for the items between two positions returns exactly the items overlapping them.", "quantifier": "all lists of items, separators and white space lists", "why_tests_cant": "The set of inputs is infinite; tests only sample a few hand-written cases.", "anchors": [{"file": "sciencebeam_trainer_grobid_tools/annotation/matching_utils.py", "symbols": ["join_with_index_ranges", "JoinedText"]}]}
{"id": "C40", "title": "Token selection by character range", "statement": "Selecting the tokens of a sequence between two character positions returns exactly the tokens whose text overlaps the range; together with the untagged-only rule nothing else is tagged.", "quantifier": "all token sequences and index ranges", "why_tests_cant": "The set of inputs is infinite; tests only sample a few hand-written cases.", "anchors": [{"file": "sciencebeam_trainer_grobid_tools/annotation/matching_utils.py", "symbols": ["SequenceWrapper.tokens_between"]}, {"file": "sciencebeam_trainer_grobid_tools/core/annotation/matching_annotator.py", "symbols": ["SequenceWrapper.tokens_between"]}]}
{"id": "C41", "title": "Pending text contains exactly the untagged tokens", "statement": "The pending sequences offered to the matcher contain each untagged token of the document exactly once, in order, and no tagged token.", "quantifier": "all documents", "why_tests_cant": "The set of inputs is infinite; tests only sample a few hand-written cases.", "anchors": [{"file": "sciencebeam_trainer_grobid_tools/annotation/matching_utils.py", "symbols": ["get_untagged_line_tokens", "PendingSequences", "SequenceWrapper.untagged_sub_sequences"]}, {"file": "sciencebeam_trainer_grobid_tools/core/annotation/matching_annotator.py", "symbols": ["SequenceWrapper"]}]}
{"id": "C42", "title": "Field lists on the command line", "statement": "A comma separated list given on the command line is taken literally; with +/- items it is the default list with the items added or removed; removing an item that is not there is an error; the default itself is never modified.", "quantifier": "all strings and default lists", "why_tests_cant": "The set of inputs is infinite; tests only sample a few hand-written cases.", "anchors": [{"file": "sciencebeam_trainer_grobid_tools/utils/string.py", "symbols": ["plus_minus_comma_separated_str_to_list", "comma_separated_str_to_list"]}]}
{"id": "C43", "title": "Filtering of the XML mapping", "statement": "Restricting the mapping to a set of fields and sub fields keeps exactly the entries of those fields and never invents or alters an entry; overrides replace the whole value.", "quantifier": "all mappings, field sets and sub field sets", "why_tests_cant": "The set of inputs is infinite; tests only sample a few hand-written cases.", "anchors": [{"file": "sciencebeam_trainer_grobid_tools/auto_annotate_utils.py", "symbols": ["get_filtered_xml_mapping_and_fields", "get_xml_mapping_with_filtered_sub_fields", "get_xml_mapping_with_overrides"]}]}
{"id": "C44", "title": "Repaired XML is balanced", "statement": "For every sequence of start tags, end tags and text, the repaired output has matching start and end tags, properly nested, and contains all the text in order.", "quantifier": "all event sequences", "why_tests_cant": "Arbitrary malformed nesting.", "anchors": [{"file": "sciencebeam_trainer_grobid_tools/utils/xml.py", "symbols": ["FixingHtmlParser", "get_fixed_xml_str"]}]}
{"id": "C45", "title": "White space normalisation of target text", "statement": "Normalising white space is idempotent, yields a text without tabs, carriage returns, double spaces, or spaces next to line feeds, and keeps every other character in order.", "quantifier": "all strings", "why_tests_cant": "The rewriting loop must terminate and be correct for all strings.", "anchors": [{"file": "sciencebeam_trainer_grobid_tools/core/annotation/target_annotation.py", "symbols": ["strip_whitespace", "relace_recursive", "get_stripped_text_content"]}]}
{"id": "C46", "title": "Order of target annotations", "statement": "Target annotations are ordered by descending priority and then by document position, ties in order of discovery; alternative values are ordered longest first; no annotation is dropped or duplicated.", "quantifier": "all XML documents and mappings", "why_tests_cant": "The set of inputs is infinite; tests only sample a few hand-written cases.", "anchors": [{"file": "sciencebeam_trainer_grobid_tools/annotation/target_annotation.py", "symbols": ["xml_root_to_target_annotations"]}, {"file": "sciencebeam_trainer_grobid_tools/core/annotation/target_annotation.py", "symbols": ["xml_root_to_target_annotations"]}]}
{"id": "C47", "title": "Fixing references preserves their text", "statement": "Fixing a JATS reference moves text between elements and adds or removes annotations but never loses or reorders text.", "quantifier": "all reference elements of any shape", "why_tests_cant": "Mixed content of arbitrary shape.", "anchors": [{"file": "sciencebeam_trainer_grobid_tools/fix_jats_xml.py", "symbols": ["replace_element_with_text", "change_annotation_to_matching_text", "fix_reference", "fix_ext_link"]}]}
{"id": "C48", "title": "DOI detection is safe", "statement": "The DOI range found in a text is within the text, does not raise for any text and its DOI does not contain a URL or a duplicated DOI.", "quantifier": "all strings", "why_tests_cant": "The set of inputs is infinite; tests only sample a few hand-written cases.", "anchors": [{"file": "sciencebeam_trainer_grobid_tools/fix_jats_xml.py", "symbols": ["find_doi_start_end", "strip_pii_from_doi", "remove_duplicate_doi", "truncate_doi_at_known_tokens"]}]}
{"id": "C49", "title": "Surrounding quotes are only removed in pairs", "statement": "Quotes around a title are removed only together: a text loses its first character only if it is an opening quote and its last character only if it is the corresponding closing quote.", "quantifier": "all strings", "why_tests_cant": "The set of inputs is infinite; tests only sample a few hand-written cases.", "anchors": [{"file": "sciencebeam_trainer_grobid_tools/fix_jats_xml.py", "symbols": ["has_surrounding_quotes", "find_article_title_start_end", "remove_surrounding_quotes_from_element"]}]}
{"id": "C50", "title": "Splitting a URL out of text", "statement": "Splitting a text at a URL returns prefix, URL and suffix whose concatenation is the text.", "quantifier": "all strings", "why_tests_cant": "The set of inputs is infinite; tests only sample a few hand-written cases.", "anchors": [{"file": "sciencebeam_trainer_grobid_tools/fix_jats_xml.py", "symbols": ["split_url"]}]}
{"id": "C51", "title": "Document and XML files stay paired when downloading", "statement": "Whatever files exist, the i-th selected document belongs to the i-th selected XML file, and only pairs of which the required files exist are kept, in order, up to the limit.", "quantifier": "all file lists and existence results", "why_tests_cant": "The set of inputs is infinite; tests only sample a few hand-written cases.", "anchors": [{"file": "sciencebeam_trainer_grobid_tools/download_source_files.py", "symbols": ["FileList", "filter_file_pair_exists", "run"]}]}
{"id": "C52", "title": "Output names are unique per source file", "statement": "Different source files are written to different output files.", "quantifier": "all file lists", "why_tests_cant": "Collisions only show for particular pairs of names.", "anchors": [{"file": "sciencebeam_trainer_grobid_tools/download_source_files.py", "symbols": ["get_output_file_list", "get_relative_output_filename"]}, {"file": "sciencebeam_trainer_grobid_tools/auto_annotate_utils.py", "symbols": ["get_tei_xml_output_file_for_source_file"]}]}
{"id": "C53", "title": "Splitting a match conserves it", "statement": "Splitting a match at a position of either text yields two matches whose matched characters together are those of the whole, each lying on its side of the split and still aligning equal text.", "quantifier": "all matches and split positions", "why_tests_cant": "The set of inputs is infinite; tests only sample a few hand-written cases.", "anchors": [{"file": "sciencebeam_trainer_grobid_tools/core/annotation/fuzzy_match.py", "symbols": ["FuzzyMatchResult.a_split_at", "FuzzyMatchResult.b_split_at"]}]}
{"id": "C54", "title": "Inverted index ranges are the complement", "statement": "Inverting a sorted list of disjoint ranges within a given range gives exactly the positions of the given range not covered.", "quantifier": "all sorted range lists", "why_tests_cant": "The set of inputs is infinite; tests only sample a few hand-written cases.", "anchors": [{"file": "sciencebeam_trainer_grobid_tools/core/annotation/fuzzy_match.py", "symbols": ["invert_index_ranges"]}]}
{"id": "C55", "title": "Junk removal keeps exactly the non junk characters", "statement": "Removing junk keeps the characters at non junk positions in order, and counting non matching junk counts exactly the junk positions that are not part of a match.", "quantifier": "all strings, junk predicates and matching blocks", "why_tests_cant": "The set of inputs is infinite; tests only sample a few hand-written cases.", "anchors": [{"file": "sciencebeam_trainer_grobid_tools/core/annotation/fuzzy_match.py", "symbols": ["remove_junk", "FuzzyMatchResult.count_non_matching_junk"]}]}
{"id": "C56", "title": "Tag expressions", "statement": "A tag expression is understood exactly if it is a name, or a name with one attribute in brackets, and then gives this name and attribute. Formatting an element name with one attribute as a tag expression and parsing it gives back the same name and attribute; elements with more than one attribute are rejected; joining the components of a path and splitting the path gives back the components.", "quantifier": "all element names and attributes", "why_tests_cant": "The set of inputs is infinite; tests only sample a few hand-written cases.", "anchors": [{"file": "sciencebeam_trainer_grobid_tools/structured_document/grobid_training_tei.py", "symbols": ["_parse_tag_expression", "_node_to_tag_expression"]}]}
{"id": "C57", "title": "Select index ranges for a value", "statement": "The index ranges selected for one target value are merged into the range from the start of the first to the end of the last; close ones are grouped, the selected group is one whose length (from its first start to the end of its last range) is the largest, and all others are returned as unselected.", "quantifier": "all lists of index ranges", "why_tests_cant": "The set of inputs is infinite; tests only sample a few hand-written cases.", "anchors": [{"file": "sciencebeam_trainer_grobid_tools/annotation/simple_matching_annotator.py", "symbols": ["merge_index_ranges", "IndexRangeCluster", "select_index_ranges"]}]}
{"id": "C58", "title": "Loading assigns main tags by outermost tagged element", "statement": "On loading, every outermost element that directly contains text (or whose path is a configured tag path) becomes one entity: its first token gets the begin prefix, all further tokens the inside prefix, and the tag is the path of the element; text outside of such elements has no tag.", "quantifier": "all TEI documents and configured paths", "why_tests_cant": "Element trees can be nested arbitrarily; tests cover few shapes.", "anchors": [{"file": "sciencebeam_trainer_grobid_tools/structured_document/grobid_training_tei.py", "symbols": ["_iter_extract_lines_from_element", "TokenWriter"]}]}
{"id": "C59", "title": "Text of a nested element keeps its sub tag across line breaks", "statement": "On loading, all text of an element nested in a tagged element has the path of the nested element as its sub tag, also after a line break inside of it.", "quantifier": "all TEI documents", "why_tests_cant": "Needs every nesting of line breaks within nested elements.", "anchors": [{"file": "sciencebeam_trainer_grobid_tools/structured_document/grobid_training_tei.py", "symbols": ["_iter_extract_lines_from_element"]}]}
{"id": "C60", "title": "Key value options", "statement": "Mapping overrides given as key=value parts separated by | are read as a dictionary: white space around keys and values is dropped, a value may contain =, the last value given for a key counts, and a part without = is an error.", "quantifier": "all lists of keys and values, all strings", "why_tests_cant": "The set of inputs is infinite; tests only sample a few hand-written cases.", "anchors": [{"file": "sciencebeam_trainer_grobid_tools/utils/string.py", "symbols": ["parse_dict", "parse_key_value"]}]}
{"id": "C61", "title": "A match found by the fuzzy search has the text of the needle", "statement": "A fuzzy search for a single chunk does not fail if the matchers are correct; the blocks of the match found are in order, lie in the haystack after the start position and have, up to white space, the text of parts of the needle in the same order; the index ranges of all matches are non-empty and within the haystack.", "quantifier": "all haystacks, needles, start positions, thresholds and correct matchers", "why_tests_cant": "Combination of windows, white space removal and index mapping for unbounded texts.", "anchors": [{"file": "sciencebeam_trainer_grobid_tools/utils/fuzzy.py", "symbols": ["fuzzy_search", "fuzzy_search_chunks", "iter_fuzzy_search_all_index_ranges"]}]}
{"id": "C62", "title": "Word matching pairs equal text", "statement": "Splitting a text into words with offsets loses nothing and records the positions of the words; matching blocks of words translate to matching blocks of characters which are consistent and pair equal characters.", "quantifier": "all texts and correct word matchers", "why_tests_cant": "The set of texts is infinite.", "anchors": [{"file": "sciencebeam_trainer_grobid_tools/utils/fuzzy.py", "symbols": ["split_with_offset", "WordSequenceMatcher"]}]}
{"id": "C63", "title": "Values which occur literally are found", "statement": "A target value is searched for as it is and then with its alternative spellings, the first hit wins; whatever is found is a non-empty range inside the text searched; a value that occurs literally in the text (short values as whole words, others up to white space) is found, so no such value with a single text is left over when the annotator stops (with the default of one chunk per match); for a list of values the one range found starts where one of the values found starts and ends where one ends.", "quantifier": "every document text, every value, list of values and alternative spellings, every threshold in (0, 1], all matchers that return consistent blocks and find a literal occurrence", "why_tests_cant": "The text, the value and the position of the occurrence are arbitrary; tests check a few titles.", "anchors": [{"file": "sciencebeam_trainer_grobid_tools/annotation/simple_matching_annotator.py", "symbols": ["get_fuzzy_matching_index_range_chunks", "get_fuzzy_matching_index_range_with_alternative_spellings_chunks", "iter_matching_index_ranges"]}]}
{"id": "C64", "title": "Text before a match", "statement": "The expression configured for the text before a match moves the start of the match to where the expression matches in the text before it and keeps the end; in the expression each name in braces is replaced by the escaped value of the last single-valued sub annotation of that name, and other text is kept.", "quantifier": "every text, range, expression built of texts and names in braces, and list of sub annotations", "why_tests_cant": "Expressions and sub annotations are arbitrary; tests use one expression.", "anchors": [{"file": "sciencebeam_trainer_grobid_tools/annotation/simple_matching_annotator.py", "symbols": ["apply_match_prefix_regex_to_index_range", "get_sub_tag_placeholders", "resolve_regex_placeholders"]}]}
{"id": "C65", "title": "The whole match is tagged", "statement": "After the ranges found for a target annotation have been processed, every token whose text overlaps one of the ranges has a tag.", "quantifier": "every document, every list of token sequences, every list of ranges, every prefix expression", "why_tests_cant": "Token boundaries and ranges combine arbitrarily (partial overlaps, several lines, several ranges).", "anchors": [{"file": "sciencebeam_trainer_grobid_tools/annotation/simple_matching_annotator.py", "symbols": ["update_annotation_for_index_range", "process_target_annotations"]}]}
{"id": "C66", "title": "Sub annotations stay within their match", "statement": "Sub annotations only change sub tags, only of tokens of the match and only where there is no sub tag yet; of the ranges found for a sub annotation the first one whose tokens have no sub tag is used, its tokens get begin and inside sub tags and nothing else changes; if there is none nothing changes.", "quantifier": "every document, match range, list of sub annotations and list of ranges found", "why_tests_cant": "Repeated names and overlapping sub values occur in arbitrary combinations.", "anchors": [{"file": "sciencebeam_trainer_grobid_tools/annotation/simple_matching_annotator.py", "symbols": ["process_sub_annotations"]}]}
{"id": "C67", "title": "Front blocks behind the threshold", "statement": "With a configured maximum start line, exactly the lines of those blocks of consecutive front lines whose first line is behind the maximum lose their label (and all tags); all other lines keep theirs. Without it nothing is cleared.", "quantifier": "all documents, labels and thresholds", "why_tests_cant": "The set of inputs is infinite; tests only sample a few hand-written cases.", "anchors": [{"file": "sciencebeam_trainer_grobid_tools/annotation/segmentation_annotator.py", "symbols": ["clear_front_tags_for_front_blocks_starting_after_threshold"]}]}
{"id": "C68", "title": "Et al continues the authors before it", "statement": "In the tags of a reference, a run of 'et al' tags behind a run of tags it may be merged with (nothing but untagged tokens and other 'et al' runs in between) gets the first tag of that run, followed by inside tags; without such a run before it, it is kept. All other tags are kept, one for each token.", "quantifier": "all lists of sub tags, all 'et al' values and sets of values to be merged", "why_tests_cant": "Depends on arbitrary sequences of runs; tests only sample a few of them.", "anchors": [{"file": "sciencebeam_trainer_grobid_tools/annotation/reference_annotator.py", "symbols": ["get_etal_mapped_tags", "_map_etal_sub_tag"]}]}
{"id": "C69", "title": "A dot behind a name becomes part of it", "statement": "The first untagged token behind a run of tags becomes an inside token of that run exactly if its value is enabled and the token begins with a dot. Tagged tokens keep their tags, other untagged tokens stay untagged.", "quantifier": "all lists of tokens with tags, text and white space, all sets of enabled values", "why_tests_cant": "Depends on arbitrary text and tag sequences.", "anchors": [{"file": "sciencebeam_trainer_grobid_tools/annotation/reference_annotator.py", "symbols": ["get_suffix_extended_token_tags", "_add_name_text_suffix"]}]}
{"id": "C70", "title": "Text before an identifier becomes part of it", "statement": "If the pattern for the value of a run of tags is found in the text of the untagged tokens before it, the tokens from the first character of the match on become part of the run, which then begins with the first of them and continues with inside tags. Otherwise nothing changes. Processing fails only if there is no pattern for an enabled value.", "quantifier": "all lists of tokens with tags, text and white space, all patterns (as a search function)", "why_tests_cant": "Depends on arbitrary text, patterns and tag sequences.", "anchors": [{"file": "sciencebeam_trainer_grobid_tools/annotation/reference_annotator.py", "symbols": ["get_prefix_extended_token_tags", "_add_idno_text_prefix"]}, {"file": "sciencebeam_trainer_grobid_tools/annotation/matching_utils.py", "symbols": ["JoinedText"]}]}
{"id": "C71", "title": "References are processed independently", "statement": "Post processing works on the maximal runs of tokens of one main entity, which together are all tokens in order; the sub tags of a reference afterwards depend only on the sub tags, text and white space of its own tokens.", "quantifier": "all documents with arbitrary main tags and sub tags", "why_tests_cant": "Independence is a statement about pairs of documents.", "anchors": [{"file": "sciencebeam_trainer_grobid_tools/annotation/reference_annotator.py", "symbols": ["_iter_group_tokens_by_tag_entity", "ReferencePostProcessingAnnotator"]}]}
{"id": "C72", "title": "Merging of sub tags within references", "statement": "Untagged tokens between two tagged ones of a reference are tagged if and only if both have the same value and this value is to be merged; untagged tokens at the beginning and the end of a reference stay untagged; where a merged value continues the tags are inside tags.", "quantifier": "all lists of sub tags and all sets of values to be merged", "why_tests_cant": "Depends on arbitrary sequences of tags.", "anchors": [{"file": "sciencebeam_trainer_grobid_tools/annotation/reference_annotator.py", "symbols": ["_merge_sub_tags"]}, {"file": "sciencebeam_trainer_grobid_tools/annotation/simple_matching_annotator.py", "symbols": ["get_extended_line_token_tags"]}]}
{"id": "C73", "title": "End tags of malformed XML", "statement": "When repairing malformed XML, an end tag without open element is ignored, an end tag of no open element closes the innermost open element, and an end tag of an outer open element closes the elements opened inside of it and that element.", "quantifier": "all event sequences", "why_tests_cant": "Arbitrary malformed nesting.", "anchors": [{"file": "sciencebeam_trainer_grobid_tools/utils/xml.py", "symbols": ["FixingHtmlParser", "handle_endtag"]}]}
{"id": "C74", "title": "Extracting parts of a target value", "statement": "Extracting parts of a value by a pattern returns every match, the stripped text between matches and the value itself, in order, without losing text other than white space.", "quantifier": "all values and positions of matches", "why_tests_cant": "The set of inputs is infinite; tests only sample a few hand-written cases.", "anchors": [{"file": "sciencebeam_trainer_grobid_tools/core/annotation/target_annotation.py", "symbols": ["extract_using_regex"]}]}
{"id": "C75", "title": "Raw text of target elements", "statement": "The raw text of an element contains all its texts in document order without the content of excluded elements, and spaces are only added between two words of different texts, which never run together.", "quantifier": "all XML trees and sets of excluded elements", "why_tests_cant": "Mixed content of arbitrary shape.", "anchors": [{"file": "sciencebeam_trainer_grobid_tools/annotation/target_annotation.py", "symbols": ["get_raw_text_content", "iter_text"]}]}
{"id": "C76", "title": "Text of nested target elements is used once", "statement": "When elements selected by the children expressions are nested, the text of an inner element is not returned a second time as part of an outer element.", "quantifier": "all XML trees and selections", "why_tests_cant": "Mixed content of arbitrary shape.", "anchors": [{"file": "sciencebeam_trainer_grobid_tools/core/annotation/target_annotation.py", "symbols": ["exclude_parents", "extract_children_source_list"]}]}
{"id": "C77", "title": "Sub fields of the mapping", "statement": "The sub fields of a field are exactly the names configured below it; sub annotations carry only these names and have a non-empty value.", "quantifier": "all mappings and documents", "why_tests_cant": "The set of inputs is infinite; tests only sample a few hand-written cases.", "anchors": [{"file": "sciencebeam_trainer_grobid_tools/core/annotation/target_annotation.py", "symbols": ["get_sub_mapping", "extract_sub_annotations"]}]}
{"id": "C78", "title": "Options of target annotations", "statement": "Every target annotation carries the options configured for its field: flags are set exactly if the option is the text true, the priority is the configured number or zero; only the main annotation of an element requires the next one.", "quantifier": "all mappings and documents", "why_tests_cant": "The set of inputs is infinite; tests only sample a few hand-written cases.", "anchors": [{"file": "sciencebeam_trainer_grobid_tools/annotation/target_annotation.py", "symbols": ["xml_root_to_target_annotations", "get_mapping_flag"]}]}
{"id": "C79", "title": "Texts of children and ranges", "statement": "With children expressions the texts of an element are those of the selected children, without those used by concatenations or ranges, and the values of concatenations and ranges; a range stands for all numbers from its minimum to its maximum; no non-blank text of a selected child without selected children of its own is lost.", "quantifier": "all documents and configurations", "why_tests_cant": "Mixed content of arbitrary shape.", "anchors": [{"file": "sciencebeam_trainer_grobid_tools/core/annotation/target_annotation.py", "symbols": ["extract_children", "extract_children_range", "extract_children_concat"]}]}
{"id": "C80", "title": "Fixing references does not fail", "statement": "Fixing a reference succeeds for every reference element, whatever its annotations contain.", "quantifier": "all reference elements of any shape", "why_tests_cant": "Mixed content of arbitrary shape.", "anchors": [{"file": "sciencebeam_trainer_grobid_tools/fix_jats_xml.py", "symbols": ["fix_reference", "replace_doi_annotation_with_ext_link_if_url"]}]}
{"id": "C81", "title": "Downloaded files are copies of their sources", "statement": "Whatever the interleaving of the copying threads, every file that was copied has the content of its source, a copy fails only if its source does not exist, no other file changes, and no copy ever waits for another.", "quantifier": "all schedules of any number of copies, all contents", "why_tests_cant": "Depends on thread interleavings that tests do not control.", "anchors": [{"file": "sciencebeam_trainer_grobid_tools/download_source_files.py", "symbols": ["copy_file", "copy_files"]}]}
{"id": "C82", "title": "Identifiers are added only if missing", "statement": "Fixing a reference adds an identifier annotation only if there is none of that type; an added annotation has the type and the text its pattern asks for, and annotations that are there already are not changed by that.", "quantifier": "all references and citations", "why_tests_cant": "Mixed content of arbitrary shape.", "anchors": [{"file": "sciencebeam_trainer_grobid_tools/fix_jats_xml.py", "symbols": ["add_pmid_annotation_if_not_present", "add_annotation_to_reference_element_if_matching", "add_doi_annotation_if_not_present"]}]}
{"id": "C83", "title": "The core matching annotator only tags untagged tokens with the names of the target annotations", "statement": "Annotating a structured document with MatchingAnnotator leaves texts, lines and white space as they are. Each token either keeps its tag and sub tag, or it had no tag and gets the name of one of the target annotations, with its sub tag kept or set to the name of a sub annotation of that target annotation.", "quantifier": "all documents, configurations, matchers and lists of target annotations with nonempty names", "why_tests_cant": "Which tokens are tagged depends on lengths, gaps, conditional matches and the lazily read choices; tests try single documents.", "anchors": [{"file": "sciencebeam_trainer_grobid_tools/core/annotation/matching_annotator.py", "symbols": ["MatchingAnnotator.annotate", "_apply_annotations_to_matches", "_apply_sub_annotations"]}]}
{"id": "C84", "title": "The core matching annotator ends without an exception", "statement": "For all documents and target annotations MatchingAnnotator.annotate returns, also with match_multiple, provided that the alignment library returns blocks inside the texts.", "quantifier": "all documents, configurations and lists of target annotations, all matchers returning blocks within the texts", "why_tests_cant": "The loop of match_multiple has no bound of its own, and the next choice is used without testing for its absence; tests cover the lines they contain.", "anchors": [{"file": "sciencebeam_trainer_grobid_tools/core/annotation/matching_annotator.py", "symbols": ["MatchingAnnotator.annotate", "TargetAnnotationMatchFinder.find_next_best_matches"]}]}
{"id": "C85", "title": "Matches select exactly the tokens they overlap", "statement": "Applying matches tags exactly the untagged tokens whose normalised texts, joined by spaces, overlap the range of a match; the first of all gets the begin prefix and the others the inside prefix; matches are applied in the order of lines and ranges.", "quantifier": "all matches, documents and target annotations", "why_tests_cant": "Offsets of tokens, boundaries of ranges and prefixes over several matches interact.", "anchors": [{"file": "sciencebeam_trainer_grobid_tools/core/annotation/matching_annotator.py", "symbols": ["SequenceWrapper.tokens_between", "_apply_annotations_to_matches", "sorted_matches_by_position"]}]}
{"id": "C86", "title": "Matches of a target annotation stay within the maximum gap", "statement": "Every match found for a target annotation, other than the first, lies at most the maximum number of lines away from an earlier match.", "quantifier": "all texts, lines, matched positions and configurations with a maximum gap", "why_tests_cant": "The positions matched accumulate over lines, texts of lists and bonded target annotations.", "anchors": [{"file": "sciencebeam_trainer_grobid_tools/core/annotation/matching_annotator.py", "symbols": ["PositionedSequenceSet.is_close_to_any", "TargetAnnotationMatchFinder.find_next_best_matches"]}]}
{"id": "C87", "title": "A value which is the text of a line, or of two lines, is annotated", "statement": "If the value of a target annotation is, after normalising, the text of a line or of two neighbouring ones (without the tokens tagged already), the matcher finds it there as a whole and nothing of it in the lines before, none of these is empty, and no target annotation before waits for a next one, then all tokens of these lines which have a text get its tag.", "quantifier": "all documents, values, lines and target annotations before and after, all matchers and thresholds of at most 1", "why_tests_cant": "Whether the search gets as far as the line depends on all lines before it.", "anchors": [{"file": "sciencebeam_trainer_grobid_tools/core/annotation/matching_annotator.py", "symbols": ["MatchingAnnotator.annotate", "TargetAnnotationMatchFinder.find_next_best_matches", "normalise_and_remove_junk_str"]}]}
{"id": "C88", "title": "A target annotation requiring a next one is only annotated next to it", "statement": "With require_next the matches of a target annotation are annotated only if the following target annotation is found on the same or a neighbouring line.", "quantifier": "all documents and lists of target annotations", "why_tests_cant": "The conditional match is kept in a variable over the iterations for all later target annotations.", "anchors": [{"file": "sciencebeam_trainer_grobid_tools/core/annotation/matching_annotator.py", "symbols": ["MatchingAnnotator.annotate", "distance_between_matches"]}]}
{"id": "C89", "title": "Continuing a search compares each line with the one after it", "statement": "When a target annotation is to be matched repeatedly, after each match the remaining lines are compared as before, each together with the line after it.", "quantifier": "all documents, values and numbers of earlier matches", "why_tests_cant": "The current and the next line are read from two copies of one iterator, which advance separately after each match.", "anchors": [{"file": "sciencebeam_trainer_grobid_tools/core/annotation/matching_annotator.py", "symbols": ["TargetAnnotationMatchFinder", "MatchingAnnotator.annotate"]}]}
{"id": "C90", "title": "Bonded lists of texts are matched together", "statement": "The matches of a target annotation whose value is a list are those of all its texts. With bonding a single match is dropped, except for target annotations named author.", "quantifier": "all lists of texts, lines, configurations and names", "why_tests_cant": "Holds for any number of texts and matches.", "anchors": [{"file": "sciencebeam_trainer_grobid_tools/core/annotation/matching_annotator.py", "symbols": ["TargetAnnotationMatchFinder.find_next_best_matches"]}]}
{"id": "C91", "title": "Sub annotations found in the annotated text get their sub tag", "statement": "For sub annotations with a single text each, found as a whole in the normalised text of the tokens annotated or not at all: a token gets the sub tag of the last sub annotation overlapping it, with the begin prefix if it is the first such token, and other tokens keep their sub tags.", "quantifier": "all documents, tokens, sub annotations and matchers finding the texts as a whole or not at all", "why_tests_cant": "Positions in joined texts are mapped back to tokens of any number and length.", "anchors": [{"file": "sciencebeam_trainer_grobid_tools/core/annotation/matching_annotator.py", "symbols": ["_apply_sub_annotations", "SequenceWrapper.tokens_between"]}]}
{"id": "C92", "title": "The tools never change the text of a file", "statement": "Each of the annotation tools writes a file with the same text as its source file, whatever target annotations are matched, whatever options are given and whether the checks pass or not.", "quantifier": "all tools, options, source files with one container and results of matching", "why_tests_cant": "The result is the composition of several annotators, each of which may change any token of a document of any size.", "anchors": [{"file": "sciencebeam_trainer_grobid_tools/auto_annotate_header.py", "symbols": ["AnnotatePipelineFactory"]}, {"file": "sciencebeam_trainer_grobid_tools/auto_annotate_segmentation.py", "symbols": ["AnnotatePipelineFactory"]}, {"file": "sciencebeam_trainer_grobid_tools/auto_annotate_fulltext.py", "symbols": ["AnnotatePipelineFactory"]}, {"file": "sciencebeam_trainer_grobid_tools/auto_annotate_figure.py", "symbols": ["AnnotatePipelineFactory"]}, {"file": "sciencebeam_trainer_grobid_tools/auto_annotate_table.py", "symbols": ["AnnotatePipelineFactory"]}, {"file": "sciencebeam_trainer_grobid_tools/auto_annotate_reference.py", "symbols": ["AnnotatePipelineFactory"]}, {"file": "sciencebeam_trainer_grobid_tools/auto_annotate_reference_segmenter.py", "symbols": ["AnnotatePipelineFactory"]}, {"file": "sciencebeam_trainer_grobid_tools/auto_annotate_affiliation_address.py", "symbols": ["AnnotatePipelineFactory"]}]}
{"id": "C93", "title": "The options for line numbers are respected", "statement": "The number of line numbers per page, the gap and the ratio given on the command line are those used for finding line numbers.", "quantifier": "all tools with line numbers, all documents and values of the options", "why_tests_cant": "A wrong option only shows for documents with particular line numbers.", "anchors": [{"file": "sciencebeam_trainer_grobid_tools/auto_annotate_utils.py", "symbols": ["add_annotation_pipeline_arguments", "get_default_annotators"]}, {"file": "sciencebeam_trainer_grobid_tools/annotation/line_number_annotator.py", "symbols": ["TextLineNumberAnnotatorConfig", "iter_find_line_number_tokens_in_lines"]}]}
{"id": "C94", "title": "The tools for sub tags keep exactly the labels of their own field", "statement": "After the tools for figures, tables, references or affiliations (without segmentation) each token has the label of the tool's own field that it had in the source file, and no other label.", "quantifier": "all documents, options, target annotations and results of matching", "why_tests_cant": "Several annotators clear, set and restore labels of any number of tokens.", "anchors": [{"file": "sciencebeam_trainer_grobid_tools/auto_annotate_figure.py", "symbols": ["AnnotatePipelineFactory"]}, {"file": "sciencebeam_trainer_grobid_tools/auto_annotate_table.py", "symbols": ["AnnotatePipelineFactory"]}, {"file": "sciencebeam_trainer_grobid_tools/auto_annotate_reference.py", "symbols": ["AnnotatePipelineFactory"]}, {"file": "sciencebeam_trainer_grobid_tools/auto_annotate_affiliation_address.py", "symbols": ["AnnotatePipelineFactory"]}]}
{"id": "C95", "title": "The tools keep line breaks and the container", "statement": "The file written has one container with the lines of the source file, up to white space, and the attributes of the container.", "quantifier": "all tools, options, source files with one container and results of matching", "why_tests_cant": "Depends on all lines and labels of the document.", "anchors": [{"file": "sciencebeam_trainer_grobid_tools/auto_annotate_header.py", "symbols": ["AnnotatePipelineFactory"]}, {"file": "sciencebeam_trainer_grobid_tools/structured_document/grobid_training_tei.py", "symbols": ["_updated_tei_with_lines", "_lines_to_tei"]}]}
{"id": "C96", "title": "Every label written is asked for or comes from the file", "statement": "After a tool has annotated a document, each label of a token or sub label is the name of one of its target annotations (or a fixed label of the tool), or a label found in the source file, of a field whose labels are to be preserved. If nothing is to be preserved there are no labels but those of the tool; fields to be annotated again have no labels from the source file.", "quantifier": "all tools, options, source files, target annotations and results of matching", "why_tests_cant": "Each of several annotators writes labels to any of the tokens, partly computed from other labels.", "anchors": [{"file": "sciencebeam_trainer_grobid_tools/auto_annotate_header.py", "symbols": ["AnnotatePipelineFactory"]}, {"file": "sciencebeam_trainer_grobid_tools/auto_annotate_segmentation.py", "symbols": ["AnnotatePipelineFactory"]}, {"file": "sciencebeam_trainer_grobid_tools/auto_annotate_fulltext.py", "symbols": ["AnnotatePipelineFactory"]}, {"file": "sciencebeam_trainer_grobid_tools/auto_annotate_figure.py", "symbols": ["AnnotatePipelineFactory"]}, {"file": "sciencebeam_trainer_grobid_tools/auto_annotate_table.py", "symbols": ["AnnotatePipelineFactory"]}, {"file": "sciencebeam_trainer_grobid_tools/auto_annotate_reference.py", "symbols": ["AnnotatePipelineFactory"]}, {"file": "sciencebeam_trainer_grobid_tools/auto_annotate_reference_segmenter.py", "symbols": ["AnnotatePipelineFactory"]}, {"file": "sciencebeam_trainer_grobid_tools/auto_annotate_affiliation_address.py", "symbols": ["AnnotatePipelineFactory"]}]}
{"id": "C97", "title": "Fields to be preserved always keep their labels", "statement": "Tokens whose label in the source file belongs to a field which is always to be preserved have a label of the same field after annotating, whatever is matched there.", "quantifier": "all tools without a field of their own, options, source files, target annotations and results of matching", "why_tests_cant": "Depends on all annotators, which may match the text of such tokens.", "anchors": [{"file": "sciencebeam_trainer_grobid_tools/auto_annotate_header.py", "symbols": ["AnnotatePipelineFactory"]}, {"file": "sciencebeam_trainer_grobid_tools/auto_annotate_segmentation.py", "symbols": ["AnnotatePipelineFactory"]}, {"file": "sciencebeam_trainer_grobid_tools/auto_annotate_fulltext.py", "symbols": ["AnnotatePipelineFactory"]}, {"file": "sciencebeam_trainer_grobid_tools/auto_annotate_figure.py", "symbols": ["AnnotatePipelineFactory"]}, {"file": "sciencebeam_trainer_grobid_tools/auto_annotate_table.py", "symbols": ["AnnotatePipelineFactory"]}, {"file": "sciencebeam_trainer_grobid_tools/auto_annotate_reference.py", "symbols": ["AnnotatePipelineFactory"]}, {"file": "sciencebeam_trainer_grobid_tools/auto_annotate_reference_segmenter.py", "symbols": ["AnnotatePipelineFactory"]}, {"file": "sciencebeam_trainer_grobid_tools/auto_annotate_affiliation_address.py", "symbols": ["AnnotatePipelineFactory"]}]}
{"id": "C98", "title": "A document passes the checks of segmentation exactly if its fields are found", "statement": "A document passes the checks of segmentation exactly if no fields are to be checked, or required fields have a value and each value to be checked is found in the joined text of the entities with the segmentation label of its field; whether and how it fails does not depend on the order in which fields are checked.", "quantifier": "all configurations, target annotations, documents and orders of the fields", "why_tests_cant": "The fields are kept in a set of strings, whose order differs between runs.", "anchors": [{"file": "sciencebeam_trainer_grobid_tools/auto_annotate_segmentation.py", "symbols": ["is_segmentation_structured_document_passing_checks"]}]}
{"id": "C99", "title": "The tool for full texts leaves no gaps behind list items, figures and tables", "statement": "After the tool for full texts no token is labelled as another note, no unlabelled token follows a list item (before the next label), and, with the options for expanding, none follows or precedes a figure or table.", "quantifier": "all documents, options, target annotations and results of matching", "why_tests_cant": "Depends on the order of several annotators working on all tokens.", "anchors": [{"file": "sciencebeam_trainer_grobid_tools/auto_annotate_fulltext.py", "symbols": ["_get_annotator", "AnnotatePipelineFactory"]}]}
{"id": "C100", "title": "Labels are only given where a target annotation is found", "statement": "Matching gives a label to a token only if the text of a target annotation with this label is found, by the fuzzy search with the options given, in the text of tokens without a label and at a place overlapping the token; sub labels only within such a place and where the sub annotation is found. Without extension to lines these are all labels; with it, each label is also found (or was there before) on its line.", "quantifier": "all documents, target annotations, configurations and results of matching", "why_tests_cant": "Several rounds of matching change the text that is searched; every token of every document must be justified.", "anchors": [{"file": "sciencebeam_trainer_grobid_tools/annotation/simple_matching_annotator.py", "symbols": ["SimpleMatchingAnnotator"]}, {"file": "sciencebeam_trainer_grobid_tools/auto_annotate_fulltext.py", "symbols": ["AnnotatePipelineFactory"]}, {"file": "sciencebeam_trainer_grobid_tools/auto_annotate_figure.py", "symbols": ["AnnotatePipelineFactory"]}, {"file": "sciencebeam_trainer_grobid_tools/auto_annotate_table.py", "symbols": ["AnnotatePipelineFactory"]}, {"file": "sciencebeam_trainer_grobid_tools/auto_annotate_reference.py", "symbols": ["AnnotatePipelineFactory"]}, {"file": "sciencebeam_trainer_grobid_tools/auto_annotate_affiliation_address.py", "symbols": ["AnnotatePipelineFactory"]}]}
{"id": "C101", "title": "Options of the fields in the XML mapping", "statement": "The options of a field (prefix expression, alternative spellings, merging, extension to the line, number of chunks, block) are those given last for it in the mapping, with the documented defaults otherwise; there are options for exactly the keys without a dot. Options of one field do not influence those of another. The mapping is refused exactly if an option of a field cannot be used.", "quantifier": "all mappings, any number of sections, fields and options, all values", "why_tests_cant": "Options of many fields share one flat map, and a wrong one silently changes how matches are made.", "anchors": [{"file": "sciencebeam_trainer_grobid_tools/annotation/simple_matching_annotator.py", "symbols": ["parse_regex", "parse_alternative_spellings", "get_simple_tag_config", "get_simple_tag_config_map"]}]}
{"id": "C102", "title": "Repair of a JATS file", "statement": "The repaired file is the document read with each reference replaced by its repaired version and everything else the same, plus five meta data entries, added to the first existing group or in a new group before all other elements; they report whether the file was malformed and exactly which references, in order, are written differently. A file is repaired if and only if it can be read, if need be after removing white space at its beginning and replacing the entity for the dagger, and every one of its references can be repaired.", "quantifier": "all files, all documents with any number of references, all parsers and serialisers", "why_tests_cant": "The tool rewrites large corpora; a reference altered without being reported or text changed elsewhere would go unnoticed.", "anchors": [{"file": "sciencebeam_trainer_grobid_tools/fix_jats_xml.py", "symbols": ["fix_jats_xml_node", "iter_get_changed_original_references", "add_jats_meta_data", "get_fix_xml_meta_data_dict", "fix_jats_xml_file"]}, {"file": "sciencebeam_trainer_grobid_tools/utils/xml.py", "symbols": ["auto_download_and_fix_input_file", "skip_spaces", "parse_xml_or_get_error_line", "parse_xml"]}]}
{"id": "C103", "title": "Repairing many JATS files", "statement": "Whatever the order in which the workers run: every file that can be repaired is written, whatever happens to the others; a run ends, and reports an error exactly if some file cannot be repaired. Files other than the outputs are never changed, at no point of the run, and a source is never overwritten. Outputs mirror the directories of the sources, so different sources have different outputs.", "quantifier": "all lists of files and options, all interleavings of the workers, all points of interruption", "why_tests_cant": "Interleavings and name clashes only show in large runs, and an overwritten source is lost.", "anchors": [{"file": "sciencebeam_trainer_grobid_tools/fix_jats_xml.py", "symbols": ["FixJatsProcessor", "get_output_file_for_source_file", "process_source_file", "run_local_pipeline", "get_source_file_list"]}]}
{"id": "C104", "title": "Labels of the line matcher are justified", "statement": "With the matcher that compares values with lines, a token gets a label only if it had none and a part of the text of a target annotation with that name is found on its line, at a place overlapping the token, with the similarity given on the command line: a line as part of the value, or the rest of the value as part of a line, where later parts may follow only on earlier ones. A sub label is given only where the sub annotation is found among tokens of its target annotation.", "quantifier": "all documents, target annotations, thresholds and alignment functions", "why_tests_cant": "A wrong label in training data looks like a right one; which comparisons justify labels can not be seen from a sample of documents.", "anchors": [{"file": "sciencebeam_trainer_grobid_tools/core/annotation/matching_annotator.py", "symbols": ["MatchingAnnotator", "get_fuzzy_match_filter", "TargetAnnotationMatchFinder"]}, {"file": "sciencebeam_trainer_grobid_tools/auto_annotate_utils.py", "symbols": ["get_matching_annotator_config", "get_default_annotators"]}]}
{"id": "C105", "title": "Saved labels can be read back", "statement": "A document saved by a tool and loaded again, preserving tags, has the same text (up to white space), and each character has the same main tag.", "quantifier": "all documents with any lines, tokens and tags, all files with one container, all mappings of tags to paths", "why_tests_cant": "Whether nested elements are read back with the same tag depends on how the paths of all tags in the document relate to each other and on where elements are reused.", "anchors": [{"file": "sciencebeam_trainer_grobid_tools/structured_document/grobid_training_tei.py", "symbols": ["GrobidTrainingTeiStructuredDocument", "_lines_to_tei", "_iter_extract_lines_from_container_elements", "_iter_extract_lines_from_element"]}, {"file": "sciencebeam_trainer_grobid_tools/auto_annotate_fulltext.py", "symbols": ["FULLTEXT_TAG_TO_TEI_PATH_MAPPING"]}, {"file": "sciencebeam_trainer_grobid_tools/auto_annotate_segmentation.py", "symbols": ["SEGMENTATION_TAG_TO_TEI_PATH_MAPPING"]}]}
{"id": "C106", "title": "Saved entity boundaries can be read back", "statement": "A document saved by a tool and loaded again, preserving tags, has entities starting at the same characters: two entities with the same tag next to each other stay apart, and one entity stays in one piece over line breaks and around nested sub elements.", "quantifier": "all documents with any lines, tokens and tags, all files with one container, all mappings of tags to paths", "why_tests_cant": "Where elements are opened and closed depends on all previous tokens, on white space between them and on sub tags; where entities are found again depends on which of the nested elements is the outermost known one.", "anchors": [{"file": "sciencebeam_trainer_grobid_tools/structured_document/grobid_training_tei.py", "symbols": ["GrobidTrainingTeiStructuredDocument", "_lines_to_tei", "_iter_extract_lines_from_container_elements", "_iter_extract_lines_from_element"]}, {"file": "sciencebeam_trainer_grobid_tools/auto_annotate_fulltext.py", "symbols": ["FULLTEXT_TAG_TO_TEI_PATH_MAPPING"]}]}
{"id": "C107", "title": "The target file of a source file", "statement": "The target XML file used for a source file is the file in the target directory whose name is that of the source file with the substitution of the option --xml-filename-regex applied; for the usual substitutions NAME.header.tei.xml becomes NAME.xml for every name, different names have different targets, and repairing the source file beforehand makes no difference. Anything but a substitution of the form /match/replace/ is refused.", "quantifier": "all source files and target directories, all substitutions", "why_tests_cant": "Regular expressions are greedy and replace all matches; whether names containing the suffix several times or followed by .gz are changed in the right place cannot be seen from a few names.", "anchors": [{"file": "sciencebeam_trainer_grobid_tools/utils/regex.py", "symbols": ["_parse_subsitution_pattern", "regex_change_name"]}, {"file": "sciencebeam_trainer_grobid_tools/auto_annotate_utils.py", "symbols": ["get_target_xml_for_source_file"]}, {"file": "sciencebeam_trainer_grobid_tools/auto_annotate_figure.py", "symbols": ["get_fixed_source_url"]}]}
{"id": "C108", "title": "Elements of name spaces", "statement": "A path with name space prefixes is written to the elements of that name space, step by step; a field without a path is written to a note with its name, and never replaces a configured path.", "quantifier": "all paths of any length, all prefixes and URLs, all lists of fields", "why_tests_cant": "The URL put in place of the prefix itself contains colons and slashes, the separators of prefixes and steps.", "anchors": [{"file": "sciencebeam_trainer_grobid_tools/auto_annotate_utils.py", "symbols": ["_resolve_tag_expression_namespace", "_resolve_tag_to_tei_mapping_namespace"]}, {"file": "sciencebeam_trainer_grobid_tools/structured_document/grobid_training_tei.py", "symbols": ["_split_path", "_get_tag_required_path"]}, {"file": "sciencebeam_trainer_grobid_tools/auto_annotate_reference.py", "symbols": ["AnnotatePipelineFactory"]}]}
{"id": "C109", "title": "Saving and loading keeps the tokens of every line", "statement": "Saving a document and loading the file again gives the same lines with the same tokens, each with the same main tag; only white space moves, from the end of a line to the start of the next.", "quantifier": "all documents, labelled in any way with the tags of a tool, and all files with one container whose text is structured by line breaks only", "why_tests_cant": "Tokens are not stored: saving joins the texts of neighbouring tokens and loading cuts the text again, so whether all cuts are found again depends on every pair of neighbouring tokens and on every place where an element starts or ends.", "anchors": [{"file": "sciencebeam_trainer_grobid_tools/structured_document/grobid_training_tei.py", "symbols": ["_lines_to_tei", "_tokenize_text", "_iter_extract_lines_from_container_elements", "GrobidTrainingTeiStructuredDocument"]}]}
{"id": "C110", "title": "The figure tool's repair only removes stray end tags", "statement": "The figure tool reads a repaired copy of each source file. The copy differs from the file only by removed `</content>` end tags, and only if these have no start tag; a well-formed file is copied unchanged, under the same name.", "quantifier": "all contents of source files", "why_tests_cant": "Whether a file is changed depends on the presence of two texts anywhere in it; tests show one stray end tag.", "anchors": [{"file": "sciencebeam_trainer_grobid_tools/auto_annotate_figure.py", "symbols": ["fix_source_file_to", "get_fixed_source_url"]}]}
{"id": "C111", "title": "Which files a run processes, and that resumed runs get through all of them", "statement": "A given source path is the only file processed; otherwise the files found in the base path are, in order, at most as many as the limit. Nothing but their outputs is written. Repeating a resumed run with a limit finally processes every file.", "quantifier": "all options accepted, all directories, all sequences of runs interrupted at any point", "why_tests_cant": "The order of limiting and of dropping the files already done only shows over several runs.", "anchors": [{"file": "sciencebeam_trainer_grobid_tools/auto_annotate_utils.py", "symbols": ["get_source_file_list", "get_remaining_source_file_list", "process_annotation_pipeline_arguments"]}]}
{"id": "C112", "title": "Saving a loaded document again does not change the file", "statement": "A file written by a tool, loaded with its tags and saved without further changes, is the same file as before, however often this is repeated.", "quantifier": "all documents, labelled in any way with the tags of a tool, and all files with one container whose text is structured by line breaks only", "why_tests_cant": "The second save works on tokens and tags recovered from the first file; equality of the files needs every place of text, white space, line break and element boundary to be the same.", "anchors": [{"file": "sciencebeam_trainer_grobid_tools/structured_document/grobid_training_tei.py", "symbols": ["_lines_to_tei", "_updated_tei_with_lines", "GrobidTrainingTeiStructuredDocument", "save_grobid_training_tei_structured_document"]}]}
{"id": "C113", "title": "Known identifier types are in lower case", "statement": "In a fixed reference every identifier whose type is one of the types JATS knows, in whatever mixture of upper and lower case it was written, has the type in lower case; other types, other attributes and texts are not changed by this.", "quantifier": "all references whose identifiers contain text only", "why_tests_cant": "The steps that follow the conversion move, add and remove identifiers; the result must hold after all of them, for every reference.", "anchors": [{"file": "sciencebeam_trainer_grobid_tools/fix_jats_xml.py", "symbols": ["convert_known_pub_id_type_to_lower_case", "KNOWN_PUB_ID_TYPES", "fix_reference"]}]}
{"id": "C114", "title": "Identifiers of a fixed reference are exactly what their pattern matches", "statement": "In a fixed reference every DOI, PMID, PMCID and PII that has a text consists of exactly the text its pattern matches, so no label, punctuation or URL is left inside; every DOI has the form of a DOI.", "quantifier": "all references whose identifiers contain text only and all results of the regular expressions", "why_tests_cant": "Thirteen steps run one after another on a mutable tree, and each of them could add or change identifiers another step has already fixed.", "anchors": [{"file": "sciencebeam_trainer_grobid_tools/fix_jats_xml.py", "symbols": ["fix_reference", "change_annotation_to_matching_text", "fix_doi", "fix_pmid", "fix_pmcid", "fix_pii"]}]}
{"id": "C115", "title": "Links have their own text as target", "statement": "A link made from a URL in front of a DOI, and each link made from a link with several URLs, has exactly the corresponding part of the text, and its target is that text without white space and starting with a scheme. The target of another link is only shortened at its end, and only if it contains doi.org.", "quantifier": "all references and texts", "why_tests_cant": "The new link takes its text from two elements and must leave the rest where it was; texts and prefixes are unbounded.", "anchors": [{"file": "sciencebeam_trainer_grobid_tools/fix_jats_xml.py", "symbols": ["get_full_cleaned_url", "get_jats_ext_link_element", "fix_ext_link", "replace_doi_annotation_with_ext_link_if_url"]}]}
{"id": "C116", "title": "Which texts of an element are looked for", "statement": "The text of a selected element is its raw text, without white space around it, if no expressions for its children are given, or if the only one selects everything and the element is configured to use raw text or, without configuration, has text of its own outside of the elements with nothing but text. Otherwise the texts of its children are used. A configured pattern replaces each text it matches by its first group; a pattern of parts replaces each text by its parts; without patterns texts are not changed.", "quantifier": "all elements, configurations and results of the regular expressions", "why_tests_cant": "Whether there is text of its own depends on the whole tree below an element, of any depth; the options interact.", "anchors": [{"file": "sciencebeam_trainer_grobid_tools/annotation/target_annotation.py", "symbols": ["contains_raw_text", "xml_root_to_target_annotations", "get_raw_text_content"]}, {"file": "sciencebeam_trainer_grobid_tools/core/annotation/target_annotation.py", "symbols": ["apply_pattern", "extract_using_regex"]}]}
{"id": "C117", "title": "A configuration file is read as what it says", "statement": "A configuration file consists of sections, each a header in brackets followed by options, each a name, `=` or `:` and a value that may continue on lines with a larger indentation; comments and empty lines do not count. It is read as exactly these sections and options; a section or option given twice, and anything else, is an error. Names of options are in lower case whatever the file says.", "quantifier": "all files (lists of lines), all character classes", "why_tests_cant": "The meaning of a line depends on the indentation of the lines before it.", "anchors": [{"file": "sciencebeam_trainer_grobid_tools/core/annotation/target_annotation.py", "symbols": ["parse_xml_mapping"]}, {"file": "sciencebeam_trainer_grobid_tools/annotation/segmentation_annotator.py", "symbols": ["parse_segmentation_config"]}]}
{"id": "C118", "title": "The mapping and the segmentation configuration have the values of the file", "statement": "Each section of an XML mapping file is returned with its options and those of the default section, where `%(name)s` is replaced by the value of that option, to at most ten levels, and `%%` by `%`; a value without percent sign is returned as it is. The segmentation configuration has the fields listed in its tags section and the numbers given, or their defaults.", "quantifier": "all files, all character classes and all ways of reading numbers and lists", "why_tests_cant": "References between options nest; a cycle of references is only found at the tenth level.", "anchors": [{"file": "sciencebeam_trainer_grobid_tools/core/annotation/target_annotation.py", "symbols": ["parse_xml_mapping"]}, {"file": "sciencebeam_trainer_grobid_tools/annotation/segmentation_annotator.py", "symbols": ["parse_segmentation_config", "SegmentationConfig"]}]}
{"id": "C119", "title": "The shipped configuration fits the tools", "statement": "The shipped files are valid. Every field a tool annotates by default is configured, has an element, and different tags have different elements; the elements are elements of TEI; elements of sub fields are inside the element of their field, so that they are not ignored by the writer; each kind of cross references is read from and written to elements of its own kind; each default field of the segmentation belongs to one segment; the parts of an address are just the sub fields inside the address and identifiers with prefixes just those written as identifiers.", "quantifier": "all tools with all their options, all default fields and all sub fields of the shipped mapping", "why_tests_cant": "Each field is tested on its own at best; a sub field outside of its field is silently ignored.", "anchors": [{"file": "sciencebeam_trainer_grobid_tools/core/annotation/target_annotation.py", "symbols": ["parse_xml_mapping"]}, {"file": "sciencebeam_trainer_grobid_tools/auto_annotate_reference.py", "symbols": ["REFERENCE_TAG_TO_TEI_PATH_MAPPING"]}, {"file": "sciencebeam_trainer_grobid_tools/auto_annotate_affiliation_address.py", "symbols": ["AFFILIATION_TAG_TO_TEI_PATH_MAPPING", "get_address_group_tag_for_sub_tag"]}, {"file": "sciencebeam_trainer_grobid_tools/auto_annotate_fulltext.py", "symbols": ["FULLTEXT_TAG_TO_TEI_PATH_MAPPING"]}, {"file": "sciencebeam_trainer_grobid_tools/auto_annotate_segmentation.py", "symbols": ["SEGMENTATION_TAG_TO_TEI_PATH_MAPPING"]}]}
{"id": "C120", "title": "Reading a document leaves no files behind", "statement": "A document is parsed from the content of its local file, URL or open function, repaired if that is asked for; whatever fails while copying, writing or reading, all files and directories are the same afterwards, and a document that was parsed is that of the whole content.", "quantifier": "all sources, contents, files on the machine, and faults in reading and writing", "why_tests_cant": "Faults may happen at any point of copying and reading, which tests do not produce.", "anchors": [{"file": "sciencebeam_trainer_grobid_tools/utils/io.py", "symbols": ["auto_download_input_file"]}, {"file": "sciencebeam_trainer_grobid_tools/utils/xml.py", "symbols": ["auto_download_and_fix_input_file", "parse_xml_or_get_error_line", "parse_xml"]}]}
{"id": "C121", "title": "Repairing a JATS file changes nothing but its output", "statement": "If nothing fails the output file has the repaired document of the content of the source, and is the only change; without success because of the document no file changes; whatever fails, at most the output is changed, and after success it is complete.", "quantifier": "all source and output files, contents, files on the machine, and faults in reading and writing", "why_tests_cant": "Faults may happen at any point, and the repair reads the file by way of up to three copies.", "anchors": [{"file": "sciencebeam_trainer_grobid_tools/fix_jats_xml.py", "symbols": ["fix_jats_xml_file"]}, {"file": "sciencebeam_trainer_grobid_tools/utils/io.py", "symbols": ["auto_download_input_file"]}, {"file": "sciencebeam_trainer_grobid_tools/utils/xml.py", "symbols": ["auto_download_and_fix_input_file", "parse_xml_or_get_error_line", "parse_xml"]}]}
{"id": "C122", "title": "Values of one block are looked for from the first one found on", "statement": "A value which is not found within the lookahead and has another block than the last search is looked for in the text of all untagged tokens. If found there, following values of the same block are looked for from the sequence of tokens on in which it begins, and no token before gets a tag or sub tag from them in the same round.", "quantifier": "all documents, configurations of fields, values, texts and matchers", "why_tests_cant": "Positions in joined, normalised texts are mapped back to sequences of tokens of any number and length, with state carried from value to value.", "anchors": [{"file": "sciencebeam_trainer_grobid_tools/annotation/simple_matching_annotator.py", "symbols": ["process_target_annotations", "SimpleMatchingAnnotator"]}]}
{"id": "C123", "title": "Sub labels of the file are kept if asked for", "statement": "With --preserve-sub-tags the tools for figures, tables and affiliations keep the sub label of each token of the file, unless it is given by --no-preserve-sub-fields.", "quantifier": "all files, tools with the option, other options and target annotations", "why_tests_cant": "Setting the sub label of one token clears preserved sub labels of other tokens of its line; this needs several labelled tokens on a line and a match at one of them.", "anchors": [{"file": "sciencebeam_trainer_grobid_tools/auto_annotate_figure.py", "symbols": ["AnnotatePipelineFactory"]}, {"file": "sciencebeam_trainer_grobid_tools/auto_annotate_table.py", "symbols": ["AnnotatePipelineFactory"]}, {"file": "sciencebeam_trainer_grobid_tools/auto_annotate_affiliation_address.py", "symbols": ["AnnotatePipelineFactory"]}, {"file": "sciencebeam_trainer_grobid_tools/auto_annotate_utils.py", "symbols": ["add_preserve_sub_tags_argument", "add_no_preserve_sub_fields_argument"]}, {"file": "sciencebeam_trainer_grobid_tools/annotation/annotator.py", "symbols": ["annotate_structured_document_inplace"]}, {"file": "sciencebeam_trainer_grobid_tools/structured_document/grobid_training_tei.py", "symbols": ["set_tag", "_clear_same_preserved_tag_on_same_line"]}]}
{"id": "C124", "title": "Required matches of a path are found or reported", "statement": "Where matches of a path are required, all matches of the path are returned in their order, and never none. If there is none, a ValueError is raised which names the longest start of the path for which there are matches.", "quantifier": "all documents and paths", "why_tests_cant": "Error reporting tries all starts of the path; whether they are valid expressions depends on where in the path slashes occur.", "anchors": [{"file": "sciencebeam_trainer_grobid_tools/utils/xml.py", "symbols": ["get_xpath_matches", "get_first_xpath_match"]}, {"file": "sciencebeam_trainer_grobid_tools/utils/tei_xml.py", "symbols": ["get_tei_xpath_matches", "get_first_tei_xpath_match"]}]}
{"id": "C125", "title": "Saved sub labels can be read back", "statement": "If a document with one container is saved and the file is loaded again, preserving tags, then all text has the same sub label as before, and a sub entity starts where one started before.", "quantifier": "all documents, all assignments of main labels and sub labels to tokens, all tag mappings and the mappings of all tools", "why_tests_cant": "Sub labels are nested into main labels and are written as nested elements; which element a text ends up in depends on the labels of all texts before it, on white space and on line breaks, and what is read back depends on the texts behind it.", "anchors": [{"file": "sciencebeam_trainer_grobid_tools/structured_document/grobid_training_tei.py", "symbols": ["GrobidTrainingTeiStructuredDocument", "_lines_to_tei", "_iter_extract_lines_from_element", "GrobidTrainingTeiStructuredDocument.get_tag"]}]}
{"id": "C126", "title": "A value that occurs literally is labelled where it occurs", "statement": "If the value of the target annotation whose turn it is occurs in the text of the tokens without label (a short value as words with lines joined by spaces, any other value up to white space), and nothing but literal occurrences is accepted as a match, then a part of the text that is the value up to white space is selected and all tokens overlapping it have its label in the document that is written.", "quantifier": "all documents, target annotations, options and matchers that find literal occurrences; all tools that label by the simple matcher", "why_tests_cant": "The search works on windows of a text without white space whose positions are mapped back to the text and then to tokens of several lines; later target annotations, repeated rounds, the extension to whole lines and post processing may all change labels afterwards.", "anchors": [{"file": "sciencebeam_trainer_grobid_tools/annotation/simple_matching_annotator.py", "symbols": ["SimpleMatchingAnnotator", "get_fuzzy_matching_index_range_chunks", "process_target_annotations"]}, {"file": "sciencebeam_trainer_grobid_tools/utils/fuzzy.py", "symbols": ["fuzzy_search_index_range_chunks", "get_str_auto_left_strided_matching_blocks_chunks", "WordSequenceMatcher"]}, {"file": "sciencebeam_trainer_grobid_tools/auto_annotate_utils.py", "symbols": ["get_default_annotators"]}]}
{"id": "C127", "title": "A sub value that occurs literally is sub labelled where it occurs", "statement": "If the value of a sub annotation occurs literally in the text of the match (as words if short, otherwise up to white space and case), no token of an occurrence has a sub label, and nothing found for the sub annotations before it shares a token with an occurrence, then a part of the text that is the value is selected and all tokens overlapping it have its sub label in the document that is written.", "quantifier": "all documents, target annotations with sub annotations, options and matchers that find literal occurrences; the tools for figures, tables, affiliations and references with and without segmentation", "why_tests_cant": "Positions in the text of the match in lower case are taken as positions of tokens in the text as it is; other sub annotations, later target annotations and further rounds may set sub labels afterwards.", "anchors": [{"file": "sciencebeam_trainer_grobid_tools/annotation/simple_matching_annotator.py", "symbols": ["SimpleMatchingAnnotator", "process_sub_annotations"]}, {"file": "sciencebeam_trainer_grobid_tools/utils/fuzzy.py", "symbols": ["iter_fuzzy_search_all_index_ranges"]}, {"file": "sciencebeam_trainer_grobid_tools/annotation/sub_tag_annotator.py", "symbols": ["SubTagOnlyAnnotator"]}, {"file": "sciencebeam_trainer_grobid_tools/auto_annotate_figure.py", "symbols": ["AnnotatePipelineFactory"]}, {"file": "sciencebeam_trainer_grobid_tools/auto_annotate_table.py", "symbols": ["AnnotatePipelineFactory"]}]}
{"id": "C128", "title": "Labels that are not kept do not influence the result", "statement": "If the labels of a source file are not to be kept, the result depends on the tokens of its lines only: two files with the same tokens on the same lines, whatever elements and labels they have, get the same labels, and files with the same container content are written for them.", "quantifier": "all tools, options, target annotations, matchers and pairs of source files", "why_tests_cant": "Labels of the file are attributes of the same mutable tokens the annotators read and write; one that is left over changes what is matched.", "anchors": [{"file": "sciencebeam_trainer_grobid_tools/annotation/annotator.py", "symbols": ["annotate_structured_document", "annotate_structured_document_inplace", "_map_token_tags"]}, {"file": "sciencebeam_trainer_grobid_tools/structured_document/grobid_training_tei.py", "symbols": ["GrobidTrainingTeiStructuredDocument", "_iter_extract_lines_from_container_elements"]}, {"file": "sciencebeam_trainer_grobid_tools/auto_annotate_utils.py", "symbols": ["AbstractAnnotatePipelineFactory"]}]}
{"id": "C129", "title": "Running a tool again on its output does not change the file", "statement": "If no labels are to be kept, a run of a tool on the file it has written, with the same options and target annotations, writes the same file again.", "quantifier": "all tools, options, target annotations, matchers and source files with one container", "why_tests_cant": "A run depends on what was written and read back before; tests run a tool once.", "anchors": [{"file": "sciencebeam_trainer_grobid_tools/annotation/annotator.py", "symbols": ["annotate_structured_document", "annotate_structured_document_inplace", "_map_token_tags"]}, {"file": "sciencebeam_trainer_grobid_tools/structured_document/grobid_training_tei.py", "symbols": ["GrobidTrainingTeiStructuredDocument", "_iter_extract_lines_from_container_elements"]}, {"file": "sciencebeam_trainer_grobid_tools/auto_annotate_utils.py", "symbols": ["AbstractAnnotatePipelineFactory"]}]}
{"id": "C130", "title": "The files after a run over many documents", "statement": "After a run of a tool, whatever the order in which the workers made their steps: for each source file that can be processed, the file with its name in the directory for the output (or in the one for failed checks) is the source document annotated with the target annotations of its own target file; its text is that of the source document; all other files are unchanged. What is written for a source file does not depend on the other files of the run, and is the same after runs that were interrupted and resumed.", "quantifier": "all tools, options, sets of source files with different names, contents of source and target files, schedules of the workers and points of interruption outside of the writing of an output", "why_tests_cant": "It is about the files of a whole run under all schedules; tests annotate one small document at a time.", "anchors": [{"file": "sciencebeam_trainer_grobid_tools/auto_annotate_utils.py", "symbols": ["AbstractAnnotatePipelineFactory._auto_annotate", "AbstractAnnotatePipelineFactory.run_local_pipeline", "AbstractAnnotatePipelineFactory.get_target_xml_for_source_file", "AbstractAnnotatePipelineFactory.get_tei_xml_output_file_for_source_file", "AbstractAnnotatePipelineFactory.get_tei_xml_failed_output_file_for_source_file", "get_default_annotators"]}, {"file": "sciencebeam_trainer_grobid_tools/annotation/annotator.py", "symbols": ["annotate_structured_document"]}, {"file": "sciencebeam_trainer_grobid_tools/annotation/target_annotation.py", "symbols": ["xml_root_to_target_annotations"]}]}
{"id": "C131", "title": "The result does not depend on the order of sets", "statement": "The fields of a tool, the fields to be kept and the fields to be checked are sets of strings, over which Python iterates in an order that differs from one process to the next. The documents written, their paths and the failures of a run are the same for any order.", "quantifier": "all tools, options, orders of the elements of the sets, source and target files and schedules", "why_tests_cant": "A test runs with one order per process and cannot control it.", "anchors": [{"file": "sciencebeam_trainer_grobid_tools/auto_annotate_utils.py", "symbols": ["get_xml_mapping_and_fields", "get_filtered_xml_mapping_and_fields", "AbstractAnnotatePipelineFactory._auto_annotate", "is_structured_document_passing_checks"]}, {"file": "sciencebeam_trainer_grobid_tools/auto_annotate_header.py", "symbols": ["AnnotatePipelineFactory.__init__"]}, {"file": "sciencebeam_trainer_grobid_tools/auto_annotate_segmentation.py", "symbols": ["is_segmentation_structured_document_passing_checks"]}, {"file": "sciencebeam_trainer_grobid_tools/structured_document/grobid_training_tei.py", "symbols": ["GrobidTrainingTeiStructuredDocument"]}, {"file": "sciencebeam_trainer_grobid_tools/annotation/annotator.py", "symbols": ["annotate_structured_document_inplace"]}]}
{"id": "C132", "title": "Only what the command line selects is annotated", "statement": "A label in a document annotated by a run is a field of the target file which the options --fields, --xml-mapping-overrides and the mapping file select, a label the tool adds of its own, or a label of the source file that is to be kept; a sub label likewise with --sub-fields. The entries of the mapping which are used are exactly those of the fields and sub fields selected, with the overrides.", "quantifier": "all tools, option texts, mapping files, target and source documents, and both matchers", "why_tests_cant": "Tests fix a few options and documents; the claim relates the text of the options to every label that can occur in a result.", "anchors": [{"file": "sciencebeam_trainer_grobid_tools/auto_annotate_utils.py", "symbols": ["add_fields_argument", "add_sub_fields_argument", "get_xml_mapping_and_fields", "AbstractAnnotatePipelineFactory.__init__"]}, {"file": "sciencebeam_trainer_grobid_tools/auto_annotate_header.py", "symbols": ["AnnotatePipelineFactory.__init__"]}, {"file": "sciencebeam_trainer_grobid_tools/auto_annotate_segmentation.py", "symbols": ["AnnotatePipelineFactory.__init__", "DEFAULT_FIELDS"]}, {"file": "sciencebeam_trainer_grobid_tools/auto_annotate_fulltext.py", "symbols": ["AnnotatePipelineFactory.__init__", "ALL_FIELDS"]}, {"file": "sciencebeam_trainer_grobid_tools/auto_annotate_figure.py", "symbols": ["AnnotatePipelineFactory.__init__"]}, {"file": "sciencebeam_trainer_grobid_tools/auto_annotate_reference.py", "symbols": ["AnnotatePipelineFactory.__init__"]}, {"file": "sciencebeam_trainer_grobid_tools/utils/string.py", "symbols": ["plus_minus_comma_separated_str_to_set", "parse_dict"]}]}
{"id": "C133", "title": "The values of a list are labelled where they occur", "statement": "If each of the values of a target annotation with a list of values occurs literally in the text (or is not found at all), then one range is labelled: it goes from the first to the last of the places of the values that belong to the longest group of close ones. If all the places are within ten characters of each other, each of the values is labelled where it occurs.", "quantifier": "all documents, lists of values, configurations and matchers which find literal occurrences", "why_tests_cant": "The places of all values and the gaps between them depend on the whole text; tests use a few texts with two values.", "anchors": [{"file": "sciencebeam_trainer_grobid_tools/annotation/simple_matching_annotator.py", "symbols": ["SimpleMatchingAnnotator.iter_matching_index_ranges", "select_index_ranges", "merge_index_ranges", "SimpleMatchingAnnotator.process_target_annotations"]}]}
{"id": "C134", "title": "A value that occurs literally can be read back from the written training file", "statement": "Running a tool on a file with target annotations whose first value occurs literally in the text of the file, and none of the labels of the file being kept, writes a file which can be loaded again. When it is loaded, neighbouring text with the label of the target annotation contains the value, up to case, white space and the normalisation used for matching. The same holds for each of the values of a list which are close together. All the labels read from the file are those given to the text.", "quantifier": "all files, options, target annotations and tools that label by the simple matcher without removing text, all matchers that find literal occurrences", "why_tests_cant": "the chain from loading over matching, labelling, post-processing and writing to loading again is only tested for single examples; a mistake at any place which shows for some texts only loses training data silently", "anchors": [{"file": "sciencebeam_trainer_grobid_tools/annotation/simple_matching_annotator.py", "symbols": ["SimpleMatchingAnnotator.annotate"]}, {"file": "sciencebeam_trainer_grobid_tools/auto_annotate_utils.py", "symbols": ["AbstractAnnotatePipelineFactory.auto_annotate"]}, {"file": "sciencebeam_trainer_grobid_tools/structured_document/grobid_training_tei.py", "symbols": ["GrobidTrainingTeiStructuredDocument", "load_grobid_training_tei_structured_document", "save_grobid_training_tei_structured_document"]}]}
{"id": "C135", "title": "Labels of fields for which a tool has no element can be read back", "statement": "A field which is annotated although the tool has no element for it is written to a note element with the name of the field. If a document with labels of such fields, of the fields the tool has elements for and of none is saved and loaded again, all text keeps its label and the entities start at the same places. This covers all fields of the shipped mapping for all tools, except list items for the full text tool.", "quantifier": "all documents, all tools, all lists of further fields whose names have no slash, brace or line break and are not `other`", "why_tests_cant": "which paths collide depends on the combination of all fields selected by the user with the mapping of the tool, and on what text has which label next to it", "anchors": [{"file": "sciencebeam_trainer_grobid_tools/structured_document/grobid_training_tei.py", "symbols": ["GrobidTrainingTeiStructuredDocument", "load_grobid_training_tei_structured_document", "save_grobid_training_tei_structured_document"]}, {"file": "sciencebeam_trainer_grobid_tools/auto_annotate_header.py", "symbols": ["AnnotatePipelineFactory.__init__"]}, {"file": "sciencebeam_trainer_grobid_tools/auto_annotate_fulltext.py", "symbols": ["AnnotatePipelineFactory.__init__"]}]}
{"id": "C136", "title": "Options to training file: a title in the target file can be read back from the file written", "statement": "If a tool is run with the shipped mapping and the simple matcher, not keeping labels of the source file, then for each source file that is annotated the file written can be loaded again. If the value of the first target annotation read from its target file occurs literally in the source text, then text with the label of its field which contains the value is read back. This needs no condition on the source files besides having the element the tool annotates once.", "quantifier": "all command lines of the tools with the shipped mapping (all fields for the header tool, listed fields of the tool for the others), all source and target files", "why_tests_cant": "it is the whole chain from options, configuration and two parsed files to the file written, of which tests check single steps on single examples", "anchors": [{"file": "sciencebeam_trainer_grobid_tools/auto_annotate_utils.py", "symbols": ["AbstractAnnotatePipelineFactory.__init__", "AbstractAnnotatePipelineFactory.auto_annotate", "get_xml_mapping_and_fields", "get_default_config_path"]}, {"file": "sciencebeam_trainer_grobid_tools/structured_document/grobid_training_tei.py", "symbols": ["GrobidTrainingTeiStructuredDocument", "load_grobid_training_tei_structured_document", "save_grobid_training_tei_structured_document"]}, {"file": "sciencebeam_trainer_grobid_tools/annotation/simple_matching_annotator.py", "symbols": ["SimpleMatchingAnnotator.annotate"]}]}
{"id": "C137", "title": "The report of comparisons explains all matches and does not change the annotation", "statement": "With the option for a report of the comparisons of the complex matcher, documents are annotated as without it. The report has a row with a consecutive number and a value in every column for each comparison made: the rows of the search for a value start where the previous row has ended, a match is found exactly for the accepted rows, in the text of their choices, and the search ends with the first row which has reached the end of the value. The report of a run covers all its documents.", "quantifier": "all documents, target annotations with sub annotations, configurations and matchers", "why_tests_cant": "the report is written in the middle of the search, for each choice in each of the nested loops; tests only check that a reporter is called", "anchors": [{"file": "sciencebeam_trainer_grobid_tools/core/annotation/matching_annotator.py", "symbols": ["TargetAnnotationMatchFinder", "CsvMatchDetailReporter", "MatchDebugFields"]}, {"file": "sciencebeam_trainer_grobid_tools/auto_annotate_utils.py", "symbols": ["get_match_detail_reporter", "AnnotatorConfig.get_matching_annotator_config"]}]}
{"id": "C138", "title": "Well-formed JATS files are all repaired", "statement": "If every source can be read as XML (possibly after the text repair) and no DOI annotation in its references is empty or directly follows another DOI annotation, then repairing the files reports no error, in whatever order the workers run, and every output is the document of its source with each reference replaced by its repaired version, everything else unchanged, and the five entries describing the changes added.", "quantifier": "all lists of such files with outputs apart from the sources, all interleavings of the workers, all results of the regular expressions", "why_tests_cant": "Whether a reference makes the tool fail depends on how all steps change it one after the other, on texts that tests cannot enumerate; and the outcome must not depend on the schedule of the workers.", "anchors": [{"file": "sciencebeam_trainer_grobid_tools/fix_jats_xml.py", "symbols": ["main", "run", "process_source_file", "fix_jats_xml_file", "fix_jats_xml_node", "fix_reference"]}, {"file": "sciencebeam_trainer_grobid_tools/utils/xml.py", "symbols": ["parse_xml"]}]}
{"id": "C139", "title": "References with nothing to fix are left as they are", "statement": "If every identifier of a reference is in lower case type and is exactly what its pattern finds, its title has no label, opening quotation mark or trailing comma, its links are single URLs ending with the DOI, and no identifier is in its citation text without annotation of its type, then repairing leaves all elements, attributes and texts of the reference as they are; and a document with only such references is written as it was read except for the five added entries, which say that no reference was changed.", "quantifier": "all such references and documents, all regular expressions and serialisations", "why_tests_cant": "Seventeen steps rewrite the texts around annotations by moving empty pieces of text; that all of them together are the identity on every correct reference, whatever its nesting, cannot be covered by examples.", "anchors": [{"file": "sciencebeam_trainer_grobid_tools/fix_jats_xml.py", "symbols": ["fix_reference", "fix_article_title", "fix_ext_link", "change_annotation_to_matching_text", "add_annotation_to_reference_element_if_matching", "convert_known_pub_id_type_to_lower_case", "fix_jats_xml_node"]}]}
{"id": "C140", "title": "Text of ALTO pages", "statement": "The text made by the ALTO stylesheet has one line for each text line with words, the words of a line separated by single spaces, a blank line between text blocks and two blank lines between pages; parts without words leave no trace. If words are in lines, lines in blocks and blocks in pages then each word of the document is written once and in document order; and if in addition no word is empty or has a space or line feed, and each page has words, then the pages, blocks, lines and words can be read back from the text.", "quantifier": "all documents of elements, whatever is between and beside pages, blocks, lines and words, all words", "why_tests_cant": "The templates depend on positions among the selected elements, which skip the ones without words; that no word is lost or repeated for every nesting, and that separators are not ambiguous, holds for no finite set of pages.", "anchors": [{"file": "sciencebeam_trainer_grobid_tools/xslt/alto_to_text.xsl", "symbols": ["alto:String", "alto:TextLine", "alto:TextBlock", "alto:Page"]}]}
{"id": "C141", "title": "All values with places of their own are labelled there", "statement": "If the values of all fields occur literally in the text, each at one place in the text which is left when the places of the values before it are taken, then all tokens of all these places are labelled with their fields in the result, whatever is completed afterwards; without extension to lines the first token of a place begins its label, the others continue it, and no other token changes. So all of these values can be read back, under their fields, from the file which is written.", "quantifier": "all documents, all lists of fields with single values, all places found one after the other, all search components which find literal occurrences, all tools which label by matching, all thresholds up to 1", "why_tests_cant": "Each value is searched in the text without the tokens labelled before, so an earlier value can split, hide or move a later one; that nothing is taken away from an earlier value by later ones, by extension to lines or by the annotators after the matcher must hold for any number of values.", "anchors": [{"file": "sciencebeam_trainer_grobid_tools/annotation/simple_matching_annotator.py", "symbols": ["SimpleMatchingAnnotator.annotate"]}, {"file": "sciencebeam_trainer_grobid_tools/annotation/matching_utils.py", "symbols": ["PendingSequences.get_pending_sequences", "SequencesText"]}]}
{"id": "C142", "title": "The segments of the values are read back from the segmentation's file", "statement": "If the segmentation is run on a file, keeping no labels, with fields that all have a segment in its configuration, then loading the file written gives the same characters other than white space, and each of them has the label of a segment: a fixed one or one configured for one of the fields. Moreover each line, more than half of which is at the place of a value (found as the values before it leave it), has the label of the segment of this value throughout, unless its text occurs more than twice (page headers) or it is of the front and behind the threshold.", "quantifier": "all files with one container, all configurations of segments in which all annotated fields have a segment, all lists of fields with single values, all places, all search components which find literal occurrences, all results of the number parser", "why_tests_cant": "Matching, completion of lines, the choice of the most frequent label, the front threshold, page numbers, headers, merging, writing and loading have to work together for any number of lines and values.", "anchors": [{"file": "sciencebeam_trainer_grobid_tools/auto_annotate_segmentation.py", "symbols": ["AnnotatePipelineFactory.get_annotator"]}, {"file": "sciencebeam_trainer_grobid_tools/annotation/segmentation_annotator.py", "symbols": ["SegmentationAnnotator.annotate"]}, {"file": "sciencebeam_trainer_grobid_tools/annotation/simple_matching_annotator.py", "symbols": ["SimpleMatchingAnnotator.annotate"]}, {"file": "sciencebeam_trainer_grobid_tools/structured_document/grobid_training_tei.py", "symbols": ["GrobidTrainingTeiStructuredDocument"]}]}
{"id": "C143", "title": "The checks asked for on the command line decide where a document is written", "statement": "After a run with lists of fields that have to match where present, or have to be present, the annotated document of each source file processed without an error is the file in the output directory exactly if there are no fields to be checked, or there are target values and each field named has a single text as value which is found in the annotated document (or, where it only has to match, no value); otherwise that file is as it was before the run, and the document is written to the directory for failed checks if there is one. Names are the parts between the commas without white space around them; tools without these options write all documents to the output directory.", "quantifier": "all tools, options, source and target files, schedules of the workers", "why_tests_cant": "Which documents are kept depends on options, target values, the annotation and the workers together; tests check the functions one by one.", "anchors": [{"file": "sciencebeam_trainer_grobid_tools/auto_annotate_utils.py", "symbols": ["add_document_checks_arguments", "AbstractAnnotatePipelineFactory"]}, {"file": "sciencebeam_trainer_grobid_tools/annotation/checks.py", "symbols": ["is_structured_document_passing_checks"]}, {"file": "sciencebeam_trainer_grobid_tools/auto_annotate_segmentation.py", "symbols": ["is_segmentation_structured_document_passing_checks"]}, {"file": "sciencebeam_trainer_grobid_tools/annotation/annotator.py", "symbols": ["annotate_structured_document"]}, {"file": "sciencebeam_trainer_grobid_tools/utils/string.py", "symbols": ["comma_separated_str_to_list"]}]}
{"id": "C144", "title": "Order, repetition and blanks in the lists of the command line do not matter", "statement": "Two command lines for the same tool which select the same fields and sub fields and list the same names in the other options with lists give the same documents and paths, for each source file and for whole runs. Fields are selected alike if the same names are listed in any order, any number of times and with any blanks around them, if the default is listed instead of not giving the option, and if the same fields are added with + and removed with - in any order.", "quantifier": "all tools, option texts, mapping files, source and target files, and schedules", "why_tests_cant": "Tests fix one spelling of the options; the names pass through lists, sets and the mapping, where the order could show up in the paths of elements, in the labels kept or in the checks.", "anchors": [{"file": "sciencebeam_trainer_grobid_tools/utils/string.py", "symbols": ["comma_separated_str_to_list", "plus_minus_comma_separated_str_to_set"]}, {"file": "sciencebeam_trainer_grobid_tools/auto_annotate_utils.py", "symbols": ["add_fields_argument", "add_document_checks_arguments", "get_xml_mapping_and_fields", "AbstractAnnotatePipelineFactory"]}]}
{"id": "C145", "title": "Line numbers are found among other numbers", "statement": "If the lines of a page have line numbers, which increase down the page within the gap and are enough of the lines, then all of them are labelled, whatever other numbers other lines begin with.", "quantifier": "all documents, configurations, sequences of line numbers and other numbers", "why_tests_cant": "Tests have pages with line numbers only or with one other number; whether other numbers get in the way depends on their values and positions together.", "anchors": [{"file": "sciencebeam_trainer_grobid_tools/annotation/line_number_annotator.py", "symbols": ["get_line_number_candidates", "iter_find_line_number_tokens_in_lines", "TextLineNumberAnnotator"]}]}
{"id": "C146", "title": "The values of sub annotations can be read back from the file written", "statement": "Running the tool for figures, tables, affiliations or references with segmentation on a file, keeping none of its labels, with a target annotation and a sub annotation whose values occur literally, writes a file which has, when it is loaded again, text with the sub label that spells the value of the sub annotation.", "quantifier": "all files, target annotations, sub annotations, options and matchers which find literal occurrences", "why_tests_cant": "Tests look at the sub labels of single tokens and at single elements; whether a sub label survives writing and reading depends on the path, the prefixes and the lines of the text around it.", "anchors": [{"file": "sciencebeam_trainer_grobid_tools/annotation/simple_matching_annotator.py", "symbols": ["SimpleMatchingAnnotator", "process_sub_annotations"]}, {"file": "sciencebeam_trainer_grobid_tools/structured_document/grobid_training_tei.py", "symbols": ["GrobidTrainingTeiStructuredDocument", "_lines_to_tei"]}, {"file": "sciencebeam_trainer_grobid_tools/auto_annotate_figure.py", "symbols": ["AnnotatePipelineFactory"]}]}
{"id": "C147", "title": "A finished download has all pairs that exist, whatever the threads do", "statement": "If a run of the download finishes, then for each pair of a document and a target of which both files exist, both outputs have the contents of these files, and no file other than outputs has been changed; it can always finish, whatever the order in which the threads copy, provided the outputs are different files and none of the sources.", "quantifier": "all lists of files, patterns, file systems and schedules of the threads", "why_tests_cant": "Tests copy one or two files with a mocked pool; what is there in the end depends on the filter, the names, the order of the two rounds of copying and the steps of the threads together.", "anchors": [{"file": "sciencebeam_trainer_grobid_tools/download_source_files.py", "symbols": ["run", "copy_files", "copy_file", "filter_file_pair_exists", "get_output_file_list"]}]}
{"id": "C148", "title": "The tools change nothing outside the container", "statement": "The file written by a tool differs from the source file only in the container, the first element to which the container path of the tool leads: every other element is in the same place with the same tag, attributes, text and following text, no elements are added or missing outside the container, and the container keeps its tag.", "quantifier": "all tools, options, documents and target files, in any order of the elements", "why_tests_cant": "Tests compare the annotated container, or a document with nothing else in it; that header, attributes, other parts and repeated elements stay as they are must hold for every document.", "anchors": [{"file": "sciencebeam_trainer_grobid_tools/structured_document/grobid_training_tei.py", "symbols": ["_updated_tei_with_lines", "GrobidTrainingTeiStructuredDocument.root"]}, {"file": "sciencebeam_trainer_grobid_tools/auto_annotate_utils.py", "symbols": ["AbstractAnnotatePipelineFactory.auto_annotate", "AbstractAnnotatePipelineFactory._auto_annotate"]}]}
{"id": "C149", "title": "The repair finds exactly the identifiers in a text", "statement": "In every text: a PMID is found exactly if `PMID`, a colon and a number of 1 to 10 digits that ends a word occur, with white space around the colon only, and then the first such number is found; the same holds for `WOS` and 15 digits whatever the case. A PMID annotation is reduced to a whole number of 1 to 10 digits, the first one. PMCIDs are `PMC` in any case followed by digits, all of them. PIIs start with S or B and have 16 digits or more, X counting as digit, with any punctuation in between; they are found exactly if they occur at the edge of a word. Other PIIs are found in front of `[pii]`. Titles lose a comma or `; PMC…` at their end, and a DOI is cut off at the first of six words behind white space or a parenthesis.", "quantifier": "all texts and all classes of characters", "why_tests_cant": "The patterns are tested on the texts they were written for; what they find in a text with several candidates, long numbers or labels in other places depends on backtracking and greedy repetition over arbitrary text.", "anchors": [{"file": "sciencebeam_trainer_grobid_tools/fix_jats_xml.py", "symbols": ["PMID_PATTERN", "PMID_FIX_PATTERN", "PMCID_PATTERN", "WOS_PATTERN", "PII_VALID_PATTERN", "PII_OTHER_PATTERN", "ARTICLE_TITLE_PATTERN", "DOI_TRUNCATE_AT_PATTERN", "DOI_PATTERN", "find_re_pattern_start_end"]}]}
{"id": "C150", "title": "Labels in front of identifiers become part of them exactly if they end the text before", "statement": "With `--include-idno-prefix`: the untagged text in front of an identifier is searched for a label. One is found exactly if the text ends with a word that starts within it, followed by nothing, a colon or one white space and a colon, and perhaps a line break; the word is `DOI` for DOIs and `PII` for PIIs, whatever the case, and at least two letters for ISSNs, ISBNs, PMIDs, PMCIDs and arXiv identifiers. Then the tokens from the start of the label on, and only these, become part of the identifier; otherwise the identifier remains as it is.", "quantifier": "all references with sub tags, all texts in front of identifiers and all classes of characters", "why_tests_cant": "Tests try a few labels; which of the tokens before an identifier are taken depends on the borders of words, white space and tokens in arbitrary text.", "anchors": [{"file": "sciencebeam_trainer_grobid_tools/auto_annotate_reference.py", "symbols": ["IDNO_PREFIX_REGEX_MAP", "IDNO_SUB_TAGS"]}, {"file": "sciencebeam_trainer_grobid_tools/annotation/reference_annotator.py", "symbols": ["DEFAULT_IDNO_PREFIX_REGEX", "get_prefix_extended_token_tags", "ReferenceSubTagOnlyAnnotator"]}]}
{"id": "C151", "title": "The heading of an abstract and the label of an affiliation become part of them", "statement": "With the configuration shipped: where an abstract has been found, the heading `abstract` or `summary` in front of it, with white space only in between, becomes part of it, and where an affiliation has been found, its label in front of it, with white space, dots and dashes only in between. If there is no such heading or label in front, the place found is not changed; nor is it for other fields.", "quantifier": "all texts in front of a match, all labels and all classes of characters", "why_tests_cant": "Tests try a heading and a few labels; which text is taken depends on the escaping of the label within the pattern and on the text in front of the match, whatever characters they have.", "anchors": [{"file": "sciencebeam_trainer_grobid_tools/annotation/simple_matching_annotator.py", "symbols": ["apply_match_prefix_regex_to_index_range", "resolve_regex_placeholders", "get_sub_tag_placeholders", "parse_regex"]}, {"file": "sciencebeam_trainer_grobid_tools/config/xml-mapping.conf", "symbols": ["abstract.match-prefix-regex", "author_aff.match-prefix-regex"]}]}
{"id": "C152", "title": "Labels of the source file stay where a tool gives none", "statement": "Unless labels are not to be kept, running a tool with segmentation for figures, tables, affiliations or references on a file keeps the label of each token which is not of a field to be annotated, if the tool gives no label to the token.", "quantifier": "all source files, target annotations, options and tokens", "why_tests_cant": "Tests compare a few documents with one label; which labels are lost depends on where the other words of a line get labels.", "anchors": [{"file": "sciencebeam_trainer_grobid_tools/annotation/simple_matching_annotator.py", "symbols": ["update_annotation_for_index_range"]}, {"file": "sciencebeam_trainer_grobid_tools/structured_document/grobid_training_tei.py", "symbols": ["set_tag", "set_tag_only", "_clear_same_preserved_tag_on_same_line"]}, {"file": "sciencebeam_trainer_grobid_tools/auto_annotate_reference.py", "symbols": ["_get_annotator"]}, {"file": "sciencebeam_trainer_grobid_tools/auto_annotate_figure.py", "symbols": ["_get_annotator"]}]}
{"id": "C153", "title": "The kinds of dashes, spaces and quotes and the case of values make no difference", "statement": "The matchers compare texts in lower case, with long dashes as hyphens, thin spaces as spaces and single quotes (and the entity for an apostrophe) as double ones; the complex matcher also ignores asterisks, full stops behind letters, spaces and commas behind full stops, and repeated characters. If the values of target annotations are replaced by others which differ only in case and the kinds of dashes, spaces and quotes, then the annotated document is the same: with the simple matcher unless a field has alternative spellings, and with the complex matcher for the values of sub annotations, too.", "quantifier": "all documents, lists of target annotations, configurations and matchers", "why_tests_cant": "Tests normalise a few texts; that no step between the value and the labels depends on its spelling is a claim about all steps.", "anchors": [{"file": "sciencebeam_trainer_grobid_tools/annotation/matching_utils.py", "symbols": ["normalise_str", "normalise_and_remove_junk_str"]}, {"file": "sciencebeam_trainer_grobid_tools/annotation/simple_matching_annotator.py", "symbols": ["SimpleMatchingAnnotator"]}, {"file": "sciencebeam_trainer_grobid_tools/core/annotation/matching_annotator.py", "symbols": ["normalise_str", "normalise_and_remove_junk_str", "MatchingAnnotator"]}, {"file": "sciencebeam_trainer_grobid_tools/core/annotation/fuzzy_match.py", "symbols": ["remove_junk", "DEFAULT_ISJUNK"]}]}
{"id": "C154", "title": "Each tool works on its own part of a document", "statement": "The tools read the text of certain elements of a document and write it back there: the tool for headers the front of the text, those for references and affiliations the lists of references and the authors, in the TEI name space, and all others the text. Documents in which these elements are the same are read alike. If there are none, then the document has no lines, and it cannot be written. The elements written for labels are in the name space of the part.", "quantifier": "all tools, options and documents", "why_tests_cant": "Tests use documents made for the tool with one such element; that nothing else is read is a claim about all documents.", "anchors": [{"file": "sciencebeam_trainer_grobid_tools/auto_annotate_header.py", "symbols": ["HEADER_CONTAINER_NODE_PATH"]}, {"file": "sciencebeam_trainer_grobid_tools/auto_annotate_reference.py", "symbols": ["REFERENCE_CONTAINER_NODE_PATH", "REFERENCE_TAG_TO_TEI_PATH_MAPPING"]}, {"file": "sciencebeam_trainer_grobid_tools/auto_annotate_affiliation_address.py", "symbols": ["AFFILIATION_CONTAINER_NODE_PATH", "AFFILIATION_TAG_TO_TEI_PATH_MAPPING"]}, {"file": "sciencebeam_trainer_grobid_tools/structured_document/grobid_training_tei.py", "symbols": ["GrobidTrainingTeiStructuredDocument", "_updated_tei_with_lines"]}]}
{"id": "C155", "title": "Each tool has its own files", "statement": "Each tool looks for the files directly in the source directory which have its name followed by .tei.xml somewhere in their names, compressed or not. Of the files which have .tei.xml only once in their names, none is a file of two tools; so tools which use the same directories do not annotate or overwrite each other's files.", "quantifier": "all tools, options, directories and names of files", "why_tests_cant": "The names of some tools begin with those of others, and the patterns accept any text before and behind them; tests use a few names.", "anchors": [{"file": "sciencebeam_trainer_grobid_tools/auto_annotate_utils.py", "symbols": ["AbstractAnnotatePipelineFactory.get_source_file_list", "AbstractAnnotatePipelineFactory.get_tei_xml_output_file_for_source_file"]}, {"file": "sciencebeam_trainer_grobid_tools/auto_annotate_header.py", "symbols": ["AnnotatePipelineFactory.__init__"]}, {"file": "sciencebeam_trainer_grobid_tools/auto_annotate_reference.py", "symbols": ["AnnotatePipelineFactory.__init__"]}, {"file": "sciencebeam_trainer_grobid_tools/auto_annotate_reference_segmenter.py", "symbols": ["AnnotatePipelineFactory.__init__"]}, {"file": "sciencebeam_trainer_grobid_tools/auto_annotate_figure.py", "symbols": ["AnnotatePipelineFactory.__init__"]}, {"file": "sciencebeam_trainer_grobid_tools/auto_annotate_table.py", "symbols": ["AnnotatePipelineFactory.__init__"]}]}
