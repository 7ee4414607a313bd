# Design of the formal model

The repository under study is `elifesciences/sciencebeam-trainer-grobid-tools`
(Python, read only, in `/repo`).  All paths below are relative to
`/repo/sciencebeam_trainer_grobid_tools/`.

## 1. Modelling conventions

* **Shallow model.** Each Python function becomes one total Lean function with
  the same branches in the same order.  Loops become structural recursion or
  folds, generators become the list of what they yield, mutation becomes
  returning the new value, exceptions become values (`Except Err α`).
* **Strings** are `List Char` (abbreviation `Str`), so that the kernel can
  evaluate the concrete examples.  `None` versus a string is `Option Str`.
  Python truthiness of an optional string (`if tag:`) is `truthy`.
* **Dictionaries** are association lists with Python's `get`, "set or remove"
  and insertion order.
* **Character classes** (`str.isupper`, `\W`, `str.isspace`, ...) are
  parameters (`CharClass`) of the model: theorems hold for every choice.
* **Documents.** Tokens are objects with identity that are shared between the
  document, its lines and the `token.line` back reference.  They are modelled
  by token ids (`Nat`) in a store, so that aliasing (for example in
  `remove_all_untagged`) can be expressed.
* **XML** is a tree `Elem` with tag, attributes, text, children and tail, i.e.
  lxml's data model.  The tree writer is a zipper of open frames.
* **External code** (lxml parsing, `regex` patterns whose matching semantics is
  not needed, `LocalSequenceMatcher`, levenshtein ratio, file system calls) is
  a parameter of the model; what is assumed of it is a hypothesis of the theorem
  or, if nothing is assumed, nothing at all.
* Every definition cites the lines it models.  Simplifications are stated in
  that comment.

## 2. Layout

| directory | content |
|---|---|
| `lean/Verif/Model/` | the model of the code |
| `lean/Verif/Spec/` | small independent specifications used in statements |
| `lean/Verif/Lemmas/` | helper lemmas |
| `lean/Verif/Props/` | the property theorems, each with a non-vacuity example |

## 3. Plan per property

| id | what is modelled | how it is proved |
|---|---|---|
| C01 | `split_tag_prefix`, `add_tag_prefix` | case analysis on the tag |
| C02 | `get_scoped_attrib_name`, attrib dicts, `SimpleToken`, `get_attrib_by_scope` | injectivity of the name (decimal digits contain no separator), association-list lemmas |
| C03 | `merge_with`, `merge_token_tag` | induction over the token lists |
| C04 | `_tokenize_text` (split at non word characters kept, then lower/upper), `TokenWriter` | induction over the text |
| C05 | `_iter_extract_lines_from_element`, `LineBuffer` | structural induction over element trees |
| C06-C09 | `_lines_to_tei` on a zipper | invariant over the writer state; text of the zipper grows by the appended text |
| C10 | constructor + `root` property | composition of C05 and C06; negation witness for several containers |
| C11 | `_preserve_current_tags`, `_reset_current_tags` | folds over token ids |
| C12 | `set_tag`, `_clear_same_preserved_tag_on_same_line` | frame conditions by induction over the line |
| C13 | `remove_all_untagged` with shared list aliasing | negation witness, plus partial theorem for what holds |
| C14, C15 | `annotate_structured_document(_inplace)` | annotators are arbitrary functions |
| C16, C17 | resume and skip-errors pipeline | induction over crash histories |
| C18 | shared `ExitStack` under an interleaving semantics | invariant for one worker, negation witness schedule for two |
| C19-C22 | `SimpleMatchingAnnotator` | induction; matcher is a parameter |
| C23-C25 | post-processing annotators | induction over lines |
| C26 | line number annotator | list lemmas |
| C27, C28 | `checks.py` | induction, decision logic |
| C29-C32 | `segmentation_annotator.py` | invariants over the line list |
| C33 | `reference_annotator.py` | length and pointwise invariants |
| C34 | `SubTagOnlyAnnotator` | frame; negation witness for explicit tags |
| C35-C38 | `utils/fuzzy.py` | list lemmas, well-founded loops, arithmetic |
| C39-C41 | `matching_utils.py`, `core/annotation/matching_annotator.py` | induction |
| C42 | `utils/string.py` | refinement to an abstract list edit |
| C43 | mapping filters | list lemmas |
| C44 | `FixingHtmlParser` as an event transducer | invariant: output ++ closing of stack is balanced |
| C45 | `strip_whitespace` | termination by length, normal form by the exit condition |
| C46 | sorting of target annotations | stable insertion sort as model of `sorted` |
| C47-C50 | `fix_jats_xml.py` | tree text lemmas; negation witnesses |
| C51, C52 | `xslt/alto_to_text.xsl` | `AltoText` |
| `download_source_files.py` | list lemmas; negation witness |
| C53-C55 | `core/annotation/fuzzy_match.py` | list arithmetic |
| C56 | tag expressions | split lemmas |
| C57 | index range clusters | induction |
| C58, C59 | loading: which element gives a token its tags | induction over element trees with the state of the line buffer; negation witness for sub tags behind a line break |
| C60 | `parse_dict`-style options of `utils/string.py` | list lemmas |
| C61, C62 | results of the fuzzy search; the sequence matcher is a parameter of which only soundness of its blocks is assumed | induction over the blocks |
| C63-C66 | `SimpleMatchingAnnotator`: literal values are found, the whole match is tagged, sub annotations inside | composition of the search and range lemmas |
| C67 | front blocks of `segmentation_annotator.py` | invariant over the lines |
| C68-C72 | the four steps of `reference_annotator.py` | pointwise description of each step, composition |
| C73 | end tags in `FixingHtmlParser` | stack invariant; negation witnesses |
| C74-C79 | `core/annotation/target_annotation.py`, `annotation/target_annotation.py`; XPath results are a parameter | list and tree induction; negation witnesses |
| C80, C82 | `fix_jats_xml.py`: totality, identifiers added | case analysis per fixing step |
| C81 | download pool as an interleaving of writes | induction over schedules |
| C83-C91 | the line matcher `core/annotation/matching_annotator.py`; the fuzzy scores are parameters | invariants over the search state |
| C92-C97 | the tools: each factory's list of annotators composed with loading and saving | frame conditions of every annotator, composed |
| C98 | checks of the segmentation tool over all orders of the set of field names | case analysis, quantified over permutations |
| C99 | the expansion of tags in the full text tool | line invariants |
| C100, C104 | where labels come from: `SimpleMatchingAnnotator` and the line matcher | each label is traced back to a match of a target annotation |
| C101 | tag configuration from the XML mapping | dictionary lemmas |
| C102, C103 | the JATS repair tool for one file and for many files | case analysis; induction over any order of the jobs |
| C105, C106, C109 | saving and loading again: main tags, entity boundaries, tokens | every character of the written tree has an address; the writer's places are related to the reader's segments; text nodes are followed through all writer operations |
| C107 | the target file and the substitution of names; `re.sub` is unfolded for the suffix patterns | list lemmas on suffixes |
| C108 | name spaces in paths | split lemmas |
| C110, C111 | repair by the figure tool; choice of the source files; finding files is a parameter | substitution relation; induction over histories of runs |
| C112 | saving a loaded document again | both saves are reduced to the same sequence of writer events, using what C105, C106, C109 and C125 say about the loaded document |
| C113, C114 | what identifiers a fixed reference contains | the tree is reduced to the list of its element shapes; every step changes, adds or removes single shapes, which gives an invariant for the whole sequence |
| C115 | links of a fixed reference | each link step is described by the elements it replaces |
| C116 | texts of an element | `containsRawText`, `elementTexts`, `applyPatterns`; mutual induction over the tree against `Within` |
| C117 | reading configuration files | `readConfig`: the state machine over lines; every file read splits into noise, headers and options with continued values (`FileBlocks`), by induction over the lines |
| C118 | values of options | `interpolate` against the relation `Expands`; `parseXmlMapping`, `parseSegConfig` |
| C119 | shipped configuration | the files as lists of lines, read by the model; closed facts evaluated by the kernel |
| C120 | temporary copies (`withInput`, `withFixedInput`, `parseFile` on the files of a machine, with faults as parameters) | what is written lies below the new temporary directory, which is removed with everything in it; the content is followed through the copies |
| C121 | repair of one JATS file from source to output (`fixJatsPath`) | from C120, reduced to `fixJatsFile` of C102 |
| C122 | one step of a round of the simple matching annotator (`processTarget`) | `seqsBetween_window`: sequences from a position to the end of the joined text |
| C123 | preserved sub tags while a tool annotates | `invariant_simple`: any property kept by the single changes is kept by the matcher; `SubKept` |
| C124 | `get_xpath_matches` with the evaluation as parameter | induction over the parts of the path |
| C125 | writer and loader of TEI documents, as for C105 | both sides described by the sequence of starts, ends and characters; induction over the tokens with the path of the text before |
| C126 | simple matcher with the fuzzy search, and the tools | windows and views mapped back to the text (as for C61, C63), tokens overlapping the range (C40, C65), labels only grow (C19), extension keeps values (C22) |
| C127 | sub annotations of a match, and the tools for figures, tables, affiliations and references | first range found is an occurrence (as for C126), earlier sub annotations leave its tokens alone, sub labels only grow (C19); the post processing of references keeps or renames them (C33); negation: a letter which becomes longer |
| C128 | loading, removal of labels, annotators, writer | the document before the annotators run is made of the token texts alone (invariant of the line buffer), so the annotators get equal documents |
| C129 | the same | reading back gives the same tokens (C109), so C128 gives the same labels; writing a container into the file it came from changes nothing; negations: removal of text, kept fields |
| C130 | `ToolRun`: one source file from reading to saving, made of the models of the single steps; `Pipeline` | the result for a source file reads two files only, so the invariant of C17 applies with conditions on file names alone; C92 for the text; negation: equal names |
| C131 | `ToolRun` with options whose sets are lists in different orders | reading, preparing and writing use mappings and sets only through look-ups and membership (congruence, by induction on elements and tokens); the notes added for fields are pairwise different, so the reverse mapping is the same; C28 for the checks; negation: segmentation checks |
| C132 | `CommandLine`: constructors of the tools and types of the options, on top of `ToolRun` | option texts by C42; entries of the filtered mapping by induction on it; names of target annotations by C46/C77; labels by C96 and C130 |
| C133 | `SimpleMatching` for lists of values | one place for each value as in C126; groups and span by C57; labels as in C126 |
| C134 | the tools from file to file | C126/C133 for documents without labels, C96 for the labels given, C105 for loading again |
| C135 | `addFieldPaths`, the writer and the loader | the path of a note tells fields apart; C105, C106 |
| C136 | the options of the command line, a run over files | C132, C130, C134, C135 |
| C137 | `MatchReport` | projection of the functions with a report to those without; induction over the choices |
| C138 | `JatsSucceeds`, `JatsRepairable` | composition of C80, C102 and C103 |
| C139 | `JatsFix`, `JatsDoc` | each step changes nothing but missing texts into empty ones; being clean depends only on what is shown; a document is determined by its references and the rest |
| C140 | `AltoText` | templates with a separator before all but the first are a join; with proper nesting the words below a list are those below the elements of each kind; splitting at line feeds, then at empty lines, then at empty blocks undoes the joins |
| C141 | `SimpleMatching`, `Tools` | `Spec/AllPlaces`: places in the text left; invariant over the targets: tokens without label are those not taken, so the pending sequences are the free runs and the match found is the place; later steps keep labels (C126) |
| C142 | `Tools`, `Segmentation`, `TeiWrite`, `TeiLoad` | `Spec/SegmentsBack`; places (C141) give the majority of a line, the stages of C29 its segment, C135 what is read back |
| C143 | `CommandLine`, `ToolRun`, `Checks`, `SegChecks`, `Pipeline` | `Spec/RunChecks`; the lists of the options (C42) with C28/C98 for the checks, C15 for the file and C130 for the run |
| C144 | `CommandLine`, `FieldLists`, `ToolPaths`, `ToolRun` | `Spec/OptionOrder`; C132 for what is selected, C143 for the lists, then C131 for the documents and runs |
| C145 | `LineNumber` | `Spec/LineNumberAmong`; invariant of the loop over the sorted numbers: the line numbers so far are in the current sequence, other numbers are skipped |
| C146 | `SimpleMatching`, `TeiWrite`, `TeiLoad`, `Tools` | `Spec/SubReadBack`; the tokens of the occurrence are neighbours on their line with main label, sub label and begin prefix (C127), and a run of such text is read back with its path (C125) |
| C147 | `Download`, `DownloadRun` | `Spec/DownloadRun`; two rounds of copying (documents, then targets), each as in C53, with the names of C51 and C52; invariant over all schedules |
| C148 | `TeiWrite`, `ToolRun` | `Spec/Outside` (elements by position); induction over the path of the container |
| C149 | `Regex`, `JatsPatterns` | `Spec/JatsPatterns`; the matcher returns the ends in backtracking order, proved to be exactly the ends of matches; first one by order lemmas for greedy and lazy repetition |
| C150 | `Regex`, `ReferencePatterns` | `Spec/ReferenceLabel`; the ends of matches of the patterns, then C70 for the tokens |
| C151 | `Regex`, `PrefixPatterns` | `Spec/PrefixPatterns`; matches of the two patterns, and C64 for the placeholders |
| C152 | `TeiDoc`, `SimpleMatching`, `Tools` | invariant of the matcher: a preserved tag is removed exactly if a word on its line with the same one has got another |
| C153 | `MatchingUtils`, `SimpleMatching`, `CoreMatching` | normalising is a map of characters followed by one replacement; each step of the matchers is shown to depend on the normalised value only (simulation) |
| C154 | `CommandLine`, `ToolPaths`, `Xml` | induction on the path of the container; the paths of the configuration do not depend on the classes of characters but for the slash, and are computed |
| C155 | `FilePatterns`, `Pipeline` | a pattern with stars is matched exactly by the names of the given form (induction); the names of the tools are not ends of each other |

Where the code turns out to violate a property as stated, the negation is proved
with a concrete witness and a `_partial` theorem states what does hold.  These
disagreements are collected in section 5.

## 4. Trusted base

* Lean 4.33.0 kernel; theorems may depend on the axioms `propext`,
  `Classical.choice`, `Quot.sound` and no others.
* The faithfulness of the model, which rests on reading the code (it is never
  executed here). The model of the standard library's `ConfigParser` was compared with the
  library itself on 2100 random files, without a difference.
* The parameters of the model. They are universally quantified, so a theorem holds for every
  behaviour of them unless a hypothesis restricts it:
  - the character classes (`isSpace`, `isWord`, `isUpper`, `isLower`, `isDigit`, case folding);
  - the names lxml accepts for elements (`okNode`);
  - the results of XPath expressions and of those regular expressions that come from
    configuration. The regular expressions of `fix_jats_xml.py` are parameters of `JatsFix`; `jatsEnvOf`
    instantiates them with the patterns of the code, `refEnvOf` those of the reference tool and `withPrefixPatterns` those of config/xml-mapping.conf, for a model of the backtracking matcher of `re`
    (`Model/Regex`; `sub`, `split` and `finditer` in `Model/RegexAll`), with the character classes and the comparison of letters for `re.IGNORECASE` as parameters;
  - the blocks and scores of the sequence matchers (`LocalSequenceMatcher`, `SequenceMatcher`,
    levenshtein ratio), where hypotheses only ask that matching blocks are matching;
  - the contents of the file system, the order of worker threads and the points of crashes.

### Modelled

| code | model |
|---|---|
| `core/structured_document/__init__.py` | `Tags`, `TeiDoc` |
| `structured_document/grobid_training_tei.py` | `TeiToken`, `TeiLoad`, `TeiWrite`, `TeiDoc` |
| `structured_document/utils.py` | `TeiDoc` |
| `annotation/annotator.py`, `core/annotation/annotator.py`, `expand_to_untagged_lines_annotator.py`, `replace_tags_annotator.py`, `merge_group_tags_annotator.py`, `sub_tag_annotator.py`, `remove_untagged_annotator.py` | `PostAnnotators` |
| `annotation/line_number_annotator.py` | `LineNumber` |
| `annotation/segmentation_annotator.py` | `Segmentation` |
| `annotation/reference_annotator.py` | `Reference` |
| `annotation/simple_matching_annotator.py` | `SimpleMatching`, `TagConfig` |
| `annotation/matching_utils.py` | `MatchingUtils` |
| `annotation/checks.py` | `Checks` |
| `annotation/target_annotation.py`, `core/annotation/target_annotation.py` | `TargetAnnotations`, `TargetText` |
| `core/annotation/matching_annotator.py`, `core/annotation/fuzzy_match.py` | `CoreMatching`, `FuzzyMatch`, `MatchReport` |
| `utils/fuzzy.py` | `FuzzySearch` |
| `utils/string.py`, `utils/misc.py` | `FieldLists`, `Xml`, `SimpleMatching` |
| `utils/xml.py`, `utils/io.py` (repair of malformed files, temporary copies) | `XmlFix`, `JatsDoc`, `LocalFiles` |
| `utils/regex.py`, `utils/tei_xml.py` | `TargetFile`, `ToolPaths` |
| `fix_jats_xml.py` | `JatsText`, `JatsFix`, `JatsPatterns` (with `Regex`), `JatsDoc`, `JatsPool`, `LocalFiles` |
| `config/xml-mapping.conf`, `config/segmentation.conf`, `parse_xml_mapping`, `parse_segmentation_config` with the standard library's `ConfigParser` | `ConfigFile`, `ShippedConfig` |
| `download_source_files.py` | `Download` |
| `auto_annotate_utils.py` (pipeline, resume, skipped errors, temporary files, field lists, mappings) | `Pipeline`, `TempFiles`, `FieldLists`, `ToolPaths`, `TargetFile`, `SourceFiles`, `ToolRun`, `CommandLine`, `FilePatterns` |
| `auto_annotate_{header,segmentation,fulltext,figure,table,reference,reference_segmenter,affiliation_address}.py` | `Tools`, `ToolPaths`, `SegChecks`, `TempFiles`, `SourceFiles`, `ToolRun`, `CommandLine`, `FilePatterns` |

### Not modelled

Logging, argument parsing by `argparse`, Apache Beam, the network, reading and writing of files
beyond existence, contents and faults, the XML parser and serialiser (except for the repair in `utils/xml.py`),
floating point rounding (ratios are exact fractions), the text of rows in CSV files.

## 5. Disagreements between code and property

Each line names the theorem that proves the disagreement between the code and the property as
a user would state it.

| property | what the code does | theorem |
|---|---|---|
| C01 | the bare prefixes `b-` and `i-` are changed by splitting and joining | see C01 theorems |
| C03 | documents of different length are merged silently | `C03_length_mismatch_not_detected` |
| C07 | white space at the end of a line is written behind the line break | `C07_lines` is up to white space |
| C09 | an ignored sub tag with begin prefix splits the main element | `C09_ignored_sub_tag_splits_element`, exactly: `C09_exact` |
| C10 | with several containers all lines are written to the first and the others stay | `C10_several_containers_duplicate_text`, exactly: `C10_exact` |
| C13 | all lines share one token list | `C13_tokens_duplicated` |
| C56 | empty attribute values and `/` in attribute values break tag expressions | `C56_empty_value`, `C56_slash_in_value`, exactly: `C56_round_trip_exact`, `C56_path_round_trip_exact` |
| C59 | a line break resets the sub tag | `C59_sub_tag_lost_after_line_break` |
| C14 | naming one field to preserve drops the tags of all other fields, even with tag preservation on | `C14_preserving_a_field_drops_others` |
| C24 | replacing a preserved tag removes the tags of the following words on the line | `C24_preserved_tags_lost` |
| C34 | the saved main tags are not restored | `C34_current_tags_lost`, exactly: `C34_exact` |
| C43 | selecting a sub field drops the options (for example `.extract-regex`) of that sub field | `C43_sub_field_option_dropped` |
| C53 | the second part of a block crossing the split keeps the position in the other text of the first part | `C53_crossing_block_misaligned` |
| C54 | ranges before the given range make the inverse start before the given range | `C54_range_before_start` |
| C37 | Blocks of a search result take their size from the haystack including white space; the score of the result can exceed 1 | `C37_search_score_above_one` |
| C38 | In chunk mode the first chunk is reported at its position in the window instead of the text | `C38_chunk_misplaced` |
| C38 | A window is accepted by a score computed with positions of the window in the whole haystack | `C38_score_of_other_text` |
| C39 | With padding, the index ranges of joined items start behind the padding but have the length of the padded items and the padding is counted twice for later items | `C39_padding_wrong` |
| C57 | The length of a group of index ranges is measured by the end of its last range, so that a longer group may not be selected | `C57_longest_wrong` |
| C64 | a quantifier in the configured expression, as in `[0-9]{2}`, is replaced by `NOT_FOUND` | `C64_quantifier_replaced` |
| C29 | A line whose majority tag is not mapped keeps its tags, so its tokens need not have one label. | `C29_unmapped_mixed` |
| C31 | The page numbers marked need not be increasing: the minimum is increased by one for each line marked, not set to its number. | `C31_not_increasing` |
| C31 | A line with the number of the previous page is marked too. | `C31_repeated_number` |
| C31 | Preserved page numbers carry a prefix (`b-page`) but are compared with `page`, so they are never restored and can be merged into the front. | `C31_preserved_page_merged` |
| C32 | A labelled line with the text of a page header loses its label, although only unlabelled lines are counted. | `C32_labelled_line_overwritten` |
| C33 | The configured map of sub tag names is applied in each of the four steps: a chain a→b→c→d→e ends with e, and two swapped names are swapped back. | `C33_mapped_repeatedly`, `C33_swap_lost` |
| C70 | An enabled value without pattern makes the annotator fail with KeyError as soon as untagged text precedes such a tag. | `C70_no_pattern`, `C70_missing_pattern_fails` |
| C44 | The repaired text need not have a single root element, and an attribute without value makes the repair fail. | `C44_no_single_root`, `C44_attribute_without_value_fails` |
| C73 | The end tag of an outer element closes the inner elements but not the element itself, so following text becomes part of it. | `C73_outer_end_closes_inner`, `C73_text_after_end_tag_inside` |
| C74 | The character following each match is dropped. | `C74_character_lost` |
| C75 | A text containing a line feed is not recognised as ending with a word, so it runs together with the next text. | `C75_words_run_together`, exactly `C75_exact` |
| C76 | Only direct parents of selected elements are left out: with a selected grandparent the text is returned twice. | `C76_grandparent_kept` |
| C47 | Identifier annotations without a match are removed together with the text behind and inside of them. | `C47_tail_lost`, `C47_inner_text_lost` |
| C47 | Text is reordered: text behind a match moves over elements inside, the second part of a split link and identifiers found in comments move behind the text that follows. | `C47_text_moved`, `C47_link_text_moved`, `C47_comment_text_moved` |
| C48 | The DOI found can contain a URL. | `C48_url_inside` |
| C48 | A duplicated DOI is left if it is not literally part of the text before it. | `C48_duplicate_left` |
| C49 | The opening quote of a title is removed on its own: for `“` the closing quote `’` is looked for. | `C49_only_opening_removed` |
| C49 | The closing quote is removed on its own if the title starts with an element. | `C49_only_closing_removed` |
| C80 | Fixing a reference fails for a DOI annotation without text before it, for example for the second of two adjacent DOIs of which the first is given as URL. | `C80_empty_doi_fails`, `C80_adjacent_dois_fail`; sufficient condition `C80_succeeds` |
| C52 | With the default output pattern documents of the same name from different directories overwrite each other. | `C52_default_collision`, exactly `C52_default_exact` |
| C81 | If two files are written to the same output, the content depends on the order of the threads. | `C81_collision` |
| C16 | the output is not written atomically: after a crash in the middle of writing, the truncated output exists and is skipped by every later run with resume | `C16_truncated` |
| C17, C18 | worker threads share one `ExitStack`: the job ending first removes the temporary copies of all running jobs of the figure and fulltext tools | `C18_shared`, `C18_shared_before_enter` |
| C85 | a match continuing on the next line is shifted by one character there: the text after the split begins with the joining space | `C85_next_line_shifted` |
| C86 | the second line of a pair is not tested for the maximum gap, so that a match continues any number of tagged lines later | `C86_next_ignores_gap` |
| C87 | a line without a text after normalising ends the search for the value | `C87_empty_line_stops` |
| C88 | the condition of `require_next` is not given up when the following target annotation is found elsewhere | `C88_stale_condition` |
| C89 | for lists of texts the current and the next line get out of step after the first match | `C89_list_misaligned`, exactly `C89_exact`, `C89_neighbours_iff` |
| C92 | Removing references (or affiliations) without tags writes the text of the remaining ones once for each line of the file. | `C92_removing_repeats_text`, exactly: `C92_removed`, `C92_containers` |
| C93 | The option for the gap between line numbers is ignored (it is never passed on). | `C93_gap_ignored` |
| C93 | The option for the ratio of line numbers is a text; comparing it raises TypeError, so no file with line numbers is written. | `C93_ratio_fails`, `C93_tools_fail` |
| C95 | Attributes of the container, such as its language, and the text behind it are removed on saving (the text is moved into it). | `C95_lines`, `C95_attributes_lost` |
| C95 | Line breaks with the name space of TEI, in files for references and affiliations, are not recognised and vanish on saving. | `C95_name_space_breaks_lost` |
| C97 | Line numbers are tagged within fields that are always to be preserved. | `C97_line_numbers_overwrite`, exactly `C97_line_numbers_exact` |
| C97 | Segmentation replaces labels of fields that are always to be preserved if most of the line is labelled otherwise. | `C97_segmentation_overwrites` |
| C98 | If a field to be checked has no segmentation label, the check either fails or raises KeyError, depending on the order of a set of strings. | `C98_failure_depends_on_order` |
| C101 | The options of a field also come from sections for other root elements, although its path is taken from the section of the root element only. | `C101_other_sections` |
| C102 | One reference that cannot be repaired (for example an empty DOI annotation) prevents the output for the whole file. | `C102_one_bad_reference` |
| C102 | A parser error reported for a line after the last one (a file ending with a line feed) is not a ValueError, so that the repair of malformed files is not tried. | `C102_no_line` |
| C103 | A source is overwritten if its output is the same file written as another path (`./d/a` and `d/a`). | `C103_overwritten` |
| C103 | With the output path inside of the base path, outputs of an earlier run are sources, and what is written depends on the order of the jobs. | `C103_order_matters` |
| C103 | A file list in the current directory without a base path leads to a TypeError. | `C103_bare_list_fails` |
| C105 | A list item saved by the full text tool is read back as a list, since the outermost element with a known path is taken. | `C105_list_item_becomes_list` |
| C105 | Text without a tag is saved as body by the segmentation tool and read back as body. | `C105_untagged_becomes_body` |
| C106 | The begin of a sub tag whose path is not inside that of the main tag splits an entity in two when saved and loaded. | `C106_foreign_sub_tag_splits_entity` |
| C107 | A substitution as for `sed` (`s/as/bs/`) is not refused: the delimiter is taken to be `s`. Options behind the last delimiter are ignored. A source file without the suffix silently uses a target of the same name. | `C107_sed_pattern`, `C107_pattern`, `C107_unmatched` |
| C108 | In tools writing elements with a name space, a field without a path is written to a `note` outside of it, other text to a `note` inside of it. | `C108_note_without_namespace` |
| C109 | Tokens next to each other without a boundary (`H<hi>2</hi>O`) are merged into one when they are saved with the same tag and loaded again. A final empty line is lost. | `C109_tokens_merged`, `C109_empty_last_line_dropped` |
| C110 | The figure tool removes the end tags of `content` elements whose start tag has attributes, which makes a well-formed file malformed. | `C110_attributes`, exactly `C110_exact` |
| C111 | With `--limit` and `--resume` later runs never get beyond the first files: the limit is applied before the files already done are dropped. | `C111_limit_never_passed`, `C111_resume_stuck` |
| C112 | Loading and saving a file again can lose the second line of a citation (sub tag), lose a final line break, or move white space. | `C112_sub_tag_lost`, `C112_line_break_lost`, `C112_space_moved` |
| C114 | If an identifier is inside another one, its text is added to the outer identifier. | `C114_nested_identifiers` |
| C119 | Names of options are in lower case, so the shipped line `listBibl = listBibl` of the segmentation configuration makes a segment `listbibl`, for which there is no element. | `C119_list_bibl` |
| C120 | A URL ending with a slash cannot be read, as the temporary copy gets no name. | `C120_url_slash` |
| C91 | A sub annotation takes over tokens of an earlier one it overlaps. | `C91_found` |
| C122 | A value is only looked for in the whole document if its block differs from that of the last such search, so one standing before the first value of its block is left for the next round. | `C122_not_before` |
| C87 | The search for a value on two lines goes on after it was found, so parts of it on later lines get the tag too. | `C87_found_again` |
| C123 | Sub labels which are to be kept are replaced where a sub annotation is found. | `C123_replaced` |
| C123 | Where a sub label which is to be kept is replaced, all tokens on the line with the same sub label lose it, also those of other elements. | `C123_neighbours_lost` |
| C124 | With a slash in a predicate of a path without matches, the error is the one for an invalid expression instead of a ValueError. | `C124_predicates` |
| C125 | A sub label that continues in the next line is lost in that line when a saved document is loaded. | `C125_title_in_two_lines` |
| C125 | A sub label whose element does not lie below that of the main label is lost when a document is saved. | `C125_foreign_sub_tag_lost` |
| C46 | A root element with an unknown name gives an AttributeError; the intended exception with its message is never raised. | `C46_unknown_root` |
| C127 | If a letter before the value of a sub annotation becomes longer as a lower case letter (such as a capital I with a dot), another word gets the sub label. | `C127_shifted` |
| C129 | With the removal of invalid references a further run on the output writes the text twice as often. | `C129_text_grows` |
| C129 | With --always-preserve-fields a further run labels another occurrence of the value. | `C129_kept_field_found_again` |
| C130 | Source files with the same name in different directories are written to the same output; the schedule decides which one stays. | `C130_same_name` |
| C131 | The segmentation tool saves a document that does not pass its checks, or fails with KeyError, depending on the order of a set of strings. | `C131_segmentation_failure` |
| C132 | Without `--fields` the header tool annotates all fields, but does not clear the labels the source file has for them (`output_fields` is `None`), unlike with any list of fields. | `C132_header_keeps` |
| C133 | A value of a list that occurs literally is not labelled if it is far from the others: only the longest group of close places is used. | `C133_far_left_out` |
| C135 | With a field called `other`, text without a label is read back with this label. | `C135_other_lost` |
| C135 | Text of a field with a slash in its name cannot be saved (ValueError). | `C135_slash_fails` |
| C137 | With `--debug-match` the file of the report is opened anew for each document, so that only the rows of the last document are left if opening it empties it. | `C137_last_document` |
| C139 | Repairing is not idempotent: of two Web of Science numbers in a text, a second run annotates the one left by the first. | `C139_again` |
| C140 | A word which is not inside of a line (or a line outside of a block) is not written. | `C140_outside` |
| C145 | A number at the beginning of a line which is smaller than the line numbers above it (such as the number of the page at its bottom) makes all of these be ignored: candidates are sorted by number, and those above the last one accepted are skipped (annotation/line_number_annotator.py:61-73). | `C145_hidden` |
| C146 | The value of a sub annotation (such as the caption of a figure) which continues on the next line loses its sub label there when the file written is loaded again: the writer adds the text to the same element, but the loader resets the element of the sub label after a line break. | `C146_two_lines` |
| C149 | The letters a PII can start with are written `[S,B]`, so that a comma in front of 16 digits is taken as the start of a PII (fix_jats_xml.py:83). | `C149_pii_comma` |
| C149 | In a PMID annotation `(12) PMID: 345` the number before the label is kept, since the label is optional in the pattern (fix_jats_xml.py:86). | `C149_number_before_label` |
| C151 | A label with a capital letter in front of an affiliation is not found: the text searched is in lower case, the label is used as written (simple_matching_annotator.py:445-461, 479-485). | `C151_capital_label_missed` |
| C151 | The pattern for labels does not require the start of a word: the label `1` is found at the end of `2011` (config/xml-mapping.conf:58). | `C151_label_in_number` |
| C152 | With the tools for references, headers and full texts all words on a line with the same label, which was to be kept, lose it if one of them gets another label, also those of other elements. | `C152_neighbours_lost` |
| C152 | Segmentation removes labels to be kept from a line, without giving it one, if a value is found in a small part of the line. | `C152_segmentation_lost` |
| C153 | The values of sub annotations are searched by the simple matcher as they are spelled, unlike those of target annotations: a sub annotation with a hyphen is not found in a text with a long dash. | `C153_sub_spelling` |
| C155 | A file with `.tei.xml` in two places of its name can be a file of two tools. | `C155_two_tools` |
| C154 | Fields which are not in the configuration of the tools for references and affiliations are written to elements outside of the TEI name space. | `C108_note_without_namespace`, exactly: `C154_namespace_iff` |
