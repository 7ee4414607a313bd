/-
Model of the configuration of the tools: which element each tag is written to
(`auto_annotate_*.py`, `auto_annotate_utils.py:532-552`, `utils/tei_xml.py:15-19`).
-/
import Verif.Model.TeiDoc

namespace Verif

/-- `re.sub(r'\b' + re.escape(name) + r':', '{' + url + '}', s)` for a name starting with a word
character: `prev` is the character in front of the current position. `skip` counts the characters
that remain to be skipped after a replacement.
The replacement text is taken literally (the code passes it as a template, which makes no
difference for a URL without backslashes). -/
def resolveNamespaceAux (cc : CharClass) (name url : Str) : Option Char → Nat → Str → Str
  | _, _, [] => []
  | _, skip + 1, c :: s => resolveNamespaceAux cc name url (some c) skip s
  | prev, 0, c :: s =>
    if startsWith (name ++ c!":") (c :: s) && !(prev.any cc.isWord) then
      c!"{" ++ url ++ c!"}" ++ resolveNamespaceAux cc name url (some c) name.length s
    else c :: resolveNamespaceAux cc name url (some c) 0 s

/-- `_resolve_tag_expression_namespace` (auto_annotate_utils.py:532-543): the name spaces one after
the other. -/
def resolveNamespaces (cc : CharClass) (namespaces : List (Str × Str)) (expr : Str) : Str :=
  namespaces.foldl (fun s ns => resolveNamespaceAux cc ns.1 ns.2 none 0 s) expr

/-- `_resolve_tag_to_tei_mapping_namespace` (auto_annotate_utils.py:546-553). -/
def resolveMapping (cc : CharClass) (namespaces : List (Str × Str)) (mapping : Dict Str) : Dict Str :=
  mapping.map (fun p => (p.1, resolveNamespaces cc namespaces p.2))

/-- `TEI_NS_MAP` (utils/tei_xml.py:15-19). -/
def teiNsMap : List (Str × Str) := [(c!"tei", c!"http://www.tei-c.org/ns/1.0")]

/-- The loop over the fields in the constructors of the pipelines, e.g.
auto_annotate_header.py:68-71: a field without a path is written to a note. -/
def addFieldPaths (mapping : Dict Str) (fields : List Str) : Dict Str :=
  fields.foldl (fun m f => if (m.get? f).isSome then m else m.set f (c!"note[@type=\"" ++ f ++ c!"\"]")) mapping

/-- `HEADER_TAG_TO_TEI_PATH_MAPPING` (auto_annotate_header.py:32-39). -/
def headerMapping : Dict Str :=
  [([], c!"note[@type=\"other\"]"),
   (c!"title", c!"docTitle/titlePart"),
   (c!"abstract", c!"div[@type=\"abstract\"]"),
   (c!"author", c!"byline/docAuthor"),
   (c!"author_aff", c!"byline/affiliation"),
   (c!"line_no", c!"note[@type=\"line_no\"]")]

/-- `SEGMENTATION_TAG_TO_TEI_PATH_MAPPING` (auto_annotate_segmentation.py:48-57). -/
def segmentationMapping : Dict Str :=
  [([], c!"body"),
   (c!"body", c!"body"),
   (c!"headnote", c!"note[@place=\"headnote\"]"),
   (c!"acknowledgment", c!"div[@type=\"acknowledgment\"]"),
   (c!"annex", c!"div[@type=\"annex\"]"),
   (c!"page", c!"page"),
   (c!"line_no", c!"note[@type=\"line_no\"]"),
   (c!"reference", c!"listBibl")]

/-- `REFERENCE_SEGMENTER_TAG_TO_TEI_PATH_MAPPING` (auto_annotate_reference_segmenter.py:30-34). -/
def referenceSegmenterMapping : Dict Str :=
  [([], c!"note[@type=\"other\"]"),
   (c!"reference", c!"listBibl/bibl"),
   (c!"reference-label", c!"listBibl/bibl/label")]

/-- `REFERENCE_TAG_TO_TEI_PATH_MAPPING` (auto_annotate_reference.py:51-73). -/
def referenceMapping : Dict Str :=
  [([], c!"tei:note[@type=\"other\"]"),
   (c!"reference", c!"tei:bibl"),
   (c!"reference-label", c!"tei:bibl/tei:label"),
   (c!"reference-author", c!"tei:bibl/tei:author"),
   (c!"reference-editor", c!"tei:bibl/tei:editor"),
   (c!"reference-year", c!"tei:bibl/tei:date"),
   (c!"reference-article-title", c!"tei:bibl/tei:title[@level=\"a\"]"),
   (c!"reference-source", c!"tei:bibl/tei:title[@level=\"j\"]"),
   (c!"reference-publisher-name", c!"tei:bibl/tei:publisher"),
   (c!"reference-publisher-loc", c!"tei:bibl/tei:pubPlace"),
   (c!"reference-volume", c!"tei:bibl/tei:biblScope[@unit=\"volume\"]"),
   (c!"reference-issue", c!"tei:bibl/tei:biblScope[@unit=\"issue\"]"),
   (c!"reference-page", c!"tei:bibl/tei:biblScope[@unit=\"page\"]"),
   (c!"reference-issn", c!"tei:bibl/tei:idno[@type=\"ISSN\"]"),
   (c!"reference-isbn", c!"tei:bibl/tei:idno[@type=\"ISBN\"]"),
   (c!"reference-doi", c!"tei:bibl/tei:idno[@type=\"DOI\"]"),
   (c!"reference-pii", c!"tei:bibl/tei:idno[@type=\"PII\"]"),
   (c!"reference-pmid", c!"tei:bibl/tei:idno[@type=\"PMID\"]"),
   (c!"reference-pmcid", c!"tei:bibl/tei:idno[@type=\"PMC\"]"),
   (c!"reference-arxiv", c!"tei:bibl/tei:idno[@type=\"arxiv\"]"),
   (c!"ext-link", c!"tei:bibl/tei:ptr[@type=\"web\"]")]

/-- `AFFILIATION_TAG_TO_TEI_PATH_MAPPING` (auto_annotate_affiliation_address.py:56-67). -/
def affiliationMapping : Dict Str :=
  [([], c!"tei:note[@type=\"other\"]"),
   (c!"author_aff", c!"tei:affiliation"),
   (c!"author_aff-label", c!"tei:affiliation/tei:marker"),
   (c!"author_aff-department", c!"tei:affiliation/tei:orgName[@type=\"department\"]"),
   (c!"author_aff-institution", c!"tei:affiliation/tei:orgName[@type=\"institution\"]"),
   (c!"author_aff-address", c!"tei:affiliation/tei:address"),
   (c!"author_aff-address-city", c!"tei:affiliation/tei:address/tei:settlement"),
   (c!"author_aff-address-postcode", c!"tei:affiliation/tei:address/tei:postCode"),
   (c!"author_aff-address-state", c!"tei:affiliation/tei:address/tei:region"),
   (c!"author_aff-address-country", c!"tei:affiliation/tei:address/tei:country")]

/-- `XREF_REL_TEI_PATH_MAPPING` (auto_annotate_fulltext.py:59-66). -/
def xrefMapping : List (Str × Str) :=
  [(c!"xref-bib", c!"ref[@type=\"biblio\"]"),
   (c!"xref-figure", c!"ref[@type=\"figure\"]"),
   (c!"xref-table", c!"ref[@type=\"table\"]"),
   (c!"xref-formula", c!"ref[@type=\"formula\"]"),
   (c!"xref-section", c!"ref[@type=\"section\"]"),
   (c!"xref-box", c!"ref[@type=\"box\"]")]

/-- The entries for cross references inside another element
(auto_annotate_fulltext.py:75-78, 87-90, 93-96). -/
def xrefsBelow (tag path : Str) : List (Str × Str) :=
  xrefMapping.map (fun p => (tag ++ c!"-" ++ p.1, path ++ c!"/" ++ p.2))

/-- `FULLTEXT_TAG_TO_TEI_PATH_MAPPING` (auto_annotate_fulltext.py:69-97). -/
def fulltextMapping : Dict Str :=
  [([], c!"other"),
   (c!"note_other", c!"note[@type=\"other\"]"),
   (c!"keywords", c!"other[@type=\"keywords\"]"),
   (c!"section_title", c!"head"),
   (c!"section_paragraph", c!"p")] ++
  xrefsBelow c!"section_paragraph" c!"p" ++
  [(c!"figure", c!"figure"),
   (c!"table", c!"figure[@type=\"table\"]"),
   (c!"reference_list_title", c!"other[@type=\"ref-list-title\"]"),
   (c!"appendix_group_title", c!"head[@type=\"appendix-group\"]"),
   (c!"appendix", c!"figure[@xtype=\"appendix\"]"),
   (c!"boxed_text_title", c!"head[@type=\"box\"]"),
   (c!"boxed_text_paragraph", c!"p[@type=\"box\"]")] ++
  xrefsBelow c!"boxed_text_paragraph" c!"p[@type=\"box\"]" ++
  [(c!"list", c!"list"),
   (c!"list_item", c!"list/item")] ++
  xrefsBelow c!"list_item" c!"list/item"

/-- `FIGURE_TAG_TO_TEI_PATH_MAPPING` (auto_annotate_figure.py:52-57). -/
def figureMapping : Dict Str :=
  [([], c!"note[@type=\"other\"]"),
   (c!"figure", c!"figure"),
   (c!"figure-label", c!"figure/head/label"),
   (c!"figure-caption", c!"figure/figDesc")]

/-- `TABLE_TAG_TO_TEI_PATH_MAPPING` (auto_annotate_table.py:47-52). -/
def tableMapping : Dict Str :=
  [([], c!"note[@type=\"other\"]"),
   (c!"table", c!"figure[@type=\"table\"]"),
   (c!"table-label", c!"figure[@type=\"table\"]/head/label"),
   (c!"table-caption", c!"figure[@type=\"table\"]/figDesc")]

end Verif
