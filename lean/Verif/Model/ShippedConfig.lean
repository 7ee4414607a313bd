/-
The shipped configuration files and the default fields of the tools.
-/
import Verif.Model.ConfigFile
import Verif.Model.ToolPaths
import Verif.Model.Tools

namespace Verif

/-- The lines of config/segmentation.conf (1-9). -/
def segmentationConfLines : List Str :=
  [c!"[tags]",
   c!"front = title, abstract, keywords_title, keywords, manuscript_type, author, author_aff, author_notes",
   c!"body = body_section_title, body_section_paragraph, body_figure, body_table, figure, table",
   c!"acknowledgment = acknowledgment_section_title, acknowledgment_section_paragraph",
   c!"annex = appendix_group_title, appendix, back_section_title, back_section_paragraph, back_figure, back_table",
   c!"page = page_no",
   c!"line_no = line_no",
   c!"reference = reference_list_title, reference",
   c!"listBibl = listBibl"]

/-- The lines of config/xml-mapping.conf, 1-30. -/
def xmlMappingConf1 : List Str :=
  [c!"[article]",
   c!"# front",
   c!"title = front/article-meta/title-group/article-title",
   c!"title.extend-to-line = false",
   c!"",
   c!"abstract = front/article-meta/abstract",
   c!"abstract.match-prefix-regex = (abstract|summary)\\s*$",
   c!"abstract.max_chunks = 2",
   c!"",
   c!"journal = front/journal-meta/journal-title-group/journal-title",
   c!"issn = front/journal-meta/issn[@pub-id-type=\"epub\"]",
   c!"doi = front/article-meta/article-id[@pub-id-type=\"doi\"]",
   c!"copyright_statement = front/article-meta/permissions/copyright-statement",
   c!"",
   c!"keywords_title = front/article-meta/kwd-group/title",
   c!"",
   c!"keywords = front/article-meta/kwd-group",
   c!"keywords.children = kwd[@kwd-group-type='author-keywords' or not(@kwd-group-type)]",
   c!"keywords.children.concat = [[{\"xpath\": \"kwd[@kwd-group-type='author-keywords' or not(@kwd-group-type)]\"}]]",
   c!"",
   c!"manuscript_type = front/article-meta/article-categories/subj-group/subject[@subj-group-type=\"display-channel\"]",
   c!"",
   c!"author_notes = front/article-meta/author-notes/*",
   c!"",
   c!"author = front/article-meta/contrib-group/contrib[not(@contrib-type) or @contrib-type=\"author\"]/name",
   c!"author.children = .//*",
   c!"author.bonding = true",
   c!"author.match-multiple = true",
   c!"# author.sub.surname = ./surname",
   c!"# author.sub.givennames = ./given-names"]

/-- The lines of config/xml-mapping.conf, 31-60. -/
def xmlMappingConf2 : List Str :=
  [c!"author.merge = true",
   c!"",
   c!"author_aff =",
   c!"  front/article-meta/contrib-group/aff",
   c!"  front/article-meta/contrib-group/contrib/aff",
   c!"  front/article-meta/aff",
   c!"author_aff.children = .//*",
   c!"author_aff.unmatched-parent-text = true",
   c!"author_aff.bonding = true",
   c!"author_aff.match-multiple = true",
   c!"# author_aff.extract-regex = .*\\b(\\d+)\\b.*",
   c!"author_aff.sub.author_aff-label = ./label",
   c!"author_aff.sub.author_aff-department = ./addr-line/named-content[@content-type=\"department\"]",
   c!"author_aff.sub.author_aff-institution = ./institution",
   c!"# author_aff.sub.addrline = ./addr-line",
   c!"# author_aff.sub.addrline.extract-regex = .*\\b(\\d+)\\b.*",
   c!"author_aff.sub.author_aff-address-city = ./addr-line/named-content[@content-type=\"city\"]",
   c!"author_aff.sub.author_aff-address-postcode = ./addr-line/named-content[@content-type=\"postcode\"]",
   c!"author_aff.sub.author_aff-address-state = ./addr-line/named-content[@content-type=\"state\"]",
   c!"author_aff.sub.author_aff-address-country = ./country",
   c!"# author_aff.sub.extlink = ./ext-link",
   c!"author_aff.alternative-spellings =",
   c!"  United States=USA",
   c!"author_aff.merge = false",
   c!"",
   c!"# Note: some JATS XML may omit separators between the label and the other affiliation text",
   c!"#   this regular expressions is aiming to include the label as well",
   c!"author_aff.match-prefix-regex = ({author_aff-label})\\s*[\\.-]*\\s*$",
   c!"",
   c!"email ="]

/-- The lines of config/xml-mapping.conf, 61-90. -/
def xmlMappingConf3 : List Str :=
  [c!"  front/article-meta/contrib-group/aff/email",
   c!"  front/article-meta/contrib-group/contrib/aff/email",
   c!"  front/article-meta/aff/email",
   c!"",
   c!"# body",
   c!"",
   c!"# we want to include the section label in the title, e.g \"1. Introduction\"",
   c!"section_title =",
   c!"  ./body//sec",
   c!"  ./back//sec",
   c!"  ./back//ack",
   c!"section_title.children = ./title",
   c!"section_title.children.concat = [[{\"xpath\": \"./label\"}, {\"value\": \" \"}, {\"xpath\": \"./title\"}]]",
   c!"",
   c!"section_paragraph =",
   c!"  (//sec | //ack)/p",
   c!"  ./body/p",
   c!"section_paragraph.ignore = .//list|fig|table-wrap",
   c!"section_paragraph.max_chunks = 2",
   c!"section_paragraph.sub.section_paragraph-xref-bib = .//xref[@ref-type=\"bibr\"]",
   c!"section_paragraph.sub.section_paragraph-xref-figure = .//xref[@ref-type=\"fig\"]",
   c!"section_paragraph.sub.section_paragraph-xref-table = .//xref[@ref-type=\"table\"]",
   c!"section_paragraph.sub.section_paragraph-xref-formula = .//xref[@ref-type=\"disp-formula\"]",
   c!"section_paragraph.sub.section_paragraph-xref-section = .//xref[@ref-type=\"sec\"]",
   c!"section_paragraph.sub.section_paragraph-xref-box = .//xref[@ref-type=\"boxed-text\"]",
   c!"",
   c!"# for the segmentation model we need separate body and back section, but no granular sub-fields",
   c!"body_section_title = body//sec/title",
   c!"back_section_title = back//sec[not(ancestor::ack)]/title",
   c!""]

/-- The lines of config/xml-mapping.conf, 91-120. -/
def xmlMappingConf4 : List Str :=
  [c!"body_section_paragraph = body//p",
   c!"back_section_paragraph = back//sec[not(ancestor::ack)]/p[not(ancestor::ack)] | back//p[not(ancestor::sec) and not(ancestor::ack)]",
   c!"",
   c!"acknowledgment_section_title = //ack//title",
   c!"acknowledgment_section_paragraph = //ack//p",
   c!"",
   c!"boxed_text_title =",
   c!"  //boxed-text",
   c!"boxed_text_title.children = ./label | ./caption",
   c!"boxed_text_title.children.concat = [[{\"xpath\": \"./label\"}, {\"value\": \" \"}, {\"xpath\": \"./caption\"}]]",
   c!"",
   c!"boxed_text_paragraph = //boxed-text//p",
   c!"boxed_text_paragraph.ignore = .//list|fig|table-wrap",
   c!"boxed_text_paragraph.max_chunks = 2",
   c!"boxed_text_paragraph.sub.boxed_text_paragraph-xref-bib = .//xref[@ref-type=\"bibr\"]",
   c!"boxed_text_paragraph.sub.boxed_text_paragraph-xref-figure = .//xref[@ref-type=\"fig\"]",
   c!"boxed_text_paragraph.sub.boxed_text_paragraph-xref-table = .//xref[@ref-type=\"table\"]",
   c!"boxed_text_paragraph.sub.boxed_text_paragraph-xref-formula = .//xref[@ref-type=\"disp-formula\"]",
   c!"boxed_text_paragraph.sub.boxed_text_paragraph-xref-section = .//xref[@ref-type=\"sec\"]",
   c!"boxed_text_paragraph.sub.boxed_text_paragraph-xref-box = .//xref[@ref-type=\"boxed-text\"]",
   c!"",
   c!"list =",
   c!"  //list",
   c!"list.children = ./*[not(self::list-item)]",
   c!"list.ignore = .//fig|table-wrap",
   c!"list.max_chunks = 2",
   c!"",
   c!"list_item =",
   c!"  //list-item",
   c!"list_item.ignore = .//fig|table-wrap"]

/-- The lines of config/xml-mapping.conf, 121-150. -/
def xmlMappingConf5 : List Str :=
  [c!"list_item.max_chunks = 2",
   c!"list_item.sub.list_item-xref-bib = .//xref[@ref-type=\"bibr\"]",
   c!"list_item.sub.list_item-xref-figure = .//xref[@ref-type=\"fig\"]",
   c!"list_item.sub.list_item-xref-table = .//xref[@ref-type=\"table\"]",
   c!"list_item.sub.list_item-xref-formula = .//xref[@ref-type=\"disp-formula\"]",
   c!"list_item.sub.list_item-xref-section = .//xref[@ref-type=\"sec\"]",
   c!"list_item.sub.list_item-xref-box = .//xref[@ref-type=\"boxed-text\"]",
   c!"",
   c!"appendix_group_title = //app-group/title",
   c!"",
   c!"appendix = //app",
   c!"",
   c!"figure = //fig",
   c!"figure.priority = 1",
   c!"figure.block = figures",
   c!"figure.children = ./label | ./caption",
   c!"figure.children.concat = [[{\"xpath\": \"./label\"}, {\"value\": \" \"}, {\"xpath\": \"./caption\"}]]",
   c!"figure.sub.figure-label = ./label",
   c!"figure.sub.figure-caption = ./caption",
   c!"",
   c!"# Note: separate \"body_figure\" and \"back_figure\" are used for segmentation model",
   c!"#   Currently not used, all tables will go into the body.",
   c!"body_figure = body//fig",
   c!"body_figure.priority = 1",
   c!"body_figure.block = figures",
   c!"body_figure.children = ./label | ./caption",
   c!"body_figure.children.concat = [[{\"xpath\": \"./label\"}, {\"value\": \" \"}, {\"xpath\": \"./caption\"}]]",
   c!"",
   c!"back_figure = back//fig",
   c!"back_figure.priority = 1"]

/-- The lines of config/xml-mapping.conf, 151-180. -/
def xmlMappingConf6 : List Str :=
  [c!"back_figure.block = figures",
   c!"back_figure.children = ./label | ./caption",
   c!"back_figure.children.concat = [[{\"xpath\": \"./label\"}, {\"value\": \" \"}, {\"xpath\": \"./caption\"}]]",
   c!"",
   c!"table = //table-wrap",
   c!"table.priority = 1",
   c!"table.block = figures",
   c!"table.children = ./label | ./caption",
   c!"table.children.concat = [[{\"xpath\": \"./label\"}, {\"value\": \" \"}, {\"xpath\": \"./caption\"}]]",
   c!"table.sub.table-label = ./label",
   c!"table.sub.table-caption = ./caption",
   c!"",
   c!"# Note: separate \"body_table\" and \"back_table\" are used for segmentation model",
   c!"#   Currently not used, all tables will go into the body.",
   c!"body_table = body//table-wrap",
   c!"body_table.priority = 1",
   c!"body_table.block = figures",
   c!"body_table.children = ./label | ./caption",
   c!"body_table.children.concat = [[{\"xpath\": \"./label\"}, {\"value\": \" \"}, {\"xpath\": \"./caption\"}]]",
   c!"",
   c!"back_table = back//table-wrap",
   c!"back_table.priority = 1",
   c!"back_table.block = figures",
   c!"back_table.children = ./label | ./caption",
   c!"back_table.children.concat = [[{\"xpath\": \"./label\"}, {\"value\": \" \"}, {\"xpath\": \"./caption\"}]]",
   c!"",
   c!"# back",
   c!"",
   c!"reference_list_title = back/ref-list/title",
   c!""]

/-- The lines of config/xml-mapping.conf, 181-210. -/
def xmlMappingConf7 : List Str :=
  [c!"reference = back/ref-list/ref",
   c!"reference.children = .//*",
   c!"reference.children.concat = [[{\"xpath\": \".//fpage\"}, {\"value\": \"-\"}, {\"xpath\": \".//lpage\"}]]",
   c!"reference.bonding = true",
   c!"reference.merge = false",
   c!"reference.block = references",
   c!"# sort sub tags in order of priority, more or less based on the lenght",
   c!"reference.sub.reference-article-title = .//article-title",
   c!"reference.sub.reference-author = .//string-name[not(ancestor::person-group)]",
   c!"reference.sub.reference-editor = .//person-group[@person-group-type=\"editor\"]/string-name",
   c!"reference.sub.reference-source = .//source",
   c!"reference.sub.reference-publisher-name = .//publisher-name",
   c!"reference.sub.reference-publisher-loc = .//publisher-loc",
   c!"reference.sub.reference-etal = .//etal",
   c!"reference.sub.reference-issn = .//issn",
   c!"reference.sub.reference-isbn = .//isbn",
   c!"reference.sub.reference-doi = .//pub-id[@pub-id-type=\"doi\"]",
   c!"reference.sub.reference-pii = .//pub-id[@pub-id-type=\"pii\"]",
   c!"reference.sub.reference-pmid = .//pub-id[@pub-id-type=\"pmid\"]",
   c!"reference.sub.reference-pmcid = .//pub-id[@pub-id-type=\"pmcid\"]",
   c!"reference.sub.reference-arxiv = .//pub-id[@pub-id-type=\"arXiv\"]",
   c!"reference.sub.ext-link = .//ext-link",
   c!"reference.sub.reference-year = .//year",
   c!"reference.sub.reference-volume = .//volume",
   c!"reference.sub.reference-issue = .//issue",
   c!"reference.sub.reference-fpage = .//fpage",
   c!"reference.sub.reference-lpage = .//lpage",
   c!"reference.sub.reference-label = ./label",
   c!"",
   c!"# page"]

/-- The lines of config/xml-mapping.conf, 211-218. -/
def xmlMappingConf8 : List Str :=
  [c!"",
   c!"page_no = front/article-meta",
   c!"page_no.children = fpage|lpage",
   c!"page_no.children.range = [{",
   c!"    \"min\": {\"xpath\": \"fpage\"},",
   c!"    \"max\": {\"xpath\": \"lpage\"},",
   c!"    \"standalone\": true",
   c!"  }]"]

/-- The lines of config/xml-mapping.conf (1-218). -/
def xmlMappingConfLines : List Str :=
  xmlMappingConf1 ++ xmlMappingConf2 ++ xmlMappingConf3 ++ xmlMappingConf4 ++ xmlMappingConf5 ++ xmlMappingConf6 ++ xmlMappingConf7 ++ xmlMappingConf8

/-- `DEFAULT_FIELDS` (auto_annotate_segmentation.py:63-86). -/
def segmentationDefaultFields : List Str :=
  [c!"title", c!"abstract", c!"keywords_title", c!"keywords", c!"manuscript_type", c!"author", c!"author_aff", c!"author_notes",
   c!"body_section_title", c!"body_section_paragraph", c!"body_figure", c!"body_table", c!"back_section_title",
   c!"back_section_paragraph", c!"back_figure", c!"back_table", c!"acknowledgment_section_title",
   c!"acknowledgment_section_paragraph", c!"appendix_group_title", c!"appendix", c!"reference_list_title", c!"reference"]

/-- `ALL_FIELDS` (auto_annotate_fulltext.py:100-113). -/
def fulltextDefaultFields : List Str :=
  [c!"keywords", c!"section_title", c!"section_paragraph", c!"boxed_text_title", c!"boxed_text_paragraph", c!"list", c!"list_item",
   c!"appendix_group_title", c!"appendix", c!"figure", c!"table", c!"reference_list_title"]

/-- The default fields (auto_annotate_segmentation.py:214, auto_annotate_fulltext.py:236, auto_annotate_figure.py:60,
auto_annotate_table.py:55, auto_annotate_affiliation_address.py:70, auto_annotate_reference.py:75,
auto_annotate_reference_segmenter.py:37; auto_annotate_header.py:85: none, which selects all fields). -/
def Tool.defaultFields : Tool → List Str
  | .header => []
  | .segmentation _ _ => segmentationDefaultFields
  | .referenceSegmenter => [c!"reference"]
  | .reference _ _ _ => [c!"reference"]
  | .affiliation _ _ => [c!"author_aff"]
  | .fulltext _ _ _ => fulltextDefaultFields
  | .figure _ => [c!"figure"]
  | .table _ => [c!"table"]

/-- The default sub fields (auto_annotate_fulltext.py:116, 237; the other tools have none, which selects all). -/
def Tool.defaultSubFields : Tool → List Str
  | .fulltext _ _ _ => fulltextMapping.map (·.1)
  | _ => []

/-- The paths of the tags of a tool (`tag_to_tei_path_mapping` and `namespaces` of the pipelines:
auto_annotate_header.py:58, auto_annotate_segmentation.py:172, auto_annotate_reference_segmenter.py:56,
auto_annotate_reference.py:177-179, auto_annotate_affiliation_address.py:133-137, auto_annotate_fulltext.py:196,
auto_annotate_figure.py:114-118, auto_annotate_table.py:93-97). The name spaces only contain ASCII characters. -/
def Tool.paths : Tool → Dict Str
  | .header => headerMapping
  | .segmentation _ _ => segmentationMapping
  | .referenceSegmenter => referenceSegmenterMapping
  | .reference _ _ _ => resolveMapping asciiClass teiNsMap referenceMapping
  | .affiliation _ _ => resolveMapping asciiClass teiNsMap affiliationMapping
  | .fulltext _ _ _ => fulltextMapping
  | .figure _ => resolveMapping asciiClass teiNsMap figureMapping
  | .table _ => resolveMapping asciiClass teiNsMap tableMapping

end Verif
