/-
Specification: what the shipped configuration files say, and paths of elements.
-/
import Verif.Model.TeiWrite

namespace Verif.Spec

/-- The options of config/xml-mapping.conf, 1-30. -/
def mappingOptions1 : Dict Str :=
  [(c!"title", c!"front/article-meta/title-group/article-title"),
   (c!"title.extend-to-line", c!"false"),
   (c!"abstract", c!"front/article-meta/abstract"),
   (c!"abstract.match-prefix-regex", c!"(abstract|summary)\\s*$"),
   (c!"abstract.max_chunks", c!"2"),
   (c!"journal", c!"front/journal-meta/journal-title-group/journal-title"),
   (c!"issn", c!"front/journal-meta/issn[@pub-id-type=\"epub\"]"),
   (c!"doi", c!"front/article-meta/article-id[@pub-id-type=\"doi\"]"),
   (c!"copyright_statement", c!"front/article-meta/permissions/copyright-statement"),
   (c!"keywords_title", c!"front/article-meta/kwd-group/title"),
   (c!"keywords", c!"front/article-meta/kwd-group"),
   (c!"keywords.children", c!"kwd[@kwd-group-type='author-keywords' or not(@kwd-group-type)]"),
   (c!"keywords.children.concat", c!"[[{\"xpath\": \"kwd[@kwd-group-type='author-keywords' or not(@kwd-group-type)]\"}]]"),
   (c!"manuscript_type", c!"front/article-meta/article-categories/subj-group/subject[@subj-group-type=\"display-channel\"]"),
   (c!"author_notes", c!"front/article-meta/author-notes/*"),
   (c!"author", c!"front/article-meta/contrib-group/contrib[not(@contrib-type) or @contrib-type=\"author\"]/name"),
   (c!"author.children", c!".//*"),
   (c!"author.bonding", c!"true"),
   (c!"author.match-multiple", c!"true"),
   (c!"author.merge", c!"true"),
   (c!"author_aff", c!"\nfront/article-meta/contrib-group/aff\nfront/article-meta/contrib-group/contrib/aff\nfront/article-meta/aff"),
   (c!"author_aff.children", c!".//*"),
   (c!"author_aff.unmatched-parent-text", c!"true"),
   (c!"author_aff.bonding", c!"true"),
   (c!"author_aff.match-multiple", c!"true"),
   (c!"author_aff.sub.author_aff-label", c!"./label"),
   (c!"author_aff.sub.author_aff-department", c!"./addr-line/named-content[@content-type=\"department\"]"),
   (c!"author_aff.sub.author_aff-institution", c!"./institution"),
   (c!"author_aff.sub.author_aff-address-city", c!"./addr-line/named-content[@content-type=\"city\"]"),
   (c!"author_aff.sub.author_aff-address-postcode", c!"./addr-line/named-content[@content-type=\"postcode\"]")]

/-- The options of config/xml-mapping.conf, 31-60. -/
def mappingOptions2 : Dict Str :=
  [(c!"author_aff.sub.author_aff-address-state", c!"./addr-line/named-content[@content-type=\"state\"]"),
   (c!"author_aff.sub.author_aff-address-country", c!"./country"),
   (c!"author_aff.alternative-spellings", c!"\nUnited States=USA"),
   (c!"author_aff.merge", c!"false"),
   (c!"author_aff.match-prefix-regex", c!"({author_aff-label})\\s*[\\.-]*\\s*$"),
   (c!"email", c!"\nfront/article-meta/contrib-group/aff/email\nfront/article-meta/contrib-group/contrib/aff/email\nfront/article-meta/aff/email"),
   (c!"section_title", c!"\n./body//sec\n./back//sec\n./back//ack"),
   (c!"section_title.children", c!"./title"),
   (c!"section_title.children.concat", c!"[[{\"xpath\": \"./label\"}, {\"value\": \" \"}, {\"xpath\": \"./title\"}]]"),
   (c!"section_paragraph", c!"\n(//sec | //ack)/p\n./body/p"),
   (c!"section_paragraph.ignore", c!".//list|fig|table-wrap"),
   (c!"section_paragraph.max_chunks", c!"2"),
   (c!"section_paragraph.sub.section_paragraph-xref-bib", c!".//xref[@ref-type=\"bibr\"]"),
   (c!"section_paragraph.sub.section_paragraph-xref-figure", c!".//xref[@ref-type=\"fig\"]"),
   (c!"section_paragraph.sub.section_paragraph-xref-table", c!".//xref[@ref-type=\"table\"]"),
   (c!"section_paragraph.sub.section_paragraph-xref-formula", c!".//xref[@ref-type=\"disp-formula\"]"),
   (c!"section_paragraph.sub.section_paragraph-xref-section", c!".//xref[@ref-type=\"sec\"]"),
   (c!"section_paragraph.sub.section_paragraph-xref-box", c!".//xref[@ref-type=\"boxed-text\"]"),
   (c!"body_section_title", c!"body//sec/title"),
   (c!"back_section_title", c!"back//sec[not(ancestor::ack)]/title"),
   (c!"body_section_paragraph", c!"body//p"),
   (c!"back_section_paragraph", c!"back//sec[not(ancestor::ack)]/p[not(ancestor::ack)] | back//p[not(ancestor::sec) and not(ancestor::ack)]"),
   (c!"acknowledgment_section_title", c!"//ack//title"),
   (c!"acknowledgment_section_paragraph", c!"//ack//p"),
   (c!"boxed_text_title", c!"\n//boxed-text"),
   (c!"boxed_text_title.children", c!"./label | ./caption"),
   (c!"boxed_text_title.children.concat", c!"[[{\"xpath\": \"./label\"}, {\"value\": \" \"}, {\"xpath\": \"./caption\"}]]"),
   (c!"boxed_text_paragraph", c!"//boxed-text//p"),
   (c!"boxed_text_paragraph.ignore", c!".//list|fig|table-wrap"),
   (c!"boxed_text_paragraph.max_chunks", c!"2")]

/-- The options of config/xml-mapping.conf, 61-90. -/
def mappingOptions3 : Dict Str :=
  [(c!"boxed_text_paragraph.sub.boxed_text_paragraph-xref-bib", c!".//xref[@ref-type=\"bibr\"]"),
   (c!"boxed_text_paragraph.sub.boxed_text_paragraph-xref-figure", c!".//xref[@ref-type=\"fig\"]"),
   (c!"boxed_text_paragraph.sub.boxed_text_paragraph-xref-table", c!".//xref[@ref-type=\"table\"]"),
   (c!"boxed_text_paragraph.sub.boxed_text_paragraph-xref-formula", c!".//xref[@ref-type=\"disp-formula\"]"),
   (c!"boxed_text_paragraph.sub.boxed_text_paragraph-xref-section", c!".//xref[@ref-type=\"sec\"]"),
   (c!"boxed_text_paragraph.sub.boxed_text_paragraph-xref-box", c!".//xref[@ref-type=\"boxed-text\"]"),
   (c!"list", c!"\n//list"),
   (c!"list.children", c!"./*[not(self::list-item)]"),
   (c!"list.ignore", c!".//fig|table-wrap"),
   (c!"list.max_chunks", c!"2"),
   (c!"list_item", c!"\n//list-item"),
   (c!"list_item.ignore", c!".//fig|table-wrap"),
   (c!"list_item.max_chunks", c!"2"),
   (c!"list_item.sub.list_item-xref-bib", c!".//xref[@ref-type=\"bibr\"]"),
   (c!"list_item.sub.list_item-xref-figure", c!".//xref[@ref-type=\"fig\"]"),
   (c!"list_item.sub.list_item-xref-table", c!".//xref[@ref-type=\"table\"]"),
   (c!"list_item.sub.list_item-xref-formula", c!".//xref[@ref-type=\"disp-formula\"]"),
   (c!"list_item.sub.list_item-xref-section", c!".//xref[@ref-type=\"sec\"]"),
   (c!"list_item.sub.list_item-xref-box", c!".//xref[@ref-type=\"boxed-text\"]"),
   (c!"appendix_group_title", c!"//app-group/title"),
   (c!"appendix", c!"//app"),
   (c!"figure", c!"//fig"),
   (c!"figure.priority", c!"1"),
   (c!"figure.block", c!"figures"),
   (c!"figure.children", c!"./label | ./caption"),
   (c!"figure.children.concat", c!"[[{\"xpath\": \"./label\"}, {\"value\": \" \"}, {\"xpath\": \"./caption\"}]]"),
   (c!"figure.sub.figure-label", c!"./label"),
   (c!"figure.sub.figure-caption", c!"./caption"),
   (c!"body_figure", c!"body//fig"),
   (c!"body_figure.priority", c!"1")]

/-- The options of config/xml-mapping.conf, 91-120. -/
def mappingOptions4 : Dict Str :=
  [(c!"body_figure.block", c!"figures"),
   (c!"body_figure.children", c!"./label | ./caption"),
   (c!"body_figure.children.concat", c!"[[{\"xpath\": \"./label\"}, {\"value\": \" \"}, {\"xpath\": \"./caption\"}]]"),
   (c!"back_figure", c!"back//fig"),
   (c!"back_figure.priority", c!"1"),
   (c!"back_figure.block", c!"figures"),
   (c!"back_figure.children", c!"./label | ./caption"),
   (c!"back_figure.children.concat", c!"[[{\"xpath\": \"./label\"}, {\"value\": \" \"}, {\"xpath\": \"./caption\"}]]"),
   (c!"table", c!"//table-wrap"),
   (c!"table.priority", c!"1"),
   (c!"table.block", c!"figures"),
   (c!"table.children", c!"./label | ./caption"),
   (c!"table.children.concat", c!"[[{\"xpath\": \"./label\"}, {\"value\": \" \"}, {\"xpath\": \"./caption\"}]]"),
   (c!"table.sub.table-label", c!"./label"),
   (c!"table.sub.table-caption", c!"./caption"),
   (c!"body_table", c!"body//table-wrap"),
   (c!"body_table.priority", c!"1"),
   (c!"body_table.block", c!"figures"),
   (c!"body_table.children", c!"./label | ./caption"),
   (c!"body_table.children.concat", c!"[[{\"xpath\": \"./label\"}, {\"value\": \" \"}, {\"xpath\": \"./caption\"}]]"),
   (c!"back_table", c!"back//table-wrap"),
   (c!"back_table.priority", c!"1"),
   (c!"back_table.block", c!"figures"),
   (c!"back_table.children", c!"./label | ./caption"),
   (c!"back_table.children.concat", c!"[[{\"xpath\": \"./label\"}, {\"value\": \" \"}, {\"xpath\": \"./caption\"}]]"),
   (c!"reference_list_title", c!"back/ref-list/title"),
   (c!"reference", c!"back/ref-list/ref"),
   (c!"reference.children", c!".//*"),
   (c!"reference.children.concat", c!"[[{\"xpath\": \".//fpage\"}, {\"value\": \"-\"}, {\"xpath\": \".//lpage\"}]]"),
   (c!"reference.bonding", c!"true")]

/-- The options of config/xml-mapping.conf, 121-146. -/
def mappingOptions5 : Dict Str :=
  [(c!"reference.merge", c!"false"),
   (c!"reference.block", c!"references"),
   (c!"reference.sub.reference-article-title", c!".//article-title"),
   (c!"reference.sub.reference-author", c!".//string-name[not(ancestor::person-group)]"),
   (c!"reference.sub.reference-editor", c!".//person-group[@person-group-type=\"editor\"]/string-name"),
   (c!"reference.sub.reference-source", c!".//source"),
   (c!"reference.sub.reference-publisher-name", c!".//publisher-name"),
   (c!"reference.sub.reference-publisher-loc", c!".//publisher-loc"),
   (c!"reference.sub.reference-etal", c!".//etal"),
   (c!"reference.sub.reference-issn", c!".//issn"),
   (c!"reference.sub.reference-isbn", c!".//isbn"),
   (c!"reference.sub.reference-doi", c!".//pub-id[@pub-id-type=\"doi\"]"),
   (c!"reference.sub.reference-pii", c!".//pub-id[@pub-id-type=\"pii\"]"),
   (c!"reference.sub.reference-pmid", c!".//pub-id[@pub-id-type=\"pmid\"]"),
   (c!"reference.sub.reference-pmcid", c!".//pub-id[@pub-id-type=\"pmcid\"]"),
   (c!"reference.sub.reference-arxiv", c!".//pub-id[@pub-id-type=\"arXiv\"]"),
   (c!"reference.sub.ext-link", c!".//ext-link"),
   (c!"reference.sub.reference-year", c!".//year"),
   (c!"reference.sub.reference-volume", c!".//volume"),
   (c!"reference.sub.reference-issue", c!".//issue"),
   (c!"reference.sub.reference-fpage", c!".//fpage"),
   (c!"reference.sub.reference-lpage", c!".//lpage"),
   (c!"reference.sub.reference-label", c!"./label"),
   (c!"page_no", c!"front/article-meta"),
   (c!"page_no.children", c!"fpage|lpage"),
   (c!"page_no.children.range", c!"[{\n\"min\": {\"xpath\": \"fpage\"},\n\"max\": {\"xpath\": \"lpage\"},\n\"standalone\": true\n}]")]

/-- The options of config/xml-mapping.conf. -/
def shippedOptions : Dict Str :=
  mappingOptions1 ++ mappingOptions2 ++ mappingOptions3 ++ mappingOptions4 ++ mappingOptions5

/-- The segments of config/segmentation.conf with their fields. -/
def shippedSegments : Dict (List Str) :=
  [(c!"front", [c!"title", c!"abstract", c!"keywords_title", c!"keywords", c!"manuscript_type", c!"author", c!"author_aff", c!"author_notes"]),
   (c!"body", [c!"body_section_title", c!"body_section_paragraph", c!"body_figure", c!"body_table", c!"figure", c!"table"]),
   (c!"acknowledgment", [c!"acknowledgment_section_title", c!"acknowledgment_section_paragraph"]),
   (c!"annex", [c!"appendix_group_title", c!"appendix", c!"back_section_title", c!"back_section_paragraph", c!"back_figure", c!"back_table"]),
   (c!"page", [c!"page_no"]),
   (c!"line_no", [c!"line_no"]),
   (c!"reference", [c!"reference_list_title", c!"reference"]),
   (c!"listbibl", [c!"listBibl"])]

/-- `inner` is an element somewhere inside `outer`: its path continues that of `outer`. -/
def Inside (outer inner : List Str) : Prop := ∃ step rest, inner = outer ++ step :: rest

/-- The path of an option of the mapping is given: it is configured and not empty. -/
def Configured (options : Dict Str) (field : Str) : Prop := ∃ c path, options.get? field = some (c :: path)

end Verif.Spec
