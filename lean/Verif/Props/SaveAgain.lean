/-
C112: Saving a document again changes nothing.
-/
import Verif.Lemmas.SaveSub
import Verif.Props.ReloadTokens
import Verif.Props.ReloadSub

namespace Verif
open Spec

/-! ## C112 Loading a saved file and saving it again gives the same file -/

/-- A document is saved into a file with one container, the file is loaded again, preserving tags,
and saved again: the second file is the first one.  This needs the conditions of C105, C106 and
C109: the tags can be told apart, the tokens are tokens for the tokeniser and meet at token
boundaries, and the last line is not empty.  In addition an entity whose element lies in another
element starts with the begin prefix, a sub tag has an element of its own below the main element
(`Spec.SubOwn`), and text with a sub tag is written into a new element or continues the text before
in the same line (`Spec.SubsMarked`, as in C125). -/
theorem C112_save_again (cfg : DocCfg) (root c root' : Elem) (d : Doc)
    (hspace : ∀ ch, cfg.cc.isSpace ch = true → cfg.cc.isWord ch = false)
    (hp : cfg.preserveTags = true)
    (hc : findAll cfg.containerPath root = [c])
    (hs : docRoot cfg root d = .ok root')
    (hd : ∀ t ∈ d.lineToks.flatten, blank cfg.cc t = false → Distinct cfg.cc cfg.mapping d.lineToks.flatten t)
    (hown : ∀ t ∈ d.lineToks.flatten, blank cfg.cc t = false → SubOwn cfg.mapping t)
    (hmarked : SubsMarked cfg.cc cfg.mapping [] false [] (withBreaks d.lineToks))
    (hB : ∀ t ∈ d.lineToks.flatten, beginsEntity t = true → mainValue t ≠ none)
    (hnested : NestedMarked cfg.cc cfg.mapping none [] d.lineToks.flatten)
    (hwhole : ∀ l ∈ tokenTexts d, ∀ s ∈ l, Whole cfg.cc s)
    (hapart : ∀ l ∈ tokenTexts d, Apart cfg.cc l)
    (hlast : (tokenTexts d).getLast? ≠ some []) :
    ∃ d', loadDoc cfg root' = .ok d' ∧ docRoot cfg root' d' = .ok root' := by
  have hsub : ∀ t ∈ d.lineToks.flatten, blank cfg.cc t = false → SubBelow cfg.mapping t :=
    fun t ht hb => (hown t ht hb).below
  have hnamed : ∀ t ∈ d.lineToks.flatten, blank cfg.cc t = false → SubNamed cfg.mapping t :=
    fun t ht hb => (hown t ht hb).named
  obtain ⟨d', h1, h2⟩ := C109_tokens cfg root c root' d hspace hc hs hwhole hapart
    (fun t ht hb => (hd t ht hb).stable)
  obtain ⟨d2, h3, h4⟩ := C105_round_trip cfg root c root' d hp hc hs hd
  rw [h1] at h3; cases h3
  obtain ⟨d2, h3, h5⟩ := C106_entities cfg root c root' d hp hc hs hd hsub
  rw [h1] at h3; cases h3
  obtain ⟨d2, h3, h6⟩ := C125_begins cfg root c root' d hp hc hs hd
  rw [h1] at h3; cases h3
  rw [readBack_marks cfg.cc cfg.mapping d.lineToks.flatten hd _ [] none false [] [] (.inl ⟨rfl, rfl⟩)
    (fun _ h => by simp at h) (fun t h => mem_withBreaks h) hnamed hmarked, seqToks_withBreaks] at h6
  have hdrop : dropFinalNoTokens (moveSpace cfg.cc [] (tokenTexts d)) = moveSpace cfg.cc [] (tokenTexts d) := by
    unfold dropFinalNoTokens
    rw [if_neg]
    exact fun hl => hlast (moveSpace_last _ _ _ hl)
  rw [hdrop] at h2
  exact ⟨d', h1, save_again_core cfg root c root' d d' hspace hp hc hs hd hown hsub hB hnested hwhole h1
    (loaded_deepBegin cfg root c root' d d' hspace hp hc hs hd hwhole (C109_loaded_whole cfg root' d' h1) h1) h6 h5 h2⟩

/-- So the file stays the same however often it is loaded and saved. -/
theorem C112_stable (cfg : DocCfg) (root c root' : Elem) (d : Doc)
    (hspace : ∀ ch, cfg.cc.isSpace ch = true → cfg.cc.isWord ch = false)
    (hp : cfg.preserveTags = true)
    (hc : findAll cfg.containerPath root = [c])
    (hs : docRoot cfg root d = .ok root')
    (hd : ∀ t ∈ d.lineToks.flatten, blank cfg.cc t = false → Distinct cfg.cc cfg.mapping d.lineToks.flatten t)
    (hown : ∀ t ∈ d.lineToks.flatten, blank cfg.cc t = false → SubOwn cfg.mapping t)
    (hmarked : SubsMarked cfg.cc cfg.mapping [] false [] (withBreaks d.lineToks))
    (hB : ∀ t ∈ d.lineToks.flatten, beginsEntity t = true → mainValue t ≠ none)
    (hnested : NestedMarked cfg.cc cfg.mapping none [] d.lineToks.flatten)
    (hwhole : ∀ l ∈ tokenTexts d, ∀ s ∈ l, Whole cfg.cc s)
    (hapart : ∀ l ∈ tokenTexts d, Apart cfg.cc l)
    (hlast : (tokenTexts d).getLast? ≠ some []) (n : Nat) :
    resaved cfg n root' = .ok root' := by
  obtain ⟨d', h1, h2⟩ := C112_save_again cfg root c root' d hspace hp hc hs hd hown hmarked hB hnested hwhole
    hapart hlast
  induction n with
  | zero => rfl
  | succ n ih =>
    rw [resaved, h1]
    simp only
    rw [h2]
    exact ih

/-- For the tools: a file with one container that holds text with line breaks only is loaded, its
tokens are labelled with main tags of the tool and sub tags of the tool whose elements lie below
those of the main tags, and the result is saved. Then loading and saving the file again does not
change it, if text with a sub tag is written into a new element or continues the text before in the
same line. -/
theorem C112_tools (cfg : DocCfg) (mains : List (Option Str)) (root c root' : Elem) (d0 d : Doc)
    (hspace : ∀ ch, cfg.cc.isSpace ch = true → cfg.cc.isWord ch = false)
    (htool : (cfg.mapping, mains) ∈ toolTags)
    (hp : cfg.preserveTags = true)
    (hc : findAll cfg.containerPath root = [c])
    (hplain : PlainLines c)
    (hload : loadDoc cfg root = .ok d0)
    (htext : tokenTexts d = tokenTexts d0)
    (hs : docRoot cfg root d = .ok root')
    (ht : ∀ t ∈ d.lineToks.flatten, blank cfg.cc t = false → mainValue t ∈ mains ∧
      (Unsub t ∨ (subValue t ∈ cfg.mapping.map (fun p => some p.1) ∧
        (mainPath cfg.mapping t).length < (tokenPath cfg.mapping t).length)))
    (hmarked : SubsMarked cfg.cc cfg.mapping [] false [] (withBreaks d.lineToks))
    (hB : ∀ t ∈ d.lineToks.flatten, beginsEntity t = true → mainValue t ≠ none)
    (hnested : NestedMarked cfg.cc cfg.mapping none [] d.lineToks.flatten)
    (hlast : (tokenTexts d).getLast? ≠ some []) (n : Nat) :
    resaved cfg n root' = .ok root' := by
  have hv : ∀ t : Tok, Unsub t → subValue t = none := fun t h => by
    unfold subValue
    rcases h with h | h <;> (rw [h]; rfl)
  refine C112_stable cfg root c root' d hspace hp hc hs
    (toolTags_distinct cfg mains d htool (fun t h hb => ⟨(ht t h hb).1, (ht t h hb).2.imp (hv t) And.left⟩))
    ?_ hmarked hB hnested
    (htext ▸ C109_loaded_whole cfg root d0 hload)
    (htext ▸ C109_loaded_apart cfg root d0 hload (fun e he => by
      rw [hc] at he; rw [List.mem_singleton.1 he]; exact hplain)) hlast n
  intro t h hb
  obtain ⟨h1, h2⟩ := ht t h hb
  refine h2.imp id (fun h2 => ?_)
  have h3 : subValue t ≠ none := by
    obtain ⟨p, _, hp⟩ := List.mem_map.1 h2.1
    rw [← hp]
    exact Option.some_ne_none _
  refine ⟨h3, h2.2, ?_⟩
  rcases toolTags_subNamed cfg.mapping mains htool t h1 (.inr h2) with g | g
  · exact absurd g.1 h3
  · exact g.2

/-- For the tools with elements directly in the container nothing is asked about begin prefixes. -/
theorem C112_tools_flat (cfg : DocCfg) (mains : List (Option Str)) (root c root' : Elem) (d0 d : Doc)
    (hspace : ∀ ch, cfg.cc.isSpace ch = true → cfg.cc.isWord ch = false)
    (htool : (cfg.mapping, mains) ∈ toolTags)
    (hflat : cfg.mapping ≠ headerMapping ∧ cfg.mapping ≠ referenceSegmenterMapping)
    (hp : cfg.preserveTags = true)
    (hc : findAll cfg.containerPath root = [c])
    (hplain : PlainLines c)
    (hload : loadDoc cfg root = .ok d0)
    (htext : tokenTexts d = tokenTexts d0)
    (hs : docRoot cfg root d = .ok root')
    (ht : ∀ t ∈ d.lineToks.flatten, blank cfg.cc t = false → mainValue t ∈ mains ∧
      (Unsub t ∨ (subValue t ∈ cfg.mapping.map (fun p => some p.1) ∧
        (mainPath cfg.mapping t).length < (tokenPath cfg.mapping t).length)))
    (hmarked : SubsMarked cfg.cc cfg.mapping [] false [] (withBreaks d.lineToks))
    (hB : ∀ t ∈ d.lineToks.flatten, beginsEntity t = true → mainValue t ≠ none)
    (hlast : (tokenTexts d).getLast? ≠ some []) (n : Nat) :
    resaved cfg n root' = .ok root' := by
  refine C112_tools cfg mains root c root' d0 d hspace htool hp hc hplain hload htext hs ht hmarked hB ?_ hlast n
  apply deepBegin_shallow
  intro t h hb
  have h1 : ∀ p ∈ toolTags, p.1 = headerMapping ∨ p.1 = referenceSegmenterMapping ∨
      ∀ v ∈ p.2, (tagRequiredPath p.1 v).length ≤ 1 := by decide +kernel
  rcases h1 _ htool with h2 | h2 | h2
  · exact absurd h2 hflat.1
  · exact absurd h2 hflat.2
  · rw [mainPath_value]
    exact h2 _ (ht t h hb).1

/-! ### Examples -/

mutual
/-- An element as text, for examples. -/
def exXml : Elem → Str
  | .mk t a x cs tl =>
    c!"<" ++ t ++ a.flatMap (fun p => c!" " ++ p.1 ++ c!"=" ++ p.2) ++ c!">" ++ x.getD [] ++ exXmlList cs ++ c!"</" ++ t ++ c!">" ++ tl.getD []
def exXmlList : List Elem → Str
  | [] => []
  | e :: es => exXml e ++ exXmlList es
end

/-- Loads a file, sets tags (token, level, tag), saves it, and loads and saves it again: the two
files. -/
def exSaveTwice (cfg : DocCfg) (root : Elem) (tags : List (Nat × Option Nat × Str)) : Except Err (Str × Str) := do
  let d ← loadDoc cfg root
  let d := tags.foldl (fun d x => d.setTag x.1 (some x.2.2) x.2.1) d
  let root' ← docRoot cfg root d
  let root'' ← resaved cfg 1 root'
  .ok (exXml root', exXml root'')

def exHeaderCfg : DocCfg := { exFulltextCfg with mapping := headerMapping }

/-- A file with one container. -/
def exContainerRoot (x : Str) (cs : List Elem) : Elem :=
  .mk c!"tei" [] none [.mk c!"text" [] (some x) cs none] none

/-- A title and authors, all with begin prefix. -/
def exHeaderTags (d : Doc) : Doc :=
  [(0, c!"b-title"), (2, c!"b-author"), (5, c!"b-author_aff")].foldl (fun d x => d.setTag x.1 (some x.2)) d

instance decNestedMarked (cc : CharClass) (mapping : Dict Str) : ∀ (prev : Option Str) (begun : List (Option Str)) (toks : List Tok),
    Decidable (NestedMarked cc mapping prev begun toks)
  | _, _, [] => isTrue trivial
  | prev, begun, t :: ts => by
    have := fun a b => decNestedMarked cc mapping a b ts
    rw [NestedMarked]
    infer_instance

/-- `<text>A bc  d e</text>` with a title, an author and an affiliation meets the hypotheses of
`C112_tools`. -/
example : ∃ d, loadDoc exHeaderCfg (exContainerRoot c!"A bc  d e" []) = .ok d ∧
    ((exHeaderTags d).lineToks.flatten.all (fun t => blank asciiClass t ||
        decide (mainValue t ∈ [none, some c!"title", some c!"author", some c!"author_aff"] ∧ Unsub t)) = true ∧
      (exHeaderTags d).lineToks.flatten.all (fun t => !beginsEntity t || decide (mainValue t ≠ none)) = true ∧
      tokenTexts (exHeaderTags d) = tokenTexts d ∧
      (tokenTexts d).getLast? ≠ some []) :=
  exists_of_okAnd (by decide +kernel)

example : ∃ d, loadDoc exHeaderCfg (exContainerRoot c!"A bc  d e" []) = .ok d ∧
    NestedMarked asciiClass headerMapping none [] (exHeaderTags d).lineToks.flatten :=
  exists_of_okAnd (by decide +kernel)

def exHeaderFile : Str :=
  c!"<tei><text><docTitle><titlePart>A</titlePart></docTitle><byline> <docAuthor>bc</docAuthor>  <affiliation>d</affiliation></byline> <note type=other>e</note></text></tei>"

example : ∃ r, exSaveTwice exHeaderCfg (exContainerRoot c!"A bc  d e" [])
    [(0, none, c!"b-title"), (2, none, c!"b-author"), (5, none, c!"b-author_aff")] = .ok r ∧
    (r.1 = exHeaderFile ∧ r.2 = exHeaderFile) :=
  exists_of_okAnd (by decide +kernel)

def exFulltextFile : Str :=
  c!"<tei><text><head>A</head> <p>bc<lb></lb> F1x</p> <other>y</other></text></tei>"

example : ∃ r, exSaveTwice exFulltextCfg exLinesRoot
    [(0, none, c!"b-section_title"), (2, none, c!"b-section_paragraph"), (4, none, c!"i-section_paragraph")] = .ok r ∧
    (r.1 = exFulltextFile ∧ r.2 = exFulltextFile) :=
  exists_of_okAnd (by decide +kernel)

def exSubFile1 : Str :=
  c!"<tei><text><p>A <ref type=biblio>b<lb></lb>c</ref></p> <other>d</other></text></tei>"
def exSubFile2 : Str :=
  c!"<tei><text><p>A <ref type=biblio>b<lb></lb></ref>c</p> <other>d</other></text></tei>"

/-- A document with sub tags: the references of C125. It meets the hypotheses of `C112_tools`. -/
def exTeiNs : Str := c!"{http://www.tei-c.org/ns/1.0}"
def exRefSubFile : Str :=
  c!"<tei><text><" ++ exTeiNs ++ c!"bibl><" ++ exTeiNs ++ c!"label>1</" ++ exTeiNs ++ c!"label> a<lb></lb><" ++ exTeiNs ++
    c!"title level=a>b c</" ++ exTeiNs ++ c!"title></" ++ exTeiNs ++ c!"bibl> <" ++ exTeiNs ++ c!"bibl><" ++ exTeiNs ++
    c!"label>2</" ++ exTeiNs ++ c!"label></" ++ exTeiNs ++ c!"bibl></text></tei>"

example : ∃ r, exSaveTwice exRefSubCfg exRefSubRoot exRefSubTags = .ok r ∧ (r.1 = exRefSubFile ∧ r.2 = exRefSubFile) :=
  exists_of_okAnd (by decide +kernel)

example : ∃ d, loadDoc exRefSubCfg exRefSubRoot = .ok d ∧
    ((exRefSubTags.foldl (fun d p => d.setTag p.1 (some p.2.2) p.2.1) d).lineToks.flatten.all (fun t => blank asciiClass t ||
      decide (mainValue t ∈ [none, some c!"reference"] ∧
        (Unsub t ∨ (subValue t ∈ exRefSubCfg.mapping.map (fun p => some p.1) ∧
          (mainPath exRefSubCfg.mapping t).length < (tokenPath exRefSubCfg.mapping t).length)))) = true) :=
  exists_of_okAnd (by decide +kernel)

example : ∃ d, loadDoc exRefSubCfg exRefSubRoot = .ok d ∧
    ((exRefSubTags.foldl (fun d p => d.setTag p.1 (some p.2.2) p.2.1) d).lineToks.flatten.all (fun t => blank asciiClass t ||
      decide (SubOwn exRefSubCfg.mapping t)) = true) :=
  exists_of_okAnd (by decide +kernel)

example : ∃ d, loadDoc exRefSubCfg exRefSubRoot = .ok d ∧
    NestedMarked asciiClass exRefSubCfg.mapping none []
      (exRefSubTags.foldl (fun d p => d.setTag p.1 (some p.2.2) p.2.1) d).lineToks.flatten :=
  exists_of_okAnd (by decide +kernel)

/-- Not for every sub tag: a citation over two lines loses the part in the second line. -/
theorem C112_sub_tag_lost :
    ∃ r, exSaveTwice exFulltextCfg (exContainerRoot c!"A b" [.mk c!"lb" [] none [] (some c!"c d")])
      [(0, none, c!"b-section_paragraph"), (2, none, c!"i-section_paragraph"), (2, some 2, c!"b-section_paragraph-xref-bib"),
        (3, none, c!"i-section_paragraph"), (3, some 2, c!"i-section_paragraph-xref-bib")] = .ok r ∧
      (r.1 = exSubFile1 ∧ r.2 = exSubFile2) :=
  exists_of_okAnd (by decide +kernel)

def exNestedFile1 : Str :=
  c!"<tei><text><docTitle><titlePart>A</titlePart></docTitle> <byline><docAuthor>bc</docAuthor></byline></text></tei>"
def exNestedFile2 : Str :=
  c!"<tei><text><docTitle><titlePart>A</titlePart></docTitle><byline> <docAuthor>bc</docAuthor></byline></text></tei>"

/-- Nor if an entity inside another element starts without the begin prefix: white space is moved. -/
theorem C112_space_moved :
    ∃ r, exSaveTwice exHeaderCfg (exContainerRoot c!"A bc" []) [(0, none, c!"b-title"), (2, none, c!"i-author")] = .ok r ∧
      (r.1 = exNestedFile1 ∧ r.2 = exNestedFile2) :=
  exists_of_okAnd (by decide +kernel)

/-- Nor if the last line is empty: its line break is lost. -/
theorem C112_line_break_lost :
    ∃ r, exSaveTwice exFulltextCfg (exContainerRoot c!"A" [.mk c!"lb" [] none [] none, .mk c!"lb" [] none [] none])
      [(0, none, c!"b-section_title")] = .ok r ∧
      (r.1 = c!"<tei><text><head>A<lb></lb></head></text></tei>" ∧ r.2 = c!"<tei><text><head>A</head></text></tei>") :=
  exists_of_okAnd (by decide +kernel)

end Verif
