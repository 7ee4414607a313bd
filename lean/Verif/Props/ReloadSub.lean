/-
C125: saving an annotated document and loading the file again: the sub tags.
-/
import Verif.Lemmas.ReloadSub
import Verif.Props.Reload

namespace Verif
open Spec

/-! ## C125 Saving and loading again: the sub tags -/

/-- A document is saved into a file with one container and the file is loaded again, preserving tags.  The sub tags of the
loaded text, and where they have the begin prefix, are exactly those described by `Spec.subMarksReadBack`, provided the main
tags in use can be told apart by their paths (`Spec.Distinct`): the begin prefix is where text was written into a new
element below the main element. -/
theorem C125_begins (cfg : DocCfg) (root c root' : Elem) (d : Doc)
    (hp : cfg.preserveTags = true)
    (hc : findAll cfg.containerPath root = [c])
    (hs : docRoot cfg root d = .ok root')
    (hd : ∀ t ∈ d.lineToks.flatten, blank cfg.cc t = false → Distinct cfg.cc cfg.mapping d.lineToks.flatten t) :
    ∃ d', loadDoc cfg root' = .ok d' ∧ subMarkText cfg.cc d' =
      (subMarksReadBack cfg.cc cfg.mapping [] none [] (withBreaks d.lineToks)).map
        (fun x => (x.1, x.2.1.bind (subName cfg.mapping), x.2.2 && (x.2.1.bind (subName cfg.mapping)).isSome)) := by
  obtain ⟨d', hd', _⟩ := C105_round_trip cfg root c root' d hp hc hs hd
  refine ⟨d', hd', ?_⟩
  unfold docRoot updatedTei at hs
  rw [hc] at hs
  simp only at hs
  split at hs
  · cases hs
  · next f hf =>
    obtain ⟨r, h1, h2, _⟩ := findAll_replaceFirst f.close cfg.containerPath root c [] hc (by
      exact (linesToTei_head _ _ _ _ hf).1)
    rw [h1] at hs
    simp only [Except.ok.injEq] at hs
    subst hs
    have hn := linesToTei_below parsed_named (by decide) _ _ _ _ _ hf
    obtain ⟨lines', g1, _, g3, g4⟩ := Props.C11_preserved cfg r d' hd'
    rw [h2] at g1
    have e : subMarkText cfg.cc d' = lines'.flatten.flatMap (fun t =>
        (entityLabels ((stripTagPrefix (t.attrib.get? c!"level2_tag")).bind (subName cfg.mapping))
          (hasBegin (t.attrib.get? c!"level2_tag") &&
            ((stripTagPrefix (t.attrib.get? c!"level2_tag")).bind (subName cfg.mapping)).isSome)
          t.text).filter (fun x => !cfg.cc.isSpace x.1)) := by
      have hall : d'.lineToks.flatten = d'.allTokens.map d'.tok := by
        simp only [Doc.lineToks, Doc.allTokens]
        induction d'.lines with
        | nil => rfl
        | cons l ls ih => simp [ih]
      unfold subMarkText
      rw [hall, g3, List.flatMap_map]
      apply flatMap_range
      intro i t ht
      obtain ⟨k1, _, k3, _, k5⟩ := g4 i t ht
      rw [hp, if_pos rfl] at k5
      have hform := loaded_sub_form cfg.cc _ f.close lines' hn g1 t (List.mem_of_getElem? ht)
      rw [k1, subValue_renamed cfg.mapping (d'.tok i) t k3 k5 hform, beginsSub_renamed cfg.mapping (d'.tok i) t k3 k5 hform]
    have e2 := extract_subs cfg.cc _ f lines' hn g1
    have e3 := linesToTei_trace ⟨cfg.cc, cfg.mapping, cfg.okNode⟩ c.tag f d.lineToks hf
      (fun l hl t ht hb => (hd t (List.mem_flatten.2 ⟨l, hl, ht⟩) hb).stable)
    have e4 := scan_doc cfg.cc cfg.mapping d.lineToks.flatten hd e3 (fun s h => by cases h) (fun t h => mem_withBreaks h) [] (.inl ⟨rfl, rfl⟩) none
      rfl (fun h => absurd rfl h)
    have hm0 : mainAt [] [] = none := rfl
    rw [hm0, filter_subMark, ← e2, Option.map_none] at e4
    rw [e, ← e4, viewStream_marks]

/-- A document is saved into a file with one container and the file is loaded again, preserving tags.  The sub tags of the
loaded text are exactly those described by `Spec.subsReadBack`, provided the main tags in use can be told apart by their
paths (`Spec.Distinct`). -/
theorem C125_exact (cfg : DocCfg) (root c root' : Elem) (d : Doc)
    (hp : cfg.preserveTags = true)
    (hc : findAll cfg.containerPath root = [c])
    (hs : docRoot cfg root d = .ok root')
    (hd : ∀ t ∈ d.lineToks.flatten, blank cfg.cc t = false → Distinct cfg.cc cfg.mapping d.lineToks.flatten t) :
    ∃ d', loadDoc cfg root' = .ok d' ∧ subText cfg.cc d' =
      (subsReadBack cfg.cc cfg.mapping [] none [] (withBreaks d.lineToks)).map
        (fun x => (x.1, x.2.bind (subName cfg.mapping))) := by
  obtain ⟨d', h1, h2⟩ := C125_begins cfg root c root' d hp hc hs hd
  refine ⟨d', h1, ?_⟩
  have h3 := subMarkChars_drop cfg.cc d'.lineToks.flatten
  have h4 : subMarkChars cfg.cc d'.lineToks.flatten = subMarkText cfg.cc d' := rfl
  rw [h4, h2, List.map_map] at h3
  rw [show subText cfg.cc d' = subChars cfg.cc d'.lineToks.flatten from rfl, ← h3, ← subMarksReadBack_drop, List.map_map]
  rfl

/-- If in addition the sub tags belong to their paths (`Spec.SubNamed`), and text with a sub tag is written into a new
element or continues the text before in the same line (`Spec.SubsMarked`), then all sub tags are kept. -/
theorem C125_round_trip (cfg : DocCfg) (root c root' : Elem) (d : Doc)
    (hp : cfg.preserveTags = true)
    (hc : findAll cfg.containerPath root = [c])
    (hs : docRoot cfg root d = .ok root')
    (hd : ∀ t ∈ d.lineToks.flatten, blank cfg.cc t = false → Distinct cfg.cc cfg.mapping d.lineToks.flatten t)
    (hnamed : ∀ t ∈ d.lineToks.flatten, blank cfg.cc t = false → SubNamed cfg.mapping t)
    (hmarked : SubsMarked cfg.cc cfg.mapping [] false [] (withBreaks d.lineToks)) :
    ∃ d', loadDoc cfg root' = .ok d' ∧ subText cfg.cc d' = subText cfg.cc d := by
  obtain ⟨d', h1, h2⟩ := C125_exact cfg root c root' d hp hc hs hd
  refine ⟨d', h1, ?_⟩
  rw [h2, readBack_kept cfg.cc cfg.mapping d.lineToks.flatten hd _ [] none false [] [] (.inl ⟨rfl, rfl⟩)
    (fun _ h => by simp at h) (fun t h => mem_withBreaks h) hnamed hmarked, seqToks_withBreaks]
  rfl

/-- If moreover the begin prefix of sub tags is exactly where text is written into a new element below the main element
(`Spec.SubsBegun`), then the begin prefixes are kept as well: the sub entities are the same. -/
theorem C125_entities (cfg : DocCfg) (root c root' : Elem) (d : Doc)
    (hp : cfg.preserveTags = true)
    (hc : findAll cfg.containerPath root = [c])
    (hs : docRoot cfg root d = .ok root')
    (hd : ∀ t ∈ d.lineToks.flatten, blank cfg.cc t = false → Distinct cfg.cc cfg.mapping d.lineToks.flatten t)
    (hnamed : ∀ t ∈ d.lineToks.flatten, blank cfg.cc t = false → SubNamed cfg.mapping t)
    (hmarked : SubsMarked cfg.cc cfg.mapping [] false [] (withBreaks d.lineToks))
    (hbegun : SubsBegun cfg.cc cfg.mapping [] [] (withBreaks d.lineToks)) :
    ∃ d', loadDoc cfg root' = .ok d' ∧ subMarkText cfg.cc d' = subMarkText cfg.cc d := by
  obtain ⟨d', h1, h2⟩ := C125_begins cfg root c root' d hp hc hs hd
  refine ⟨d', h1, ?_⟩
  rw [h2, readBack_begins cfg.cc cfg.mapping d.lineToks.flatten hd _ [] none false [] [] (.inl ⟨rfl, rfl⟩)
    (fun _ h => by simp at h) (fun t h => mem_withBreaks h) hnamed hmarked hbegun, seqToks_withBreaks]
  rfl

/-- The sub tags of the tools belong to their paths. -/
theorem toolTags_subNamed (mapping : Dict Str) (mains : List (Option Str)) (htool : (mapping, mains) ∈ toolTags) (t : Tok)
    (h1 : mainValue t ∈ mains)
    (h2 : subValue t = none ∨ (subValue t ∈ mapping.map (fun p => some p.1) ∧
        (mainPath mapping t).length < (tokenPath mapping t).length)) : SubNamed mapping t := by
  have key1 : ∀ m ∈ toolTags, ∀ v ∈ m.1.map (fun p => some p.1),
      subName m.1 (joinWith c!"/" (tagRequiredPath m.1 v)) = v ∨
        ∀ u ∈ m.2, tagRequiredPath m.1 u <+: tagRequiredPath m.1 v →
          ¬ (tagRequiredPath m.1 u).length < (tagRequiredPath m.1 v).length := by decide +kernel
  have key2 : ∀ m ∈ toolTags, ∀ u ∈ m.2, tagRequiredPath m.1 u <+: tagRequiredPath m.1 none →
      tagRequiredPath m.1 none = tagRequiredPath m.1 u := by decide +kernel
  have hpath : subPath mapping t = tagRequiredPath mapping (subValue t) := by
    rw [subValue_eq, tagRequiredPath_norm]; rfl
  rcases h2 with h2 | ⟨h2, h3⟩
  · refine .inl ⟨h2, ?_⟩
    unfold tokenPath
    split
    · next hh =>
      have := hh.2.2
      rw [hpath, h2, mainPath_value] at *
      exact key2 _ htool _ h1 this
    · rfl
  · have hh : hasSub mapping t := Classical.byContradiction fun hh => by
      have : tokenPath mapping t = mainPath mapping t := if_neg hh
      rw [this] at h3
      omega
    have he : tokenPath mapping t = tagRequiredPath mapping (subValue t) := by
      rw [← hpath]; exact if_pos hh
    refine .inr ⟨h3, ?_⟩
    rw [he]
    rcases key1 _ htool _ h2 with g | g
    · exact g
    · refine absurd ?_ (g _ h1 ?_)
      · rw [← he, ← mainPath_value]; exact h3
      · rw [← hpath, ← mainPath_value]; exact hh.2.2

/-- For the tools the sub tags belong to their paths: a document with main tags listed in `Spec.toolTags` and sub tags of
the tool whose paths lie below those of the main tags keeps its sub tags, if text with a sub tag is written into a new
element or continues the text before in the same line. -/
theorem C125_tools (cfg : DocCfg) (mains : List (Option Str)) (root c root' : Elem) (d : Doc)
    (htool : (cfg.mapping, mains) ∈ toolTags)
    (hp : cfg.preserveTags = true)
    (hc : findAll cfg.containerPath root = [c])
    (hs : docRoot cfg root d = .ok root')
    (ht : ∀ t ∈ d.lineToks.flatten, blank cfg.cc t = false → mainValue t ∈ mains ∧
      (subValue t = none ∨ (subValue t ∈ cfg.mapping.map (fun p => some p.1) ∧
        (mainPath cfg.mapping t).length < (tokenPath cfg.mapping t).length)))
    (hmarked : SubsMarked cfg.cc cfg.mapping [] false [] (withBreaks d.lineToks)) :
    ∃ d', loadDoc cfg root' = .ok d' ∧ subText cfg.cc d' = subText cfg.cc d := by
  exact C125_round_trip cfg root c root' d hp hc hs
    (toolTags_distinct cfg mains d htool (fun t h hb => ⟨(ht t h hb).1, (ht t h hb).2.imp id And.left⟩))
    (fun t h hb => toolTags_subNamed cfg.mapping mains htool t (ht t h hb).1 (ht t h hb).2) hmarked

/-! ### Examples -/

/-- Loads a file, sets tags (token, level, tag), saves it and loads it again; the result are the characters with sub tags
before saving and after loading, and what is expected after loading. -/
def exReloadSubs (cfg : DocCfg) (root : Elem) (tags : List (Nat × Option Nat × Str)) :
    Except Err (List (Char × Option Str) × List (Char × Option Str) × List (Char × Option Str)) := do
  let d ← loadDoc cfg root
  let d := tags.foldl (fun d p => d.setTag p.1 (some p.2.2) p.2.1) d
  let root' ← docRoot cfg root d
  let d' ← loadDoc cfg root'
  return (subText cfg.cc d, subText cfg.cc d',
    (subsReadBack cfg.cc cfg.mapping [] none [] (withBreaks d.lineToks)).map (fun x => (x.1, x.2.bind (subName cfg.mapping))))

/-- Two references in two lines: label and title of the first, with a line break before the title, and the label of the
second. -/
def exRefSubCfg : DocCfg := ⟨asciiClass, teiPaths referenceMapping, fun _ _ => true, [c!"text"], true⟩
def exRefSubRoot : Elem :=
  .mk c!"tei" [] none [.mk c!"text" [] (some c!"1 a") [.mk c!"lb" [] none [] (some c!"b c 2")] none] none
def exRefSubTags : List (Nat × Option Nat × Str) :=
  [(0, none, c!"b-reference"), (0, some 2, c!"b-reference-label"), (1, none, c!"i-reference"), (2, none, c!"i-reference"),
   (3, none, c!"i-reference"), (3, some 2, c!"b-reference-article-title"), (4, none, c!"i-reference"),
   (4, some 2, c!"i-reference-article-title"), (5, none, c!"i-reference"), (5, some 2, c!"i-reference-article-title"),
   (7, none, c!"b-reference"), (7, some 2, c!"b-reference-label")]

def exSubLabel : Option Str := some c!"reference-label"
def exSubTitle : Option Str := some c!"reference-article-title"

example : ∃ r, exReloadSubs exRefSubCfg exRefSubRoot exRefSubTags = .ok r ∧
    (r.1 = [('1', exSubLabel), ('a', none), ('b', exSubTitle), ('c', exSubTitle), ('2', exSubLabel)] ∧ r.2.1 = r.1 ∧ r.2.2 = r.1) :=
  exists_of_okAnd (by decide +kernel)

/-- The document meets the hypotheses of `C125_tools`. -/
example : ∃ d, loadDoc exRefSubCfg exRefSubRoot = .ok d ∧
    ((exRefSubTags.foldl (fun d p => d.setTag p.1 (some p.2.2) p.2.1) d).lineToks.flatten.all (fun t => blank asciiClass t ||
      decide (mainValue t ∈ [none, some c!"reference"] ∧
        (subValue t = none ∨ (subValue t ∈ exRefSubCfg.mapping.map (fun p => some p.1) ∧
          (mainPath exRefSubCfg.mapping t).length < (tokenPath exRefSubCfg.mapping t).length)))) = true) :=
  exists_of_okAnd (by decide +kernel)

example : ∃ d, loadDoc exRefSubCfg exRefSubRoot = .ok d ∧
    SubsMarked asciiClass exRefSubCfg.mapping [] false []
      (withBreaks (exRefSubTags.foldl (fun d p => d.setTag p.1 (some p.2.2) p.2.1) d).lineToks) :=
  exists_of_okAnd (by decide +kernel)

/-- It meets those of `C125_entities`, too. -/
example : ∃ d, loadDoc exRefSubCfg exRefSubRoot = .ok d ∧
    SubsBegun asciiClass exRefSubCfg.mapping [] []
      (withBreaks (exRefSubTags.foldl (fun d p => d.setTag p.1 (some p.2.2) p.2.1) d).lineToks) :=
  exists_of_okAnd (by decide +kernel)

/-- Like `exReloadSubs`, with the begin prefixes. -/
def exReloadMarks (cfg : DocCfg) (root : Elem) (tags : List (Nat × Option Nat × Str)) :
    Except Err (List (Char × Option Str × Bool) × List (Char × Option Str × Bool)) := do
  let d ← loadDoc cfg root
  let d := tags.foldl (fun d p => d.setTag p.1 (some p.2.2) p.2.1) d
  let root' ← docRoot cfg root d
  let d' ← loadDoc cfg root'
  return (subMarkText cfg.cc d, subMarkText cfg.cc d')

example : ∃ r, exReloadMarks exRefSubCfg exRefSubRoot exRefSubTags = .ok r ∧
    (r.1 = [('1', exSubLabel, true), ('a', none, false), ('b', exSubTitle, true), ('c', exSubTitle, false),
      ('2', exSubLabel, true)] ∧ r.2 = r.1) :=
  exists_of_okAnd (by decide +kernel)

/-- Text with a sub tag at the start of an element gets the begin prefix, if it did not have it: a title behind a label,
both without begin prefixes. -/
theorem C125_begin_added :
    ∃ r, exReloadMarks exRefSubCfg exRefSubRoot
      [(0, none, c!"b-reference"), (0, some 2, c!"i-reference-label"), (1, none, c!"i-reference"), (2, none, c!"i-reference"),
       (2, some 2, c!"i-reference-article-title")] = .ok r ∧
      (r.1 = [('1', exSubLabel, false), ('a', exSubTitle, false), ('b', none, false), ('c', none, false), ('2', none, false)] ∧
       r.2 = [('1', exSubLabel, true), ('a', exSubTitle, true), ('b', none, false), ('c', none, false), ('2', none, false)]) :=
  exists_of_okAnd (by decide +kernel)

/-- Without the begin prefix behind a line break the sub tag is lost: a title in two lines keeps its sub tag in the first
line only. -/
theorem C125_title_in_two_lines :
    ∃ r, exReloadSubs exRefSubCfg exRefSubRoot
      [(0, none, c!"b-reference"), (1, none, c!"i-reference"), (2, none, c!"i-reference"),
       (2, some 2, c!"b-reference-article-title"), (3, none, c!"i-reference"), (3, some 2, c!"i-reference-article-title")] = .ok r ∧
      (r.1 = [('1', none), ('a', exSubTitle), ('b', exSubTitle), ('c', none), ('2', none)] ∧
       r.2.1 = [('1', none), ('a', exSubTitle), ('b', none), ('c', none), ('2', none)] ∧ r.2.2 = r.2.1) :=
  exists_of_okAnd (by decide +kernel)

/-- So is a sub tag whose path is not below that of the main tag. -/
theorem C125_foreign_sub_tag_lost :
    ∃ r, exReloadSubs exFulltextCfg (exReloadRoot c!"a b")
      [(0, none, c!"b-section_title"), (0, some 2, c!"b-section_paragraph-xref-bib")] = .ok r ∧
      (r.1 = [('a', some c!"section_paragraph-xref-bib"), ('b', none)] ∧ r.2.1 = [('a', none), ('b', none)] ∧ r.2.2 = r.2.1) :=
  exists_of_okAnd (by decide +kernel)

end Verif
