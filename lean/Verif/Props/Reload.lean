/-
C105, C106: saving an annotated document and loading the file again keeps the main tags and the
boundaries of entities.
-/
import Verif.Lemmas.ReloadEntities
import Verif.Lemmas.Ok
import Verif.Props.TeiDoc

namespace Verif
open Spec

/-! ## C105 Saving and loading again keeps the main tags -/

/-- A document is saved into a file with one container and the file is loaded again, preserving
tags.  Loading succeeds, and the text that is not white space is the same and has the same main
tags, provided the tags in use can be told apart by their paths (`Spec.Distinct`). -/
theorem C105_round_trip (cfg : DocCfg) (root c root' : Elem) (d : Doc)
    (hp : cfg.preserveTags = true)
    (hc : findAll cfg.containerPath root = [c])
    (hs : docRoot cfg root d = .ok root')
    (hd : ∀ t ∈ d.lineToks.flatten, blank cfg.cc t = false → Distinct cfg.cc cfg.mapping d.lineToks.flatten t) :
    ∃ d', loadDoc cfg root' = .ok d' ∧ labelledText cfg.cc d' = labelledText cfg.cc d := by
  unfold docRoot updatedTei at hs
  rw [hc] at hs
  simp only at hs
  split at hs
  · cases hs
  · next f hf =>
    obtain ⟨r, h1, h2, _⟩ := findAll_replaceFirst f.close cfg.containerPath root c [] hc (by
      exact (linesToTei_head _ _ _ _ hf).1)
    rw [h1] at hs
    simp only [Except.ok.injEq] at hs
    subst hs
    have hn := linesToTei_below parsed_named (by decide) _ _ _ _ _ hf
    have ha := linesToTei_below parsed_attribs (by decide) _ _ _ _ _ hf
    obtain ⟨lines, hl⟩ := (extractContainersFrom_ok_iff cfg.cc (cfg.mapping.map (·.2)) [f.close] Buf.empty).2
      (fun e he => by rw [List.mem_singleton.1 he]; exact ha)
    have hload : ∃ d', loadDoc cfg r = .ok d' := by
      unfold loadDoc
      rw [h2]
      have hl' : extractContainers cfg.cc (cfg.mapping.map (·.2)) [f.close] = .ok lines := hl
      rw [hl']
      exact ⟨_, rfl⟩
    obtain ⟨d', hd'⟩ := hload
    refine ⟨d', hd', ?_⟩
    obtain ⟨lines', g1, _, g3, g4⟩ := Props.C11_preserved cfg r d' hd'
    rw [h2] at g1
    have e : labelledText cfg.cc d' = lines'.flatten.flatMap (fun t =>
        (t.text.filter (fun c => !cfg.cc.isSpace c)).map
          (fun c => (c, (stripTagPrefix (t.attrib.get? c!"tag")).bind (fun p => normTag (tagOfPath cfg.mapping p))))) := by
      have hall : d'.lineToks.flatten = d'.allTokens.map d'.tok := by
        simp only [Doc.lineToks, Doc.allTokens]
        induction d'.lines with
        | nil => rfl
        | cons l ls ih => simp [ih]
      unfold labelledText labelledChars
      rw [hall, g3, List.flatMap_map]
      apply flatMap_range
      intro i t ht
      obtain ⟨k1, k2, _, k4, _⟩ := g4 i t ht
      rw [hp, if_pos rfl] at k4
      rw [k1, mainValue_renamed cfg.mapping (d'.tok i) t k2 k4
        (loaded_tag_form cfg.cc _ f.close lines' hn g1 t (List.mem_of_getElem? ht))]
    have e2 := extract_chars cfg.cc _ f lines' hn g1
    obtain ⟨ps, p1, p2, _, p4, _⟩ := linesToTei_pieces ⟨cfg.cc, cfg.mapping, cfg.okNode⟩ c.tag [] f d.lineToks
      (fun l hl t ht hb g hg tg a hpe =>
        ((hd t (List.mem_flatten.2 ⟨l, hl, ht⟩) hb).stable g hg tg a hpe).2) hf
    have e3 := itemChars_pieces cfg.cc (outerTag cfg.cc (cfg.mapping.map (·.2)) (Spec.items f.close) 1) ps
      (loadedTag cfg.mapping)
      (fun p hp t ht hb it h1 h2 => outerTag_piece cfg.cc cfg.mapping f ps _ p1 p2 p4 hd p hp t ht hb it h1 h2)
    rw [← p1, ← e2, p2] at e3
    let m : Char × Option Str → Char × Option Str :=
      fun x => (x.1, x.2.bind (fun p => normTag (tagOfPath cfg.mapping p)))
    have e4 := congrArg (List.map m) e3
    rw [e]
    have l1 : (List.filter (fun x => !cfg.cc.isSpace x.1)
        (viewChars (lines'.flatten.map (fun t => (t.text, t.attrib.get? c!"tag"))))).map m =
        lines'.flatten.flatMap (fun t => (t.text.filter (fun c => !cfg.cc.isSpace c)).map
          (fun c => (c, (stripTagPrefix (t.attrib.get? c!"tag")).bind (fun p => normTag (tagOfPath cfg.mapping p))))) := by
      unfold viewChars
      rw [List.flatMap_map]
      generalize lines'.flatten = ts
      induction ts with
      | nil => rfl
      | cons t ts ih =>
        rw [List.flatMap_cons, List.flatMap_cons, List.filter_append, List.map_append, ih, List.filter_map,
          List.map_map]
        rfl
    rw [← l1, e4]
    unfold labelledText labelledChars
    rw [List.map_flatMap]
    have hmem : ∀ t ∈ d.lineToks.flatten, blank cfg.cc t = false →
        (loadedTag cfg.mapping t).bind (fun p => normTag (tagOfPath cfg.mapping p)) = mainValue t := by
      intro t ht hb
      unfold loadedTag
      by_cases hm : mainPath cfg.mapping t = []
      · rw [if_pos hm, mainValue_of_noPath cfg.mapping t hm]; rfl
      · rw [if_neg hm, Option.bind_some, (hd t ht hb).owner hm, mainValue_normTag]
    generalize d.lineToks.flatten = ts at hmem
    clear e4 e3
    induction ts with
    | nil => rfl
    | cons t ts ih =>
      rw [List.flatMap_cons, List.flatMap_cons, ih (fun u hu => hmem u (by simp [hu]))]
      congr 1
      cases hb : blank cfg.cc t with
      | true =>
        have : t.text.filter (fun c => !cfg.cc.isSpace c) = [] := by
          rw [List.filter_eq_nil_iff]
          intro c hc
          unfold blank at hb
          simp [List.all_eq_true.1 hb c hc]
        rw [this]; rfl
      | false =>
        rw [List.map_map]
        apply List.map_congr_left
        intro c _
        simp only [m, Function.comp_apply, hmem t (by simp) hb]

/-- The tags of the tools can be told apart. -/
theorem toolTags_distinct (cfg : DocCfg) (mains : List (Option Str)) (d : Doc)
    (htool : (cfg.mapping, mains) ∈ toolTags)
    (ht : ∀ t ∈ d.lineToks.flatten, blank cfg.cc t = false →
      mainValue t ∈ mains ∧ (subValue t = none ∨ subValue t ∈ cfg.mapping.map (fun p => some p.1))) :
    ∀ t ∈ d.lineToks.flatten, blank cfg.cc t = false → Distinct cfg.cc cfg.mapping d.lineToks.flatten t := by
  have key : ∀ m ∈ toolTags, distinctB m.1 m.2 (none :: m.1.map (fun p => some p.1)) = true := by
    decide +kernel
  intro t hm hb
  refine distinct_of_distinctB cfg.cc cfg.mapping mains (none :: cfg.mapping.map (fun p => some p.1)) (key _ htool) _ ?_ t hm hb
  intro u hu hbu
  obtain ⟨h1, h2⟩ := ht u hu hbu
  refine ⟨h1, ?_⟩
  rcases h2 with h2 | h2
  · rw [h2]; exact List.mem_cons_self ..
  · exact List.mem_cons_of_mem _ h2

/-- For the tools the condition holds: whatever a document contains, if its main tags are among
those listed in `Spec.toolTags` and its sub tags are tags of the tool, then saving and loading it
keeps the main tags. -/
theorem C105_tools (cfg : DocCfg) (mains : List (Option Str)) (root c root' : Elem) (d : Doc)
    (htool : (cfg.mapping, mains) ∈ toolTags)
    (hp : cfg.preserveTags = true)
    (hc : findAll cfg.containerPath root = [c])
    (hs : docRoot cfg root d = .ok root')
    (ht : ∀ t ∈ d.lineToks.flatten, blank cfg.cc t = false →
      mainValue t ∈ mains ∧ (subValue t = none ∨ subValue t ∈ cfg.mapping.map (fun p => some p.1))) :
    ∃ d', loadDoc cfg root' = .ok d' ∧ labelledText cfg.cc d' = labelledText cfg.cc d :=
  C105_round_trip cfg root c root' d hp hc hs (toolTags_distinct cfg mains d htool ht)

/-- Loads a file, sets tags (token, level, tag), saves it and loads it again; the result are the
characters with main tags before saving and after loading. -/
def exReload (cfg : DocCfg) (root : Elem) (tags : List (Nat × Option Nat × Str)) :
    Except Err (List (Char × Option Str) × List (Char × Option Str)) := do
  let d ← loadDoc cfg root
  let d := tags.foldl (fun d p => d.setTag p.1 (some p.2.2) p.2.1) d
  let root' ← docRoot cfg root d
  let d' ← loadDoc cfg root'
  return (labelledText cfg.cc d, labelledText cfg.cc d')

/-- `<tei><text>` text `</text></tei>` -/
def exReloadRoot (text : Str) : Elem :=
  .mk c!"tei" [] none [.mk c!"text" [] (some text) [] none] none

/-- The configuration of the full text tool. -/
def exFulltextCfg : DocCfg := ⟨asciiClass, fulltextMapping, fun _ _ => true, [c!"text"], true⟩

/-- A heading, a paragraph with a figure reference and untagged text: the hypotheses of
`C105_tools` are met. -/
def exReloadDoc (d : Doc) : Doc :=
  (((d.setTag 0 (some c!"b-section_title")).setTag 2 (some c!"b-section_paragraph")).setTag 4
    (some c!"i-section_paragraph")).setTag 4 (some c!"b-section_paragraph-xref-figure") (some subLevel)

/-- The main tags of the example. -/
def exReloadMains : List (Option Str) := [none, some c!"section_title", some c!"section_paragraph"]

/-- The input of the example. -/
def exReloadText : Elem := exReloadRoot c!"A bc F1 x"

example : (findAll exFulltextCfg.containerPath exReloadText).length = 1 ∧
    ∃ d, loadDoc exFulltextCfg exReloadText = .ok d ∧
    (∀ t ∈ (exReloadDoc d).lineToks.flatten, blank asciiClass t = false →
      mainValue t ∈ exReloadMains ∧
      (subValue t = none ∨ subValue t ∈ fulltextMapping.map (fun p => some p.1))) :=
  ⟨rfl, exists_of_okAnd (by decide +kernel)⟩

example : ∃ d, loadDoc exFulltextCfg exReloadText = .ok d ∧
    okAnd (docRoot exFulltextCfg exReloadText (exReloadDoc d)) (fun _ => True) = true :=
  exists_of_okAnd (by decide +kernel)

example : ∃ d, loadDoc exFulltextCfg exReloadText = .ok d ∧
    (some c!"section_paragraph-xref-figure" ∈ (exReloadDoc d).lineToks.flatten.map subValue ∧
    labelledText asciiClass (exReloadDoc d) =
      [('A', some c!"section_title"), ('b', some c!"section_paragraph"), ('c', some c!"section_paragraph"),
       ('F', some c!"section_paragraph"), ('1', some c!"section_paragraph"), ('x', none)]) :=
  exists_of_okAnd (by decide +kernel)

/-- Not for every tag: a list item is written into a list element, and read back as a list. -/
theorem C105_list_item_becomes_list :
    ∃ r, exReload exFulltextCfg (exReloadRoot c!"a") [(0, none, c!"b-list_item")] = .ok r ∧
      r = ([('a', some c!"list_item")], [('a', some c!"list")]) :=
  exists_of_okAnd (by decide +kernel)

/-- And text without a tag is written into a body element by the segmentation tool, and read back
as body. -/
theorem C105_untagged_becomes_body :
    ∃ r, exReload ⟨asciiClass, segmentationMapping, fun _ _ => true, [c!"text"], true⟩ (exReloadRoot c!"a b")
      [(0, none, c!"b-front")] = .ok r ∧
      r = ([('a', some c!"front"), ('b', none)], [('a', some c!"front"), ('b', some c!"body")]) :=
  exists_of_okAnd (by decide +kernel)

/-! ## C106 Saving and loading again keeps the boundaries of entities -/

/-- A document is saved into a file with one container and the file is loaded again, preserving
tags.  The text that is not white space is the same, has the same main tags, and entities start at
the same characters, provided the tags in use can be told apart by their paths (`Spec.Distinct`) and
sub tags belong to elements inside the main elements (`Spec.SubBelow`). -/
theorem C106_entities (cfg : DocCfg) (root c root' : Elem) (d : Doc)
    (hp : cfg.preserveTags = true)
    (hc : findAll cfg.containerPath root = [c])
    (hs : docRoot cfg root d = .ok root')
    (hd : ∀ t ∈ d.lineToks.flatten, blank cfg.cc t = false → Distinct cfg.cc cfg.mapping d.lineToks.flatten t)
    (hsub : ∀ t ∈ d.lineToks.flatten, blank cfg.cc t = false → SubBelow cfg.mapping t) :
    ∃ d', loadDoc cfg root' = .ok d' ∧ entityText cfg.cc d' = entityText cfg.cc d := by
  obtain ⟨d', hd', _⟩ := C105_round_trip cfg root c root' d hp hc hs hd
  refine ⟨d', hd', ?_⟩
  unfold docRoot updatedTei at hs
  rw [hc] at hs
  simp only at hs
  split at hs
  · cases hs
  · next f hf =>
    obtain ⟨r, h1, h2, _⟩ := findAll_replaceFirst f.close cfg.containerPath root c [] hc (by
      exact (linesToTei_head _ _ _ _ hf).1)
    rw [h1] at hs
    simp only [Except.ok.injEq] at hs
    subst hs
    have hn := linesToTei_below parsed_named (by decide) _ _ _ _ _ hf
    obtain ⟨lines', g1, _, g3, g4⟩ := Props.C11_preserved cfg r d' hd'
    rw [h2] at g1
    have hall : d'.lineToks.flatten = d'.allTokens.map d'.tok := by
      simp only [Doc.lineToks, Doc.allTokens]
      induction d'.lines with
      | nil => rfl
      | cons l ls ih => simp [ih]
    have hne : ∀ t ∈ lines'.flatten, t.text ≠ [] := by
      intro t ht
      obtain ⟨l, hl, ht⟩ := List.mem_flatten.1 ht
      exact extractContainersFrom_inv (neInv cfg.cc) _ _ _ _ g1 (by simp [Buf.empty]) l hl t (by simpa using ht)
    have e1 : d'.lineToks.flatten.flatMap tokStream =
        (viewStream (lines'.flatten.map (fun t => (t.text, t.attrib.get? c!"tag")))).map
          (fun x => (x.1, pathValue cfg.mapping x.2.1, x.2.2 && (pathValue cfg.mapping x.2.1).isSome)) := by
      unfold viewStream
      rw [hall, g3, List.flatMap_map, List.flatMap_map, List.map_flatMap]
      apply flatMap_range
      intro i t ht
      obtain ⟨k1, k2, _, k4, _⟩ := g4 i t ht
      rw [hp, if_pos rfl] at k4
      have hform := loaded_tag_form cfg.cc _ f.close lines' hn g1 t (List.mem_of_getElem? ht)
      unfold tokStream
      rw [k1, mainValue_renamed cfg.mapping (d'.tok i) t k2 k4 hform, hasBegin_renamed cfg.mapping (d'.tok i) t k2 k4 hform]
      cases t.text with
      | nil => rfl
      | cons c s => simp [flagFirst, pathValue, Function.comp_def]
    obtain ⟨ps, p1, p2, _, p4, _⟩ := linesToTei_pieces ⟨cfg.cc, cfg.mapping, cfg.okNode⟩ c.tag [] f d.lineToks
      (fun l hl t ht hb g hg tg a hpe =>
        ((hd t (List.mem_flatten.2 ⟨l, hl, ht⟩) hb).stable g hg tg a hpe).2) hf
    have hmemt : ∀ q ∈ ps, ∀ u, q.tok = some u → u ∈ d.lineToks.flatten := by
      intro q hq u hu
      rw [← p2, List.mem_filterMap]; exact ⟨q, hq, hu⟩
    have hinfo := outerInfo_piece cfg.cc cfg.mapping f ps _ p1 p2 p4 hd
    have hvalue : ∀ t ∈ d.lineToks.flatten, blank cfg.cc t = false →
        pathValue cfg.mapping (loadedTag cfg.mapping t) = mainValue t := by
      intro t ht hb
      unfold loadedTag pathValue
      by_cases hm : mainPath cfg.mapping t = []
      · rw [if_pos hm, mainValue_of_noPath cfg.mapping t hm]; rfl
      · rw [if_neg hm, Option.bind_some, (hd t ht hb).owner hm, mainValue_normTag]
    have hit : ∀ q ∈ ps, ∀ u, q.tok = some u → blank cfg.cc u = false →
        ∃ ch, (⟨q.addr, q.chain, some ch⟩ : Item) ∈ Spec.items f.close := by
      intro q hq u hu hb
      obtain ⟨ch, hch, _⟩ := exists_char_of_text hb
      refine ⟨ch, ?_⟩
      rw [p1]
      refine List.mem_flatMap.2 ⟨q, hq, ?_⟩
      unfold Piece.items
      rw [hu]
      exact List.mem_map.2 ⟨ch, hch, rfl⟩
    have e2 := loaded_entities cfg.cc (cfg.mapping.map (·.2)) cfg.mapping f lines' hn g1 none []
    have e3 := entity_pieces cfg.cc cfg.mapping ps p4
      (by
        intro p hpm q hqm t u ht hu hbt hbu hA hAA
        obtain ⟨x, hx⟩ := hit p hpm t ht hbt
        obtain ⟨y, hy⟩ := hit q hqm u hu hbu
        have i1 := hinfo p hpm t ht hbt ⟨p.addr, p.chain, some x⟩ rfl rfl
        have i2 := hinfo q hqm u hu hbu ⟨q.addr, q.chain, some y⟩ rfl rfl
        cases hm : mainAddr cfg.mapping p t with
        | none => exact absurd hm hA
        | some a =>
          have := outerInfo_unique cfg.cc (cfg.mapping.map (·.2)) f _ _ hx hy a (i1.1.trans hm) (i2.1.trans (hAA ▸ hm))
          rw [this] at i1
          rw [← hvalue t (hmemt p hpm t ht) hbt, ← hvalue u (hmemt q hqm u hu) hbu, ← i1.2, ← i2.2])
      (fun p hpm t ht hb => hsub t (hmemt p hpm t ht) hb)
      [] ps rfl none [] none ⟨[], [], rfl, by simp [noText], .inl ⟨rfl, rfl, rfl⟩, by simp⟩
    unfold entityText
    rw [entityChars_stream, e1, e2, ← p2, e3, p1]
    · rw [itemEntries_pieces cfg.cc cfg.mapping]
      intro p hpm t ht hb it ha hch
      obtain ⟨i1, i2⟩ := hinfo p hpm t ht hb it ha hch
      rw [p1] at i1 i2
      rw [i1, i2, hvalue t (hmemt p hpm t ht) hb]
    · intro t ht
      rw [hall, g3] at ht
      obtain ⟨i, hi, rfl⟩ := List.mem_map.1 ht
      obtain ⟨u, hu⟩ : ∃ u, lines'.flatten[i]? = some u :=
        ⟨_, List.getElem?_eq_getElem (List.mem_range.1 hi)⟩
      rw [(g4 i u hu).1]
      exact hne u (List.mem_of_getElem? hu)

/-- For the tools: main tags and the boundaries of entities are kept, as for `C105_tools`. -/
theorem C106_tools (cfg : DocCfg) (mains : List (Option Str)) (root c root' : Elem) (d : Doc)
    (htool : (cfg.mapping, mains) ∈ toolTags)
    (hp : cfg.preserveTags = true)
    (hc : findAll cfg.containerPath root = [c])
    (hs : docRoot cfg root d = .ok root')
    (ht : ∀ t ∈ d.lineToks.flatten, blank cfg.cc t = false →
      mainValue t ∈ mains ∧ (subValue t = none ∨ subValue t ∈ cfg.mapping.map (fun p => some p.1)))
    (hsub : ∀ t ∈ d.lineToks.flatten, blank cfg.cc t = false → SubBelow cfg.mapping t) :
    ∃ d', loadDoc cfg root' = .ok d' ∧ entityText cfg.cc d' = entityText cfg.cc d :=
  C106_entities cfg root c root' d hp hc hs (toolTags_distinct cfg mains d htool ht) hsub

/-- For the example below. -/
instance (t : Tok) : Decidable (isSubBegin t) :=
  decidable_of_iff (c!"b-" <+: (fullSubTag t).getD []) (by
    unfold isSubBegin
    cases fullSubTag t with
    | none => simp
    | some v =>
      constructor
      · rintro ⟨r, h⟩; exact ⟨r, by simpa using h.symm⟩
      · rintro ⟨r, h⟩; exact ⟨r, by simpa using h.symm⟩)

/-- A document with two paragraphs next to each other. -/
def exEntityDoc (d : Doc) : Doc :=
  (exReloadDoc d).setTag 6 (some c!"b-section_paragraph")

example : ∃ d, loadDoc exFulltextCfg exReloadText = .ok d ∧
    ((exEntityDoc d).lineToks.flatten.all (fun t => blank asciiClass t || decide (mainValue t ∈ exReloadMains ∧
      (subValue t = none ∨ subValue t ∈ fulltextMapping.map (fun p => some p.1)))) = true) :=
  exists_of_okAnd (by decide +kernel)

example : ∃ d, loadDoc exFulltextCfg exReloadText = .ok d ∧
    ((exEntityDoc d).lineToks.flatten.any (fun t => decide (isSubBegin t)) = true ∧
    (exEntityDoc d).lineToks.flatten.all (fun t => !decide (isSubBegin t) ||
      decide (hasSub fulltextMapping t ∧
        (mainPath fulltextMapping t).length < (subPath fulltextMapping t).length)) = true) :=
  exists_of_okAnd (by decide +kernel)

example : ∃ d, loadDoc exFulltextCfg exReloadText = .ok d ∧
    (okAnd (docRoot exFulltextCfg exReloadText (exEntityDoc d)) (fun _ => True) = true ∧
    entityText asciiClass (exEntityDoc d) =
      [('A', some c!"section_title", true), ('b', some c!"section_paragraph", true),
       ('c', some c!"section_paragraph", false), ('F', some c!"section_paragraph", false),
       ('1', some c!"section_paragraph", false), ('x', some c!"section_paragraph", true)]) :=
  exists_of_okAnd (by decide +kernel)

/-- Loads a file, sets tags (token, level, tag), saves it and loads it again: where entities start
before and after. -/
def exReloadEntities (cfg : DocCfg) (root : Elem) (tags : List (Nat × Option Nat × Str)) :
    Except Err (List (Char × Option Str × Bool) × List (Char × Option Str × Bool)) := do
  let d ← loadDoc cfg root
  let d := tags.foldl (fun d x => d.setTag x.1 (some x.2.2) x.2.1) d
  let root' ← docRoot cfg root d
  let d' ← loadDoc cfg root'
  .ok (entityText cfg.cc d, entityText cfg.cc d')

/-- The tag of paragraphs. -/
def exParagraph : Option Str := some c!"section_paragraph"

/-- Not for every sub tag: the begin of a sub tag whose path is not inside that of the main tag
splits the paragraph in two. -/
theorem C106_foreign_sub_tag_splits_entity :
    ∃ r, exReloadEntities exFulltextCfg (exReloadRoot c!"a b")
      [(0, none, c!"b-section_paragraph"), (1, none, c!"i-section_paragraph"), (2, none, c!"i-section_paragraph"),
       (2, some subLevel, c!"b-section_title")] = .ok r ∧
      (r.1 = [('a', exParagraph, true), ('b', exParagraph, false)] ∧
        r.2 = [('a', exParagraph, true), ('b', exParagraph, true)]) :=
  exists_of_okAnd (by decide +kernel)

end Verif
