/-
C109: saving a document and loading the file again keeps the tokens of every line.
-/
import Verif.Lemmas.ReloadTokens
import Verif.Props.Reload

namespace Verif
open Spec

/-! ## C109 Saving and loading again keeps the tokens of every line -/

/-- As `C109_tokens`, for all tags that do not ask for line break elements. -/
theorem reload_tokens (cfg : DocCfg) (root c root' : Elem) (d : Doc)
    (hspace : ∀ ch, cfg.cc.isSpace ch = true → cfg.cc.isWord ch = false)
    (hc : findAll cfg.containerPath root = [c])
    (hs : docRoot cfg root d = .ok root')
    (hwhole : ∀ l ∈ tokenTexts d, ∀ s ∈ l, Whole cfg.cc s)
    (hapart : ∀ l ∈ tokenTexts d, Apart cfg.cc l)
    (hlb : ∀ l ∈ d.lineToks, ∀ t ∈ l, blank cfg.cc t = false → ∀ g ∈ tokenPath cfg.mapping t,
      ∀ tag attrib, parseTagExpression g = .ok (tag, attrib) → tag ≠ c!"lb") :
    ∃ d', loadDoc cfg root' = .ok d' ∧
      tokenTexts d' = dropFinalNoTokens (moveSpace cfg.cc [] (tokenTexts d)) := by
  unfold docRoot updatedTei at hs
  rw [hc] at hs
  simp only at hs
  split at hs
  · cases hs
  · next f hf =>
    obtain ⟨r, h1, h2, _⟩ := findAll_replaceFirst f.close cfg.containerPath root c [] hc (by
      exact (linesToTei_head _ _ _ _ hf).1)
    rw [h1] at hs
    simp only [Except.ok.injEq] at hs
    subst hs
    have ha := linesToTei_below parsed_attribs (by decide) _ _ _ _ _ hf
    obtain ⟨lines, hl⟩ := (extractContainersFrom_ok_iff cfg.cc (cfg.mapping.map (·.2)) [f.close] Buf.empty).2
      (fun e he => by rw [List.mem_singleton.1 he]; exact ha)
    have hl' : extractContainers cfg.cc (cfg.mapping.map (·.2)) [f.close] = .ok lines := hl
    obtain ⟨d', hd'⟩ : ∃ d', loadDoc cfg r = .ok d' := by
      unfold loadDoc
      rw [h2, hl']
      exact ⟨_, rfl⟩
    refine ⟨d', hd', ?_⟩
    obtain ⟨lines', g1, g2⟩ := loadDoc_texts cfg r d' hd'
    rw [h2] at g1
    rw [g2, extractContainers_stream cfg.cc _ _ _ g1]
    have htail : cutNodes cfg.cc (node f.close.tail) = [] := rfl
    have hcut := linesToTei_cut ⟨cfg.cc, cfg.mapping, cfg.okNode⟩ hspace c.tag [] f d.lineToks
      (fun l hl t ht => hwhole _ (List.mem_map_of_mem hl) _ (List.mem_map_of_mem ht))
      hlb
      (fun l hl => hapart _ (List.mem_map_of_mem hl)) hf
    rw [htail, List.append_nil, hcut]
    unfold tokenTexts
    cases d.lineToks with
    | nil => rfl
    | cons l ls => rw [splitTokens_delay _ _ _ _ (by simp)]

/-- A document is saved into a file with one container and the file is loaded again.  If the tokens
are tokens for the tokeniser, as those of a loaded document are, then the lines have the same tokens
again, except that white space at the end of a line has moved to the start of the next one and a
final line without tokens is dropped. -/
theorem C109_tokens (cfg : DocCfg) (root c root' : Elem) (d : Doc)
    (hspace : ∀ ch, cfg.cc.isSpace ch = true → cfg.cc.isWord ch = false)
    (hc : findAll cfg.containerPath root = [c])
    (hs : docRoot cfg root d = .ok root')
    (hwhole : ∀ l ∈ tokenTexts d, ∀ s ∈ l, Whole cfg.cc s)
    (hapart : ∀ l ∈ tokenTexts d, Apart cfg.cc l)
    (hlb : ∀ t ∈ d.lineToks.flatten, blank cfg.cc t = false → ∀ f ∈ tokenPath cfg.mapping t, Stable f) :
    ∃ d', loadDoc cfg root' = .ok d' ∧
      tokenTexts d' = dropFinalNoTokens (moveSpace cfg.cc [] (tokenTexts d)) :=
  reload_tokens cfg root c root' d hspace hc hs hwhole hapart
    (fun l hl t ht hb g hg tg a hpe => (hlb t (List.mem_flatten.2 ⟨l, hl, ht⟩) hb g hg tg a hpe).2)

/-- In particular the tokens that are not white space are the same on every line, if the last line
has a token. -/
theorem C109_lines (cfg : DocCfg) (root c root' : Elem) (d : Doc)
    (hspace : ∀ ch, cfg.cc.isSpace ch = true → cfg.cc.isWord ch = false)
    (hc : findAll cfg.containerPath root = [c])
    (hs : docRoot cfg root d = .ok root')
    (hwhole : ∀ l ∈ tokenTexts d, ∀ s ∈ l, Whole cfg.cc s)
    (hapart : ∀ l ∈ tokenTexts d, Apart cfg.cc l)
    (hlb : ∀ t ∈ d.lineToks.flatten, blank cfg.cc t = false → ∀ f ∈ tokenPath cfg.mapping t, Stable f)
    (hlast : (tokenTexts d).getLast? ≠ some []) :
    ∃ d', loadDoc cfg root' = .ok d' ∧
      (tokenTexts d').map (fun l => l.filter (fun s => !space cfg.cc s)) =
        (tokenTexts d).map (fun l => l.filter (fun s => !space cfg.cc s)) := by
  obtain ⟨d', h1, h2⟩ := C109_tokens cfg root c root' d hspace hc hs hwhole hapart hlb
  refine ⟨d', h1, ?_⟩
  have hm := moveSpace_text cfg.cc (tokenTexts d) [] (by simp)
  have : dropFinalNoTokens (moveSpace cfg.cc [] (tokenTexts d)) = moveSpace cfg.cc [] (tokenTexts d) := by
    unfold dropFinalNoTokens
    rw [if_neg]
    exact fun hl => hlast (moveSpace_last _ _ _ hl)
  rw [h2, this, hm]

/-- With the conditions of C105 the tokens also have the same main tags. -/
theorem C109_labels (cfg : DocCfg) (root c root' : Elem) (d : Doc)
    (hspace : ∀ ch, cfg.cc.isSpace ch = true → cfg.cc.isWord ch = false)
    (hp : cfg.preserveTags = true)
    (hc : findAll cfg.containerPath root = [c])
    (hs : docRoot cfg root d = .ok root')
    (hd : ∀ t ∈ d.lineToks.flatten, blank cfg.cc t = false → Distinct cfg.cc cfg.mapping d.lineToks.flatten t)
    (hwhole : ∀ l ∈ tokenTexts d, ∀ s ∈ l, Whole cfg.cc s)
    (hapart : ∀ l ∈ tokenTexts d, Apart cfg.cc l)
    (hlast : (tokenTexts d).getLast? ≠ some []) :
    ∃ d', loadDoc cfg root' = .ok d' ∧ labelledLines cfg.cc d' = labelledLines cfg.cc d := by
  obtain ⟨d', h1, h2⟩ := C109_lines cfg root c root' d hspace hc hs hwhole hapart
    (fun t ht hb => (hd t ht hb).stable) hlast
  obtain ⟨d2, h3, h4⟩ := C105_round_trip cfg root c root' d hp hc hs hd
  rw [h1] at h3
  cases h3
  exact ⟨d', h1, labelledLines_eq cfg.cc d' d h2 h4⟩

/-- The tokens of a loaded document are tokens for the tokeniser. -/
theorem C109_loaded_whole (cfg : DocCfg) (root : Elem) (d : Doc) (h : loadDoc cfg root = .ok d) :
    ∀ l ∈ tokenTexts d, ∀ s ∈ l, Whole cfg.cc s := by
  obtain ⟨lines, g1, g2⟩ := loadDoc_texts cfg root d h
  rw [g2, extractContainersFrom_stream cfg.cc _ _ _ _ g1 rfl]
  intro l hl s hs
  obtain ⟨e, _, he⟩ := List.mem_flatMap.1 hl
  have hl' : l ∈ splitTokens (cutNodes cfg.cc (nodesElem e) ++ cutNodes cfg.cc (node e.tail)) := by
    unfold dropFinalNoTokens at he
    split at he
    · exact (List.dropLast_sublist _).subset he
    · exact he
  have hm := mem_splitTokens _ l hl' s hs
  rw [← cutNodes_append] at hm
  exact mem_cutNodes_whole cfg.cc _ s hm

/-- The tokens of a document loaded from text with line breaks only meet at token boundaries. -/
theorem C109_loaded_apart (cfg : DocCfg) (root : Elem) (d : Doc) (h : loadDoc cfg root = .ok d)
    (hplain : ∀ e ∈ findAll cfg.containerPath root, PlainLines e) :
    ∀ l ∈ tokenTexts d, Apart cfg.cc l := by
  obtain ⟨lines, g1, g2⟩ := loadDoc_texts cfg root d h
  rw [g2, extractContainersFrom_stream cfg.cc _ _ _ _ g1 rfl]
  intro l hl
  obtain ⟨e, hem, he⟩ := List.mem_flatMap.1 hl
  have hl' : l ∈ splitTokens (cutNodes cfg.cc (nodesElem e) ++ cutNodes cfg.cc (node e.tail)) := by
    unfold dropFinalNoTokens at he
    split at he
    · exact (List.dropLast_sublist _).subset he
    · exact he
  obtain ⟨hp1, hp2⟩ := hplain e hem
  obtain ⟨t, a, x, cs, tl⟩ := e
  simp only [Elem.tail, Elem.children] at hp1 hp2
  subst hp1
  have e1 : cutNodes cfg.cc (nodesElem (.mk t a x cs none)) ++ cutNodes cfg.cc (node (Elem.mk t a x cs none).tail) =
      cutNodes cfg.cc (node x ++ nodesList cs) := by
    simp [nodesElem, node, orEmpty, Elem.tail, cutNodes]
  rw [e1] at hl'
  obtain ⟨s, rfl⟩ := splitTokens_plain cfg.cc cs hp2 (orEmpty x) x (by
    unfold node; split
    · exact .inl rfl
    · exact .inr rfl) l hl'
  intro pre v w post y z hl hv hw
  exact cutAt_apart _ s pre v w post y z hl hv hw

/-- For the tools: a file with one container that holds text with line breaks only is loaded, its
tokens are labelled in any way with the tags of the tool, and the result is saved and loaded again.
Then every line has the same tokens with the same main tags again. -/
theorem C109_tools (cfg : DocCfg) (mains : List (Option Str)) (root c root' : Elem) (d0 d : Doc)
    (hspace : ∀ ch, cfg.cc.isSpace ch = true → cfg.cc.isWord ch = false)
    (htool : (cfg.mapping, mains) ∈ toolTags)
    (hp : cfg.preserveTags = true)
    (hc : findAll cfg.containerPath root = [c])
    (hplain : PlainLines c)
    (hload : loadDoc cfg root = .ok d0)
    (htext : tokenTexts d = tokenTexts d0)
    (hs : docRoot cfg root d = .ok root')
    (ht : ∀ t ∈ d.lineToks.flatten, blank cfg.cc t = false →
      mainValue t ∈ mains ∧ (subValue t = none ∨ subValue t ∈ cfg.mapping.map (fun p => some p.1)))
    (hlast : (tokenTexts d).getLast? ≠ some []) :
    ∃ d', loadDoc cfg root' = .ok d' ∧ labelledLines cfg.cc d' = labelledLines cfg.cc d :=
  C109_labels cfg root c root' d hspace hp hc hs (toolTags_distinct cfg mains d htool ht)
    (htext ▸ C109_loaded_whole cfg root d0 hload)
    (htext ▸ C109_loaded_apart cfg root d0 hload (fun e he => by
      rw [hc] at he; rw [List.mem_singleton.1 he]; exact hplain)) hlast

/-- `<text>A bc <lb/>F1x y</text>` -/
def exLinesContainer : Elem :=
  .mk c!"text" [] (some c!"A bc ") [.mk c!"lb" [] none [] (some c!"F1x y")] none

/-- A file with two lines. -/
def exLinesRoot : Elem := .mk c!"tei" [] none [exLinesContainer] none

example : findAll exFulltextCfg.containerPath exLinesRoot = [exLinesContainer] ∧ PlainLines exLinesContainer :=
  ⟨rfl, rfl, by
    intro c hc
    rw [List.mem_singleton.1 hc]
    exact ⟨rfl, rfl, rfl⟩⟩

example : ∀ ch, asciiClass.isSpace ch = true → asciiClass.isWord ch = false := by
  intro ch h
  simp only [asciiClass, Bool.or_eq_true, decide_eq_true_eq] at h
  rcases h with ((rfl | rfl) | rfl) | rfl <;> decide

/-- Loads a file, sets tags (token, level, tag), saves it and loads it again: the labelled lines
before and after. -/
def exReloadLines (cfg : DocCfg) (root : Elem) (tags : List (Nat × Option Nat × Str)) :
    Except Err (List (List (Str × Option Str)) × List (List (Str × Option Str))) := do
  let d ← loadDoc cfg root
  let d := tags.foldl (fun d x => d.setTag x.1 (some x.2.2) x.2.1) d
  let root' ← docRoot cfg root d
  let d' ← loadDoc cfg root'
  .ok (labelledLines cfg.cc d, labelledLines cfg.cc d')

example : ∃ r, exReloadLines exFulltextCfg exLinesRoot
      [(0, none, c!"b-section_title"), (2, none, c!"b-section_paragraph"), (4, none, c!"i-section_paragraph")] = .ok r ∧
      (r.1 = [[(c!"A", some c!"section_title"), (c!"bc", some c!"section_paragraph")],
        [(c!"F1x", some c!"section_paragraph"), (c!"y", none)]] ∧ r.1 = r.2) :=
  exists_of_okAnd (by decide +kernel)

/-- Not if an element starts within a word: with the same tag the two tokens become one. -/
theorem C109_tokens_merged :
    ∃ r, exReloadLines exFulltextCfg
      (.mk c!"tei" [] none [.mk c!"text" [] (some c!"H") [.mk c!"hi" [] (some c!"2") [] (some c!"O")] none] none)
      [(0, none, c!"b-section_title"), (1, none, c!"i-section_title"), (2, none, c!"i-section_title")] = .ok r ∧
      (r.1 = [[(c!"H", some c!"section_title"), (c!"2", some c!"section_title"), (c!"O", some c!"section_title")]] ∧
        r.2 = [[(c!"H2O", some c!"section_title")]]) :=
  exists_of_okAnd (by decide +kernel)

/-- And the last line is lost if it has no tokens. -/
theorem C109_empty_last_line_dropped :
    ∃ r, exReloadLines exFulltextCfg
      (.mk c!"tei" [] none [.mk c!"text" [] (some c!"A")
        [.mk c!"lb" [] none [] none, .mk c!"lb" [] none [] none] none] none)
      [(0, none, c!"b-section_title")] = .ok r ∧
      (r.1 = [[(c!"A", some c!"section_title")], []] ∧ r.2 = [[(c!"A", some c!"section_title")]]) :=
  exists_of_okAnd (by decide +kernel)

end Verif
