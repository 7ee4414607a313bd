/-
C10 (loading and saving keeps the text), C11 (preserving tags on load), C12 (effect of setting a
tag), C13 (removing untagged text).
-/
import Verif.Lemmas.TeiDoc
import Verif.Lemmas.Ok

namespace Verif.Props
open Spec

/-! ## C10 Loading and saving a document preserves the text of the file -/

/-- If the file has one container, then loading it, changing the attributes of the tokens in any
way (`d'` has the same lines, and its tokens the same texts) and saving it gives a file with the
same text.  Missing: files with several containers, see `C10_several_containers_duplicate_text`. -/
theorem C10_text_partial (cfg : DocCfg) (root c root' : Elem) (d d' : Doc)
    (hc : findAll cfg.containerPath root = [c])
    (hl : loadDoc cfg root = .ok d)
    (hlines : d'.lines = d.lines) (htext : ∀ i, (d'.tok i).text = (d.tok i).text)
    (hs : docRoot cfg root d' = .ok root') :
    outerText root' = outerText root := by
  unfold loadDoc at hl
  rw [hc] at hl
  split at hl
  · cases hl
  · next lines hlo =>
    simp only [Except.ok.injEq] at hl
    have hsame : SameBut (Doc.ofLines lines) d := by
      rw [← hl]
      refine SameBut.trans ?_ (sameBut_resetCurrentTags _)
      split
      · exact sameBut_preserveCurrentTags _ _
      · exact .refl _
    have ht : d'.lineToks.map (fun l => l.flatMap (·.text)) = lines.map (fun l => l.flatMap (·.text)) := by
      have h1 := sameBut_lineToks_text hsame
      rw [lineToks_ofLines] at h1
      rw [← h1]
      simp only [Doc.lineToks, hlines, List.map_map]
      apply List.map_congr_left
      intro l _
      simp only [Function.comp_apply, List.flatMap_map]
      congr 1
      funext j
      exact htext j
    have ht2 : d'.lineToks.flatten.flatMap (·.text) = outerText c := by
      rw [flatten_flatMap_text, ht, ← flatten_flatMap_text]
      have h2 := congrArg List.flatten
        (extractContainersFrom_lines cfg.cc _ [c] Buf.empty lines hlo rfl)
      rw [flatten_flatMap_text]
      refine h2.trans ?_
      simp [dropFinalEmpty_flatten, splitBreaks_flatten, outerText, flow_text, filterMap_chars]
    unfold docRoot updatedTei at hs
    rw [hc] at hs
    simp only at hs
    split at hs
    · cases hs
    · next f hf =>
      have hft : outerText f.close = outerText c := by
        rw [← ht2]
        have := linesToTei_text _ _ _ _ hf
        simpa [outerText, Frame.close, itertext, itertextList, orEmpty, Elem.tail] using this
      obtain ⟨r, h1, h2, _⟩ := (replaceFirst_text f.close cfg.containerPath root).1 c [] hc hft
      rw [h1] at hs
      simp only [Except.ok.injEq] at hs
      rw [← hs]; exact h2

/-- An example configuration: the container is `text`. -/
def exDocCfg : DocCfg := ⟨asciiClass, [(c!"title", c!"head/title")], fun _ _ => true, [c!"text"], true⟩

/-- `<tei><h>x</h><text>a<head>b <title>c</title></head><lb/>d</text>e</tei>` -/
def exRoot : Elem :=
  .mk c!"tei" [] none
    [.mk c!"h" [] (some c!"x") [] none,
     .mk c!"text" [] (some c!"a")
      [.mk c!"head" [] none [.mk c!"title" [] (some c!"c ") [] none] none,
       .mk c!"lb" [] none [] (some c!"d")] (some c!"e")] none

/-- Loads, replaces the tag of a token and saves. -/
def exRoundTrip (cfg : DocCfg) (root : Elem) : Except Err Elem :=
  match loadDoc cfg root with
  | .error e => .error e
  | .ok d => docRoot cfg root (d.setTag 1 (some c!"b-other"))

example : (findAll exDocCfg.containerPath exRoot).length = 1 ∧
    ∃ r, exRoundTrip exDocCfg exRoot = .ok r ∧ (itertext r = c!"xac de" ∧ itertext exRoot = c!"xac de") :=
  ⟨rfl, exists_of_okAnd (by decide +kernel)⟩

/-- With several containers the text is not preserved: all lines are written into the first
container while the others stay. -/
theorem C10_several_containers_duplicate_text :
    ∃ root root', exRoundTrip exDocCfg root = .ok root' ∧
      (itertext root = c!"ab" ∧ itertext root' = c!"abb") :=
  ⟨.mk c!"tei" [] none [.mk c!"text" [] (some c!"a") [] none, .mk c!"text" [] (some c!"b") [] none] none,
    exists_of_okAnd (by decide +kernel)⟩

/-! ## C11 Preserving existing tags on load -/

/-- After loading, token number `i` has the text of the `i`-th token of the file, no explicit tag
at either level, and, if tags are preserved, as preserved tags the tags it had in the file
(paths replaced by the tag they are configured for, prefixes kept); otherwise no preserved tag. -/
theorem C11_preserved (cfg : DocCfg) (root : Elem) (d : Doc) (hl : loadDoc cfg root = .ok d) :
    ∃ lines, extractContainers cfg.cc (cfg.mapping.map (·.2)) (findAll cfg.containerPath root) = .ok lines ∧
      lineTexts d = lines.map (fun l => l.flatMap (·.text)) ∧
      d.allTokens = List.range lines.flatten.length ∧
      ∀ i t, lines.flatten[i]? = some t →
        (d.tok i).text = t.text ∧
        d.getTag i = none ∧ d.getSubTag i = none ∧
        d.getPreservedTag i = (if cfg.preserveTags then
          (t.attrib.get? c!"tag").map (renameTag (tagOfPath cfg.mapping)) else none) ∧
        d.getPreservedTag i (some 2) = (if cfg.preserveTags then
          (t.attrib.get? c!"level2_tag").map (renameTag (tagOfPath cfg.mapping)) else none) := by
  unfold loadDoc at hl
  split at hl
  · cases hl
  · next lines hlo =>
    refine ⟨lines, hlo, ?_⟩
    simp only [Except.ok.injEq] at hl
    have hsame : SameBut (Doc.ofLines lines) d := by
      rw [← hl]
      refine SameBut.trans ?_ (sameBut_resetCurrentTags _)
      split
      · exact sameBut_preserveCurrentTags _ _
      · exact .refl _
    refine ⟨?_, ?_, ?_⟩
    · have h1 := sameBut_lineToks_text hsame
      rw [lineToks_ofLines] at h1
      rw [← h1]
      simp [lineTexts, Doc.lineToks, List.map_map, Function.comp_def, List.flatMap_map]
    · rw [hsame.allTokens, allTokens_ofLines]
    · intro i t ht
      have hi : i < lines.flatten.length := by
        rcases Nat.lt_or_ge i lines.flatten.length with h | h
        · exact h
        · rw [List.getElem?_eq_none h] at ht; cases ht
      have htok : (Doc.ofLines lines).tok i = t := by
        simp [Doc.ofLines, ht]
      have hmem : ∀ d0, SameBut (Doc.ofLines lines) d0 → i ∈ d0.allTokens := by
        intro d0 h0
        rw [h0.allTokens, allTokens_ofLines]
        simpa using hi
      have hnone : ∀ m, m ≠ c!"tag" → m ≠ c!"level2_tag" → t.attrib.get? m = none := by
        have hinv := extractContainersFrom_inv (onlyTagsInv cfg.cc) _
          (findAll cfg.containerPath root) Buf.empty lines hlo (by simp [Buf.empty])
        obtain ⟨l, hl1, hl2⟩ := List.mem_flatten.1 (List.mem_of_getElem? ht)
        exact hinv l hl1 t (by simpa using hl2)
      have hget0 : ∀ m, (Doc.ofLines lines).getAttr i m = t.attrib.get? m := by
        intro m; simp only [Doc.getAttr, htok]
      have hrev : (fun t => (Doc.revMapping cfg.mapping).getD t t) = tagOfPath cfg.mapping := by
        funext x; exact revMapping_getD _ _
      have n1 : scopedAttribName preservedTagAttribName none none = c!"preserved_tag" := by decide
      have n2 : scopedAttribName preservedTagAttribName none (some 2) = c!"level2_preserved_tag" := by decide
      have n3 : scopedAttribName tagAttribName none none = c!"tag" := by decide
      have n4 : scopedAttribName tagAttribName none (some subLevel) = c!"level2_tag" := by decide
      refine ⟨by rw [hsame.text, htok], ?_⟩
      simp only [Doc.getTag, Doc.getSubTag, Doc.getPreservedTag, n1, n2, n3, n4, ← hl]
      rw [getAttr_resetCurrentTags]
      cases hp : cfg.preserveTags with
      | true =>
        simp only [if_true, hmem _ (sameBut_preserveCurrentTags _ _)]
        rw [getAttr_preserveCurrentTags, if_pos (hmem _ (.refl _))]
        simp [hget0, preservedOf_eq, hrev]
      | false =>
        simp only [Bool.false_eq_true, if_false, hmem _ (.refl _), if_true]
        simp [hget0, hnone]

/-- Loading the example: `c` and the following space are in the title element. -/
example : ∃ d, loadDoc exDocCfg exRoot = .ok d ∧
    ((List.range 5).map (fun i => ((d.tok i).text, d.getTag i, d.getPreservedTag i)) =
      [(c!"a", none, none), (c!"c", none, some c!"b-title"), (c!" ", none, some c!"i-title"),
       (c!"d", none, none), (c!"e", none, none)]) :=
  exists_of_okAnd (by decide +kernel)

/-! ## C12 Setting a tag has a bounded effect -/

/-- Exactly what setting a tag changes: the lines and texts stay, and each attribute `m` of each
token `j` stays the same except for
* the tag itself, and
* if the token is not white space and its tag value changes: the preserved tags on the same
  line with the same (non-empty) value as the preserved tag of the token, which are removed (on
  the level that is set, and when setting the main tag also for sub tags). -/
theorem C12_effect (d : Doc) (i : Nat) (tag : Option Str) (level : Option Nat) (scope : Option Str) :
    let d' := d.setTag i tag level scope
    d'.lines = d.lines ∧ d'.lineOf = d.lineOf ∧
    (∀ j, (d'.tok j).text = (d.tok j).text ∧ (d'.tok j).isSpace = (d.tok j).isSpace ∧
      (d'.tok j).whitespace = (d.tok j).whitespace) ∧
    ∀ j m, d'.getAttr j m =
      if j = i ∧ m = scopedAttribName c!"tag" scope level then tag
      else if (d.tok i).isSpace = false ∧
          stripTagPrefix tag ≠ stripTagPrefix (d.getTagOrPreserved i level) ∧
          j ∈ d.lineOf i ∧
          (m = scopedAttribName c!"preserved_tag" none level ∨
            (level = none ∧ m = scopedAttribName c!"preserved_tag" none (some 2))) ∧
          truthy (stripTagPrefix (d.getAttr i m)) = true ∧
          stripTagPrefix (d.getAttr j m) = stripTagPrefix (d.getAttr i m) then none
      else d.getAttr j m := by
  have hs := sameBut_setTag d i tag level scope
  refine ⟨hs.lines, hs.lineOf, fun j => ⟨hs.text j, hs.isSpace j, hs.whitespace j⟩, ?_⟩
  intro j m
  have hne := scopedTag_ne_preserved scope level
  have hd1 : ∀ k x, (d.setTagOnly i tag level scope).getAttr k x =
      if k = i ∧ x = scopedAttribName c!"tag" scope level then tag else d.getAttr k x :=
    fun k x => getAttr_setAttr d i k _ x tag
  have hpres : ∀ k l, (d.setTagOnly i tag level scope).getAttr k (scopedAttribName c!"preserved_tag" none l) =
      d.getAttr k (scopedAttribName c!"preserved_tag" none l) := by
    intro k l
    rw [hd1, if_neg]
    rintro ⟨_, h⟩
    exact hne l h.symm
  unfold Doc.setTag
  simp only
  cases hsp : (d.tok i).isSpace with
  | true => simp [hd1]
  | false =>
    simp only [Bool.false_eq_true, if_false, true_and]
    by_cases hv : stripTagPrefix tag = stripTagPrefix (d.getTagOrPreserved i level)
    · simp [hv, hd1]
    · simp only [ne_eq, hv, not_false_eq_true, if_true, true_and]
      have hc1 : ∀ k x, ((d.setTagOnly i tag level scope).clearSamePreserved i level).getAttr k x =
          if k = i ∧ x = scopedAttribName c!"tag" scope level then tag
          else if k ∈ d.lineOf i ∧ x = scopedAttribName c!"preserved_tag" none level ∧
            truthy (stripTagPrefix (d.getAttr i x)) = true ∧
            stripTagPrefix (d.getAttr k x) = stripTagPrefix (d.getAttr i x) then none
          else d.getAttr k x := by
        intro k x
        rw [getAttr_clearSamePreserved]
        by_cases hx : x = scopedAttribName c!"preserved_tag" none level
        · have hx2 : ¬ (k = i ∧ x = scopedAttribName c!"tag" scope level) := by
            rintro ⟨_, h⟩; exact hne level (h ▸ hx)
          rw [if_neg hx2]
          subst hx
          rw [hpres, hpres]
          rfl
        · have : ¬ (x = scopedAttribName preservedTagAttribName none level) := hx
          simp only [this, hx, false_and, and_false, if_false]
          exact hd1 k x
      by_cases hlev : level = none
      · subst hlev
        simp only [if_true, true_and]
        rw [getAttr_clearSamePreserved]
        by_cases hx : m = scopedAttribName c!"preserved_tag" none (some 2)
        · have hx2 : ∀ k, ¬ (k = i ∧ m = scopedAttribName c!"tag" scope none) := by
            rintro k ⟨_, h⟩; exact hne (some 2) (h ▸ hx)
          have hx3 : m ≠ scopedAttribName c!"preserved_tag" none none := by
            rw [hx]; decide
          have hx4 : m = scopedAttribName preservedTagAttribName none (some subLevel) := hx
          have hc2 : ∀ k, ((d.setTagOnly i tag none scope).clearSamePreserved i none).getAttr k m =
              d.getAttr k m := by
            intro k
            rw [hc1, if_neg (hx2 k), if_neg (fun h => hx3 h.2.1)]
          have hl : ((d.setTagOnly i tag none scope).clearSamePreserved i none).lineOf i = d.lineOf i := by
            rw [(sameBut_clearSamePreserved _ _ _).lineOf]; rfl
          rw [hc2, hc2, hl, if_neg (hx2 j)]
          simp only [← hx4, hx, or_true, true_and]
        · have : ¬ (m = scopedAttribName preservedTagAttribName none (some subLevel)) := hx
          simp only [this, hx, false_and, and_false, if_false, or_false]
          exact hc1 j m
      · simp only [hlev, if_false, false_and, or_false]
        exact hc1 j m

/-- In particular explicit tags of other tokens and all other lines stay as they are. -/
theorem C12_frame (d : Doc) (i : Nat) (tag : Option Str) (level : Option Nat) (scope : Option Str)
    (j : Nat) :
    (j ≠ i → ∀ s l, (d.setTag i tag level scope).getTag j l s = d.getTag j l s) ∧
    (j ≠ i → j ∉ d.lineOf i → ∀ m, (d.setTag i tag level scope).getAttr j m = d.getAttr j m) := by
  have h := (C12_effect d i tag level scope).2.2.2
  constructor
  · intro hj s l
    simp only [Doc.getTag]
    rw [h, if_neg (fun x => hj x.1), if_neg]
    rintro ⟨_, _, _, h1 | ⟨_, h1⟩, _⟩
    · exact scopedTag_ne_preserved s l _ h1
    · exact scopedTag_ne_preserved s l _ h1
  · intro hj hl m
    rw [h, if_neg (fun x => hj x.1), if_neg (fun x => hl x.2.2.1)]

/-- Setting the tag of `c` in the example removes the preserved tags of the title element. -/
example : ∃ d, loadDoc exDocCfg exRoot = .ok d ∧
    ((List.range 5).map (fun i => ((d.setTag 1 (some c!"b-x")).getTag i,
        (d.setTag 1 (some c!"b-x")).getPreservedTag i)) =
      [(none, none), (some c!"b-x", none), (none, none), (none, none), (none, none)]) :=
  exists_of_okAnd (by decide +kernel)

/-! ## C13 Removing untagged text -/

/-- The tagged text tokens of a line. -/
def keptTokens (d : Doc) (l : Line) : List Nat :=
  l.tokens.filter (fun i => !(d.tok i).isSpace && truthy (d.getTag i))

theorem C13_aux_tokens (d : Doc) (ts : List Nat) (st : Doc.RmState) :
    (ts.foldl (Doc.rmToken d) st).lines = st.lines ∧
    (ts.foldl (Doc.rmToken d) st).current.filter (fun i => !(d.tok i).isSpace) =
      st.current.filter (fun i => !(d.tok i).isSpace) ++
        ts.filter (fun i => !(d.tok i).isSpace && truthy (d.getTag i)) := by
  induction ts generalizing st with
  | nil => simp
  | cons t ts ih =>
    rw [List.foldl_cons, (ih _).1, (ih _).2]
    unfold Doc.rmToken
    have hg : d.getTag t = d.getAttr t tagAttribName := rfl
    cases hs : (d.tok t).isSpace with
    | true =>
      cases ho : st.outputEnabled <;> simp [hs]
    | false =>
      cases hv : truthy (d.getAttr t tagAttribName) <;> simp [hs, hv, hg]

theorem C13_aux_lines (d : Doc) (ls : List Line) (st : Doc.RmState) :
    (ls.foldl (Doc.rmLine d) st).current.filter (fun i => !(d.tok i).isSpace) =
      st.current.filter (fun i => !(d.tok i).isSpace) ++ ls.flatMap (keptTokens d) := by
  induction ls generalizing st with
  | nil => simp
  | cons l ls ih =>
    rw [List.foldl_cons, ih, List.flatMap_cons]
    have h := (C13_aux_tokens d l.tokens st).2
    unfold Doc.rmLine
    simp only
    split <;> (simp only [h]; simp [keptTokens])

/-- What holds for every document: the text tokens of each remaining line are all tagged tokens of
the document in order, and tokens themselves do not change. Missing is that they are on their
own line: all lines of the result have the same tokens. -/
theorem C13_kept_tokens_partial (d : Doc) (l : Line) (hl : l ∈ d.removeAllUntagged.lines) :
    l.tokens.filter (fun i => !(d.tok i).isSpace) = d.lines.flatMap (keptTokens d) ∧
    d.removeAllUntagged.tok = d.tok := by
  refine ⟨?_, rfl⟩
  unfold Doc.removeAllUntagged at hl
  simp only [List.mem_map] at hl
  obtain ⟨ns, _, rfl⟩ := hl
  simpa using C13_aux_lines d d.lines ⟨[], true, []⟩

/-- For a document of one line the property holds. -/
theorem C13_single_line_partial (d : Doc) (l : Line) (hd : d.lines = [l]) :
    d.removeAllUntagged.lines.flatMap (fun l => l.tokens.filter (fun i => !(d.tok i).isSpace)) =
      keptTokens d l ∧ d.removeAllUntagged.lines.length ≤ 1 := by
  have key := C13_aux_tokens d l.tokens ⟨[], true, []⟩
  unfold Doc.removeAllUntagged
  simp only [hd, List.foldl_cons, List.foldl_nil, Doc.rmLine]
  simp only [List.filter_nil, List.nil_append] at key
  split
  · next h =>
    rw [List.isEmpty_iff] at h
    simp only [key.1, List.map_nil, List.flatMap_nil, List.length_nil, Nat.zero_le, and_true]
    have := key.2
    rw [h] at this
    exact this
  · simp only [key.1, List.nil_append, List.map_cons, List.map_nil, List.flatMap_cons, List.flatMap_nil,
      List.append_nil, List.length_cons, List.length_nil, Nat.le_refl, and_true]
    exact key.2

/-- The document with two lines `a b` and `c`, of which `a` and `c` are tagged. -/
def exRm : Doc := Doc.ofLines
  [[toTextToken asciiClass c!"a" (some c!"x") none, toTextToken asciiClass c!" " none none,
    toTextToken asciiClass c!"b" none none],
   [toTextToken asciiClass c!"c" (some c!"x") none]]

/-- The property is violated with more than one line: both lines of the result contain both tagged
tokens, so each of them occurs twice. -/
theorem C13_tokens_duplicated :
    lineTexts exRm = [c!"a b", c!"c"] ∧
    exRm.allTokens.filter (fun i => truthy (exRm.getTag i)) = [0, 3] ∧
    lineTexts exRm.removeAllUntagged = [c!"a c", c!"a c"] ∧
    exRm.removeAllUntagged.allTokens = [0, 1, 3, 0, 1, 3] := by
  refine ⟨?_, ?_, ?_, ?_⟩ <;> decide +kernel

end Verif.Props
