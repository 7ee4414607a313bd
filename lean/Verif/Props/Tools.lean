/-
The tools as a whole: C92 (text of the file), C93 (options for line numbers), C94 (labels kept by the tools for
sub tags), C95 (line breaks and attributes of the container).
-/
import Verif.Lemmas.SubTools
import Verif.Lemmas.TeiRoot
import Verif.Lemmas.Ok
import Verif.Props.TeiDoc
import Verif.Props.TeiLoad
import Verif.Props.TeiWrite
import Verif.Props.CoreMatching
import Verif.Props.Reference
import Verif.Props.Segmentation

namespace Verif

open Spec (outerText flow splitBreaks dropFinalEmpty chars blank tokenPath)

/-! ### C92 Text -/

/-- Tools asked to remove references or affiliations without tags. -/
def Spec.removesText : Tool → Prop
  | .reference _ _ r => r = true
  | .affiliation _ r => r = true
  | _ => False

theorem tool_keeps (env : ToolEnv) (a : ToolArgs) (t : Tool) (h : ¬ Spec.removesText t) : ∀ f ∈ t.annotators env a, Keeps f := by
  intro f hf
  have hrem : ∀ (b : Bool), b ≠ true → f ∉ removeUntaggedIf b := by
    intro b hb hx
    unfold removeUntaggedIf at hx
    rw [if_neg hb] at hx
    cases hx
  cases t with
  | header => exact keeps_default _ _ _ f hf
  | referenceSegmenter => exact keeps_default _ _ _ f hf
  | segmentation cfg np =>
    rcases List.mem_append.1 hf with hf | hf
    · exact keeps_default _ _ _ f hf
    · rw [List.mem_singleton] at hf; subst hf; exact keeps_total (keeps_segment _ _ _)
  | fulltext ne p fo =>
    rcases List.mem_append.1 hf with hf | hf
    · rcases List.mem_append.1 hf with hf | hf
      · simp only [List.mem_cons, List.not_mem_nil, or_false] at hf
        rcases hf with rfl | rfl | rfl
        · exact keeps_simpleAnnotate _ _ _
        · exact keeps_total (keeps_replaceTags _)
        · exact keeps_total (keeps_mergeGroupTags _ _)
      · split at hf
        · rw [List.mem_singleton] at hf; subst hf; exact keeps_total (keeps_expandPrevious _)
        · cases hf
    · split at hf
      · rw [List.mem_singleton] at hf; subst hf; exact keeps_total (keeps_expandFollowing _)
      · cases hf
  | figure s => rw [Tool.annotators, List.mem_singleton] at hf; subst hf; exact keeps_matchOrSubTags _ _ _ _
  | table s => rw [Tool.annotators, List.mem_singleton] at hf; subst hf; exact keeps_matchOrSubTags _ _ _ _
  | reference s i r =>
    rcases List.mem_append.1 hf with hf | hf
    · simp only [List.mem_cons, List.not_mem_nil, or_false] at hf
      rcases hf with rfl | rfl
      · exact keeps_matchOrSubTags _ _ _ _
      · exact keeps_referenceAnnotate _ _
    · exact absurd hf (hrem r h)
  | affiliation s r =>
    rcases List.mem_append.1 hf with hf | hf
    · rcases List.mem_append.1 hf with hf | hf
      · rw [List.mem_singleton] at hf; subst hf; exact keeps_matchOrSubTags _ _ _ _
      · exact absurd hf (hrem r h)
    · rw [List.mem_singleton] at hf; subst hf; exact keeps_total (keeps_mergeGroupTags _ _)

/-- The steps of a run that writes a file. -/
theorem run_steps {env : ToolEnv} {a : ToolArgs} {t : Tool} {cfg : DocCfg} {passes : Doc → Except Err Bool} {root root' : Elem}
    {target path : Str} {failed : Option Str} (h : t.run env a cfg passes root target failed = .ok (some (path, root'))) :
    ∃ d0 d', loadDoc { cfg with preserveTags := true } root = .ok d0 ∧
      annotateAll (t.annotators env a) (beforeAnnotator (t.annotateCfg a) d0) = .ok d' ∧
      docRoot cfg root d' = .ok root' ∧
      ((passes d' = .ok true ∧ path = target) ∨ (passes d' = .ok false ∧ failed = some path)) := by
  unfold Tool.run annotateDocument at h
  simp only at h
  split at h
  · cases h
  · next d0 h0 =>
    split at h
    · cases h
    · next d' h' =>
      split at h
      · cases h
      · next hp =>
        split at h
        · cases h
        · next x hx =>
          cases h
          exact ⟨d0, d', h0, h', hx, .inl ⟨hp, rfl⟩⟩
      · next hp =>
        split at h
        · next c s =>
          split at h
          · cases h
          · next x hx =>
            cases h
            exact ⟨d0, d', h0, h', hx, .inr ⟨hp, rfl⟩⟩
        · cases h

/-- **C92.** The file written by any tool (to the output or, if the checks fail, to the failed output) has the same
text as the source file, whatever matches are found and whatever the options are, as long as the file has one
container and references or affiliations without tags are not to be removed. -/
theorem C92_text (env : ToolEnv) (a : ToolArgs) (t : Tool) (cfg : DocCfg) (passes : Doc → Except Err Bool) (root root' c : Elem)
    (target path : Str) (failed : Option Str) (hr : ¬ Spec.removesText t) (hc : findAll cfg.containerPath root = [c])
    (h : t.run env a cfg passes root target failed = .ok (some (path, root'))) :
    outerText root' = outerText root ∧ (path = target ∨ failed = some path) := by
  obtain ⟨d0, d', h0, h1, h2, h3⟩ := run_steps h
  have hs : SameBut d0 d' :=
    (Props.C14_aux_sameBut _ _).trans (keeps_annotateAll _ (tool_keeps env a t hr) _ _ h1)
  refine ⟨Props.C10_text_partial { cfg with preserveTags := true } root c root' d0 d' hc h0 hs.lines hs.text h2, ?_⟩
  rcases h3 with h3 | h3
  · exact .inl h3.2
  · exact .inr h3.2

/-- The environments of the examples of the annotators. -/
def exToolEnv : ToolEnv := ⟨exMatchEnv, coreExampleEnv, asciiSegEnv, exRefEnv, Props.exParse⟩

/-- `<tei><text>some title<lb/>by<note>author</note> abc</text></tei>` -/
def exToolRoot : Elem :=
  .mk c!"tei" [] none
    [.mk c!"text" [] (some c!"on some title")
      [.mk c!"lb" [] none [] (some c!"by "), .mk c!"note" [] (some c!"author") [] (some c!" abc")] none] none

def exToolCfg : DocCfg := ⟨asciiClass, [(c!"title", c!"front/title"), (c!"name", c!"front/name")], fun _ _ => true, [c!"text"], true⟩

/-- The text of the file written. -/
def writtenText (r : Except Err (Option (Str × Elem))) : Option Str :=
  match r with
  | .ok (some (_, e)) => some (outerText e)
  | _ => none

/-- Annotating titles and names keeps the text. -/
example : writtenText (Tool.header.run exToolEnv { targets := exTargets } exToolCfg (fun _ => .ok true) exToolRoot c!"out" none) =
    some c!"on some titleby author abc" := by
  decide +kernel

/-- Two references, one of them without a label. -/
def exRefRoot : Elem :=
  .mk c!"tei" [] none
    [.mk c!"text" [] none
      [.mk c!"bibl" [] (some c!"one") [] none, .mk c!"lb" [] none [] none, .mk c!"bibl" [] (some c!"two") [] none] none] none

def exRefCfg : DocCfg := ⟨asciiClass, [(c!"reference", c!"bibl")], fun _ _ => true, [c!"text"], true⟩

/-- Removing references without tags writes the text of the others several times, once for each line: here each of
the two lines of the file. -/
theorem C92_removing_repeats_text :
    ∃ env a cfg root, (findAll cfg.containerPath root).length = 1 ∧ outerText root = c!"onetwo" ∧
      writtenText ((Tool.reference false false true).run env a cfg (fun _ => .ok true) root c!"out" none) = some c!"onetwoonetwo" :=
  ⟨exToolEnv, {}, exRefCfg, exRefRoot, by decide +kernel⟩

/-! ### C93 Options for line numbers -/

/-- **C93**, in part: without a given ratio and gap the annotator of line numbers is configured as asked for. -/
theorem C93_minimum_partial (env : ToolEnv) (n : Int) :
    lineNumberAnnotator env { minPerPage := n } =
      annotateLineNumbers ⟨env.simple.cc, env.parseInt, c!"line_no", n, 10, 1/10⟩ := rfl

/-- The option for the gap between line numbers has no effect: some lines are tagged as line numbers although the
distance of the numbers is greater than asked for. -/
theorem C93_gap_ignored :
    (∀ (env : ToolEnv) (a : LineNumberArgs) (g : Int), lineNumberAnnotator env { a with maxGap := g } = lineNumberAnnotator env a) ∧
    ∃ (env : ToolEnv) (a : LineNumberArgs) (d : Doc), (∃ d1, lineNumberAnnotator env a d = .ok d1 ∧ d1.getTag 0 = some c!"line_no") ∧
      ∃ d2, annotateLineNumbers ⟨env.simple.cc, env.parseInt, c!"line_no", a.minPerPage, a.maxGap, 1/10⟩ d = .ok d2 ∧
        d2.getTag 0 = none :=
  ⟨fun _ _ _ => rfl, exToolEnv, { minPerPage := 2, maxGap := 0 },
    Doc.ofLines [[⟨c!"1", false, [], none⟩], [⟨c!"3", false, [], none⟩]], exists_of_okAnd (by decide +kernel),
    exists_of_okAnd (by decide +kernel)⟩

/-- Giving the option for the ratio makes the annotation fail for each document in which line numbers are found with
any ratio; without line numbers it has no effect. -/
theorem C93_ratio_fails (env : ToolEnv) (a : LineNumberArgs) (ratio : Str) (ha : a.ratio = some ratio) (hm : 0 < a.minPerPage)
    (d : Doc) (toks : List Nat)
    (h : findLineNumbers ⟨env.simple.cc, env.parseInt, c!"line_no", a.minPerPage, 10, 0⟩ d = .ok toks) :
    lineNumberAnnotator env a d = if toks = [] then .ok d else .error .typeError := by
  unfold lineNumberAnnotator
  rw [ha]
  simp only
  unfold findLineNumbers at h
  simp only at h
  generalize lineNumberCandidates env.parseInt (d.getText env.simple.cc) a.minPerPage 10 (firstTokens d) = cands at h ⊢
  by_cases h1 : (cands.length : Int) < a.minPerPage
  · rw [if_pos h1] at h ⊢
    obtain rfl := Except.ok.inj h
    rw [if_pos rfl]
  · rw [if_neg h1] at h ⊢
    by_cases h2 : (firstTokens d).length = 0
    · rw [if_pos h2] at h; cases h
    · rw [if_neg h2] at h ⊢
      have hne : cands ≠ [] := by intro e; subst e; exact h1 (by simpa using hm)
      have h3 : ¬ ((cands.length : Rat) / ((firstTokens d).length : Rat) < 0) := by
        rw [Rat.div_lt_iff (by exact_mod_cast Nat.pos_of_ne_zero h2), Rat.zero_mul, Rat.not_lt]
        exact_mod_cast Nat.zero_le _
      rw [if_neg h3] at h
      obtain rfl := Except.ok.inj h
      rw [if_neg hne]

/-- So the tools using line numbers write no file then. -/
theorem C93_tools_fail (env : ToolEnv) (a : ToolArgs) (ratio : Str) (ha : a.lineNumbers.ratio = some ratio)
    (hm : 0 < a.lineNumbers.minPerPage) (hu : a.useLineNumbers = true) (t : Tool)
    (ht : t = .header ∨ t = .referenceSegmenter ∨ ∃ s n, t = .segmentation s n) (cfg : DocCfg) (passes : Doc → Except Err Bool)
    (root : Elem) (target : Str) (failed : Option Str) (d0 : Doc) (hl : loadDoc { cfg with preserveTags := true } root = .ok d0)
    (toks : List Nat) (hne : toks ≠ [])
    (h : findLineNumbers ⟨env.simple.cc, env.parseInt, c!"line_no", a.lineNumbers.minPerPage, 10, 0⟩
      (beforeAnnotator (t.annotateCfg a) d0) = .ok toks) :
    t.run env a cfg passes root target failed = .error .typeError := by
  have hln := C93_ratio_fails env a.lineNumbers ratio ha hm _ toks h
  rw [if_neg hne] at hln
  have hx : ∀ rest, annotateAll (lineNumberAnnotator env a.lineNumbers :: rest) (beforeAnnotator (t.annotateCfg a) d0) = .error .typeError := by
    intro rest; unfold annotateAll; rw [hln]
  have hann : ∃ rest, t.annotators env a = lineNumberAnnotator env a.lineNumbers :: rest := by
    rcases ht with rfl | rfl | ⟨s, n, rfl⟩ <;>
    · simp only [Tool.annotators, defaultAnnotators, hu, if_true, List.cons_append, List.nil_append]
      exact ⟨_, rfl⟩
  obtain ⟨rest, hr⟩ := hann
  unfold Tool.run annotateDocument
  simp only [hl, hr, hx]

/-- Ten numbered lines. -/
def exTenLines : Doc := Doc.ofLines ((List.range 10).map (fun n => [⟨Nat.toDigits 10 (n + 1), false, [], none⟩]))

example : findLineNumbers ⟨exToolEnv.simple.cc, exToolEnv.parseInt, c!"line_no", 10, 10, 0⟩ exTenLines = .ok (List.range 10) := by
  decide +kernel

/-! ### C94 Labels kept by the tools for sub tags -/

theorem loaded_no_tag {dc : DocCfg} {root : Elem} {d : Doc} (hl : loadDoc dc root = .ok d) (i : Nat) (hi : i ∈ d.allTokens) :
    d.getTag i = none := by
  obtain ⟨lines, _, _, h1, h2⟩ := Props.C11_preserved dc root d hl
  rw [h1, List.mem_range] at hi
  obtain ⟨t, ht⟩ : ∃ t, lines.flatten[i]? = some t := ⟨_, List.getElem?_eq_getElem hi⟩
  exact (h2 i t ht).2.1

/-- The field of the tools which annotate what is inside of it, unless they are asked to segment. -/
def Spec.toolField : Tool → Option Str
  | .figure segment => if segment then none else some c!"figure"
  | .table segment => if segment then none else some c!"table"
  | .reference segment _ _ => if segment then none else some c!"reference"
  | .affiliation segment _ => if segment then none else some c!"author_aff"
  | .header => none
  | .referenceSegmenter => none
  | .segmentation _ _ => none
  | .fulltext _ _ _ => none

theorem ownField_eq (t : Tool) : t.ownField = Spec.toolField t := by
  cases t with
  | figure s => cases s <;> rfl
  | table s => cases s <;> rfl
  | reference s _ _ => cases s <;> rfl
  | affiliation s _ => cases s <;> rfl
  | _ => rfl

/-- **C94.** The tools for figures, tables, references and affiliations, unless they segment (or remove text), keep exactly
the labels of their own field: each token has the label it had in the file, if it is one of that field, and no label
otherwise. This holds for all matches and options. -/
theorem C94_own_field (env : ToolEnv) (a : ToolArgs) (t : Tool) (field : Str) (hf : Spec.toolField t = some field)
    (hr : ¬ Spec.removesText t) (dc : DocCfg) (root : Elem) (d0 d' : Doc) (hl : loadDoc dc root = .ok d0)
    (ha : annotateAll (t.annotators env a) (beforeAnnotator (t.annotateCfg a) d0) = .ok d') (i : Nat) (hi : i ∈ d0.allTokens) :
    d'.getTag i = (if stripTagPrefix (d0.getPreservedTag i) = some field then d0.getPreservedTag i else none) ∧
    d'.getTagOrPreserved i = d'.getTag i := by
  rw [← ownField_eq] at hf
  have hfield : field ≠ [] := by
    cases t <;> simp only [Tool.ownField] at hf <;> first | cases hf | (split at hf <;> cases hf <;> decide)
  have hpf : (t.annotateCfg a).preserveFields = [field] := by simp only [Tool.annotateCfg, hf]
  have hn := loaded_no_tag hl i hi
  have hor : d0.getTagOrPreserved i = d0.getPreservedTag i := by
    unfold Doc.getTagOrPreserved; rw [hn]; rfl
  obtain ⟨hsame, hk, hnk, _, _, _⟩ := Props.C14_before_annotation (t.annotateCfg a) d0 i hi
  have hbt := before_tags (t.annotateCfg a) d0 i hi hn
  have hkeep : Spec.keepMain (t.annotateCfg a) (stripTagPrefix (d0.getTagOrPreserved i)) ↔
      stripTagPrefix (d0.getPreservedTag i) = some field := by
    unfold Spec.keepMain
    rw [hpf, hor]
    simp
  have hb : (beforeAnnotator (t.annotateCfg a) d0).getTagOrPreserved i =
      if stripTagPrefix (d0.getPreservedTag i) = some field then d0.getPreservedTag i else none := by
    by_cases hx : stripTagPrefix (d0.getPreservedTag i) = some field
    · rw [if_pos hx, hk (hkeep.2 hx), hor]
    · rw [if_neg hx, hnk (fun h => hx (hkeep.1 h))]
  rw [← hb]
  generalize beforeAnnotator (t.annotateCfg a) d0 = b at *
  have hib : i ∈ b.allTokens := by rw [hsame.allTokens]; exact hi
  have hmatch : ∀ (cfg : MatchCfg) (d1 : Doc), matchOrSubTags env cfg a.targets false b = .ok d1 →
      d1.getTag i = b.getTagOrPreserved i ∧ d1.getTagOrPreserved i = d1.getTag i := by
    intro cfg d1 h1
    unfold matchOrSubTags at h1
    simp only [Bool.false_eq_true, if_false] at h1
    have := Props.C34_main_tags_kept_partial _ _ b d1
      (fun _ _ hxy j => ⟨(subOnly_simpleAnnotate _ _ rfl rfl _ _ _ hxy).getTag j,
        (subOnly_simpleAnnotate _ _ rfl rfl _ _ _ hxy).getPreservedTag j⟩) h1 i hib hbt
    exact ⟨this.2, this.1.trans this.2.symm⟩
  have hsub : ∀ {x y : Doc}, SubOnly x y → x.getTag i = b.getTagOrPreserved i ∧ x.getTagOrPreserved i = x.getTag i →
      y.getTag i = b.getTagOrPreserved i ∧ y.getTagOrPreserved i = y.getTag i := by
    intro x y hxy h
    have e : y.getTagOrPreserved i = x.getTagOrPreserved i := by
      unfold Doc.getTagOrPreserved
      rw [hxy.getTag, hxy.getPreservedTag]
    rw [e, hxy.getTag]
    exact h
  have hone : ∀ (f : Doc → Except Err Doc) (x y : Doc) rest, annotateAll (f :: rest) x = .ok y →
      ∃ z, f x = .ok z ∧ annotateAll rest z = .ok y := by
    intro f x y rest h
    unfold annotateAll at h
    split at h
    · cases h
    · next z hz => exact ⟨z, hz, h⟩
  cases t with
  | figure s =>
    cases s with
    | true => cases hf
    | false =>
      obtain ⟨z, hz, h⟩ := hone _ _ _ _ ha
      obtain rfl := Except.ok.inj h
      exact hmatch _ _ hz
  | table s =>
    cases s with
    | true => cases hf
    | false =>
      obtain ⟨z, hz, h⟩ := hone _ _ _ _ ha
      obtain rfl := Except.ok.inj h
      exact hmatch _ _ hz
  | reference s p r =>
    cases r with
    | true => exact absurd rfl hr
    | false =>
      cases s with
      | true => cases hf
      | false =>
        obtain ⟨z, hz, h⟩ := hone _ _ _ _ ha
        obtain ⟨w, hw, h⟩ := hone _ _ _ _ h
        obtain rfl := Except.ok.inj h
        exact hsub (subOnly_referenceAnnotate _ _ _ _ hw) (hmatch _ _ hz)
  | affiliation s r =>
    cases r with
    | true => exact absurd rfl hr
    | false =>
      cases s with
      | true => cases hf
      | false =>
        obtain ⟨z, hz, h⟩ := hone _ _ _ _ ha
        obtain ⟨w, hw, h⟩ := hone _ _ _ _ h
        obtain rfl := Except.ok.inj h
        obtain rfl := Except.ok.inj hw
        exact hsub (subOnly_mergeGroupTags _ _) (hmatch _ _ hz)
  | header => cases hf
  | referenceSegmenter => cases hf
  | segmentation _ _ => cases hf
  | fulltext _ _ _ => cases hf

/-- A file with a figure and a table: the tool for figures keeps the figure only. -/
def exFigureRoot : Elem :=
  .mk c!"tei" [] none
    [.mk c!"text" [] none [.mk c!"figure" [] (some c!"one two") [] none, .mk c!"table" [] (some c!"three") [] none] none] none

def exFigureCfg : DocCfg := ⟨asciiClass, [(c!"figure", c!"figure"), (c!"table", c!"table")], fun _ _ => true, [c!"text"], true⟩

/-- Loads and annotates. -/
def loadAndAnnotate (env : ToolEnv) (a : ToolArgs) (t : Tool) (cfg : DocCfg) (root : Elem) : Except Err Doc :=
  match loadDoc cfg root with
  | .error e => .error e
  | .ok d => annotateAll (t.annotators env a) (beforeAnnotator (t.annotateCfg a) d)

example : Spec.toolField (Tool.figure false) = some c!"figure" ∧
    ∃ d', loadAndAnnotate exToolEnv {} (.figure false) exFigureCfg exFigureRoot = .ok d' ∧
      d'.allTokens.map (fun i => d'.getTag i) = [some c!"b-figure", some c!"i-figure", some c!"i-figure", none] :=
  ⟨rfl, exists_of_okAnd (by decide +kernel)⟩

/-- **C34**, for the annotator itself (matching without main tags, wrapped by the clearing and restoring loops): main
tags which are preserved tags are kept. -/
theorem C34_sub_tags_only (env : MatchEnv) (cfg : MatchCfg) (targets : List Target) (preserveSub : Bool) (d d' : Doc)
    (hm : cfg.mainTags = false) (hx : cfg.extendToLineEnabled = false)
    (h : subTagOnlyAnnotate preserveSub (simpleAnnotate env cfg targets) d = .ok d') (i : Nat) (hi : i ∈ d.allTokens)
    (hnone : d.getTag i = none ∨ d.getTag i = d.getPreservedTag i) :
    d'.getTagOrPreserved i = d.getTagOrPreserved i ∧ d'.getTag i = d.getTagOrPreserved i :=
  Props.C34_main_tags_kept_partial _ _ d d'
    (fun _ _ hxy j => ⟨(subOnly_simpleAnnotate _ _ hm hx _ _ _ hxy).getTag j,
      (subOnly_simpleAnnotate _ _ hm hx _ _ _ hxy).getPreservedTag j⟩) h i hi hnone

/-! ### C95 Line breaks and attributes of the container -/

/-- The tags of a document never ask for line break elements. -/
def Spec.NoBreakTags (cfg : DocCfg) (d : Doc) : Prop :=
  ∀ l ∈ d.lineToks, ∀ t ∈ l, blank cfg.cc t = false →
    ∀ g ∈ tokenPath cfg.mapping t, ∀ tag attrib, parseTagExpression g = .ok (tag, attrib) → tag ≠ c!"lb"

/-- Reading a file, changing the attributes of the tokens in any way and saving it. -/
theorem C95_aux (cfg : DocCfg) (root c root' : Elem) (d d' : Doc) (hc : findAll cfg.containerPath root = [c])
    (hl : loadDoc cfg root = .ok d) (hlines : d'.lines = d.lines) (htext : ∀ i, (d'.tok i).text = (d.tok i).text)
    (hne : flow c ++ chars c.tail ≠ []) (hs : docRoot cfg root d' = .ok root') :
    ∃ c', findAll cfg.containerPath root' = [c'] ∧ c'.tag = c.tag ∧ c'.attrib = [] ∧ c'.tail = none ∧
      (Spec.NoBreakTags cfg d' →
        (splitBreaks (flow c')).map (fun l => l.filter (fun x => !cfg.cc.isSpace x)) =
          (dropFinalEmpty (splitBreaks (flow c ++ chars c.tail))).map (fun l => l.filter (fun x => !cfg.cc.isSpace x))) := by
  unfold loadDoc at hl
  rw [hc] at hl
  split at hl
  · cases hl
  · next lines hlo =>
    simp only [Except.ok.injEq] at hl
    have hsame : SameBut (Doc.ofLines lines) d := by
      rw [← hl]
      refine SameBut.trans ?_ (sameBut_resetCurrentTags _)
      split
      · exact sameBut_preserveCurrentTags _ _
      · exact .refl _
    have ht : d'.lineToks.map (fun l => l.flatMap (·.text)) = lines.map (fun l => l.flatMap (·.text)) := by
      have h1 := sameBut_lineToks_text hsame
      rw [lineToks_ofLines] at h1
      rw [← h1]
      simp only [Doc.lineToks, hlines, List.map_map]
      apply List.map_congr_left
      intro l _
      simp only [Function.comp_apply, List.flatMap_map]
      congr 1
      funext j
      exact htext j
    have h5 := Props.C05_lines cfg.cc _ [c] lines hlo
    simp only [List.flatMap_cons, List.flatMap_nil, List.append_nil] at h5
    unfold docRoot updatedTei at hs
    rw [hc] at hs
    simp only at hs
    split at hs
    · cases hs
    · next f hf =>
      obtain ⟨g1, g2⟩ := linesToTei_head _ _ _ _ hf
      obtain ⟨e', h1, h2, _⟩ := findAll_replaceFirst f.close cfg.containerPath root c [] hc g1
      rw [h1] at hs
      simp only [Except.ok.injEq] at hs
      subst hs
      refine ⟨f.close, h2, g1, g2, rfl, fun hnb => ?_⟩
      have hn : d'.lineToks ≠ [] := by
        intro h0
        rw [h0, h5] at ht
        exact dropFinalEmpty_ne_nil _ hne ht.symm
      have h7 := Props.C07_lines ⟨cfg.cc, cfg.mapping, cfg.okNode⟩ _ _ _ hn hnb hf
      have e : ∀ ls : List (List Tok), ls.map (fun l => (l.flatMap (·.text)).filter (fun x => !cfg.cc.isSpace x)) =
          (ls.map (fun l => l.flatMap (·.text))).map (fun l => l.filter (fun x => !cfg.cc.isSpace x)) := by
        intro ls; rw [List.map_map]; rfl
      rw [h7, e, ht, h5]

/-- **C95.** The file written by a tool has one container as before. Its lines (the text between the line break
elements) are, up to white space, those of the source file; only an empty last line is lost. But the container
has no attributes and no text behind it any more. -/
theorem C95_lines (env : ToolEnv) (a : ToolArgs) (t : Tool) (cfg : DocCfg) (passes : Doc → Except Err Bool) (root root' c : Elem)
    (target path : Str) (failed : Option Str) (hr : ¬ Spec.removesText t) (hc : findAll cfg.containerPath root = [c])
    (hne : flow c ++ chars c.tail ≠ [])
    (h : t.run env a cfg passes root target failed = .ok (some (path, root'))) :
    ∃ d0 d' c', loadDoc { cfg with preserveTags := true } root = .ok d0 ∧
      annotateAll (t.annotators env a) (beforeAnnotator (t.annotateCfg a) d0) = .ok d' ∧
      findAll cfg.containerPath root' = [c'] ∧ c'.tag = c.tag ∧ c'.attrib = [] ∧ c'.tail = none ∧
      (Spec.NoBreakTags cfg d' →
        (splitBreaks (flow c')).map (fun l => l.filter (fun x => !cfg.cc.isSpace x)) =
          (dropFinalEmpty (splitBreaks (flow c ++ chars c.tail))).map (fun l => l.filter (fun x => !cfg.cc.isSpace x))) := by
  obtain ⟨d0, d', h0, h1, h2, h3⟩ := run_steps h
  have hs : SameBut d0 d' :=
    (Props.C14_aux_sameBut _ _).trans (keeps_annotateAll _ (tool_keeps env a t hr) _ _ h1)
  obtain ⟨c', hh⟩ := C95_aux { cfg with preserveTags := true } root c root' d0 d' hc h0 hs.lines hs.text hne h2
  exact ⟨d0, d', c', h0, h1, hh⟩

/-- The lines of the first container of a file written. -/
def writtenLines (path : List Str) (r : Except Err (Option (Str × Elem))) : Option (List Str) :=
  match r with
  | .ok (some (_, e)) => (findAll path e).head?.map (fun c => splitBreaks (flow c))
  | _ => none

example : writtenLines [c!"text"] (Tool.header.run exToolEnv { targets := exTargets } exToolCfg (fun _ => .ok true) exToolRoot c!"out" none) =
    some [c!"on some title", c!"by author abc"] := by
  decide +kernel

/-- `exToolRoot` with a language. -/
def exLangRoot : Elem :=
  .mk c!"tei" [] none [.mk c!"text" [(c!"xml:lang", c!"en")] (some c!"on some title") [] none] none

/-- The attributes of the first container. -/
def containerAttrib (path : List Str) (e : Elem) : Option (Dict Str) := (findAll path e).head?.map (·.attrib)

/-- The attributes of the first container of a file written. -/
def writtenAttrib (path : List Str) (r : Except Err (Option (Str × Elem))) : Option (Dict Str) :=
  match r with
  | .ok (some (_, e)) => containerAttrib path e
  | _ => none

/-- The language of the text is lost. -/
theorem C95_attributes_lost :
    containerAttrib [c!"text"] exLangRoot = some [(c!"xml:lang", c!"en")] ∧
    writtenAttrib [c!"text"]
      (Tool.header.run exToolEnv { targets := exTargets } exToolCfg (fun _ => .ok true) exLangRoot c!"out" none) = some [] := by
  decide +kernel

/-- A file in the name space of TEI with two lines. -/
def exNsRoot : Elem :=
  .mk c!"{t}TEI" [] none
    [.mk c!"{t}text" [] (some c!"on some title") [.mk c!"{t}lb" [] none [] (some c!"by abc")] none] none

/-- Tags of the children of the first container. -/
def writtenChildren (path : List Str) (r : Except Err (Option (Str × Elem))) : Option (List Str) :=
  match r with
  | .ok (some (_, e)) => (findAll path e).head?.map (fun c => c.children.map (·.tag))
  | _ => none

/-- In files with a name space (as read by the tools for references and affiliations) line breaks are not
recognised and vanish from the file written: the last word of a line and the first one of the next one are joined. -/
theorem C95_name_space_breaks_lost :
    (findAll [c!"{t}text"] exNsRoot).head?.map (fun c => c.children.map (·.tag)) = some [c!"{t}lb"] ∧
    writtenChildren [c!"{t}text"]
      ((Tool.affiliation false false).run exToolEnv { targets := [] } { exToolCfg with containerPath := [c!"{t}text"] }
        (fun _ => .ok true) exNsRoot c!"out" none) = some [] ∧
    writtenLines [c!"{t}text"]
      ((Tool.affiliation false false).run exToolEnv { targets := [] } { exToolCfg with containerPath := [c!"{t}text"] }
        (fun _ => .ok true) exNsRoot c!"out" none) = some [c!"on some titleby abc"] := by
  decide +kernel

end Verif
