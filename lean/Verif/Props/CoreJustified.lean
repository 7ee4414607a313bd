/-
C104: with the matcher comparing values with lines, labels are only given where a part of a target annotation is found.
-/
import Verif.Lemmas.CoreJustified
import Verif.Props.Tools

namespace Verif
open Spec

namespace Spec

/-- The options of the tools for the matcher comparing values with lines: at least 5 characters on a line which is part
of the value, or 50 if the part is compared alone; a value within a line needs one character, or 100. -/
def lineMatching (threshold : Rat) : CoreCfg where
  seqFilter := { bScore := threshold, minCount := 5, totalThreshold := threshold, ratioMinCount := 50, ratioThreshold := threshold }
  choiceFilter := { bScore := threshold, minCount := 1, totalThreshold := threshold, ratioMinCount := 100, ratioThreshold := threshold }
  maxGap := 5
  useBeginPrefix := false

/-- The document in which the values are looked for: with line numbers labelled, if that is an option. -/
def numbered (env : ToolEnv) (a : ToolArgs) (d z : Doc) : Prop :=
  if a.useLineNumbers then lineNumberAnnotator env a.lineNumbers d = .ok z else z = d

end Spec

/-- **C104** Each new label is that of a target annotation, a part of whose value is found on the line of the token,
at a place overlapping the token, which had no label; each new sub label is that of a sub annotation of this target
annotation, found among tokens where the target annotation is found. -/
theorem C104_found (env : CoreEnv) (cfg : CoreCfg) (targets : List CoreTarget) (d d' : Doc)
    (hn : ∀ t ∈ targets, t.name ≠ []) (hs : ∀ t ∈ targets, ∀ s ∈ t.subs, s.name ≠ [])
    (h : coreAnnotate env cfg targets d = .ok d') (i : Nat) :
    (d'.getTag i = d.getTag i ∧ d'.getSubTag i = d.getSubTag i) ∨
    (truthy (d.getTag i) = false ∧ ∃ t ∈ targets, CoreFoundAt env cfg d t i ∧
      (∃ first, d'.getTag i = newTag cfg.useBeginPrefix first t.name) ∧
      (d'.getSubTag i = d.getSubTag i ∨ ∃ s ∈ t.subs, CoreSubFoundAt env cfg d t s i ∧
        ∃ first, d'.getSubTag i = newTag cfg.useBeginPrefix first s.name)) :=
  (coreAnnotate_justified hn hs h).each i

/-- The tools for headers and for the segmentation of references with this matcher: each label which is not from the
labelling of line numbers is that of a target annotation found with the given threshold. -/
theorem C104_tools (env : ToolEnv) (a : ToolArgs) (tool : Tool) (ht : tool = .header ∨ tool = .referenceSegmenter)
    (hx : a.hasXml = true) (hm : a.simpleMatcher = false)
    (hn : ∀ t ∈ a.coreTargets, t.name ≠ []) (hs : ∀ t ∈ a.coreTargets, ∀ s ∈ t.subs, s.name ≠ [])
    (d d' : Doc) (ha : annotateAll (tool.annotators env a) d = .ok d') :
    ∃ z, numbered env a d z ∧ ∀ i,
      (d'.getTag i = z.getTag i ∧ d'.getSubTag i = z.getSubTag i) ∨
      (truthy (z.getTag i) = false ∧ ∃ t ∈ a.coreTargets, CoreFoundAt env.core (lineMatching a.threshold) z t i ∧
        d'.getTag i = some t.name ∧
        (d'.getSubTag i = z.getSubTag i ∨ ∃ s ∈ t.subs, CoreSubFoundAt env.core (lineMatching a.threshold) z t s i ∧
          d'.getSubTag i = some s.name)) := by
  have key : ∀ z, coreAnnotate env.core (lineMatching a.threshold) a.coreTargets z = .ok d' → ∀ i,
      (d'.getTag i = z.getTag i ∧ d'.getSubTag i = z.getSubTag i) ∨
      (truthy (z.getTag i) = false ∧ ∃ t ∈ a.coreTargets, CoreFoundAt env.core (lineMatching a.threshold) z t i ∧
        d'.getTag i = some t.name ∧
        (d'.getSubTag i = z.getSubTag i ∨ ∃ s ∈ t.subs, CoreSubFoundAt env.core (lineMatching a.threshold) z t s i ∧
          d'.getSubTag i = some s.name)) := by
    intro z hz i
    rcases C104_found env.core (lineMatching a.threshold) a.coreTargets z d' hn hs hz i with h | ⟨h1, t, h2, h3, ⟨_, h4⟩, h5⟩
    · exact .inl h
    · refine .inr ⟨h1, t, h2, h3, h4, ?_⟩
      rcases h5 with h5 | ⟨s, h5, h6, _, h7⟩
      · exact .inl h5
      · exact .inr ⟨s, h5, h6, h7⟩
  have hall : ∃ b, annotateAll (defaultAnnotators env a b) d = .ok d' := by
    rcases ht with rfl | rfl
    · exact ⟨_, ha⟩
    · exact ⟨_, ha⟩
  obtain ⟨b, hall⟩ := hall
  unfold defaultAnnotators at hall
  rw [hx, hm] at hall
  simp only [if_true, Bool.false_eq_true, if_false] at hall
  have hlast : ∀ z, annotateAll [coreAnnotate env.core (complexCfg a) a.coreTargets] z = .ok d' →
      coreAnnotate env.core (lineMatching a.threshold) a.coreTargets z = .ok d' := by
    intro z hz
    unfold annotateAll at hz
    split at hz
    · cases hz
    · next w hw =>
      obtain rfl := Except.ok.inj hz
      exact hw
  unfold numbered
  split at hall
  · next hl =>
    simp only [hl, if_true]
    rw [List.singleton_append] at hall
    unfold annotateAll at hall
    split at hall
    · cases hall
    · next z hz => exact ⟨z, hz, key z (hlast z hall)⟩
  · next hl =>
    simp only [hl]
    rw [List.nil_append] at hall
    exact ⟨d, rfl, key d (hlast d hall)⟩

/-- Five characters of a longer value are enough on a line of their own, four are not; the next line has to match as
well. A short value is found within a line. -/
example : (∃ d', annotateAll (Tool.header.annotators exToolEnv
        { simpleMatcher := false, coreTargets := [{ name := c!"x", value := .one c!"abcde fghijklmnop qrst" }] })
        (docOfWords [[c!"abcde"]]) = .ok d' ∧ docTags d' = [some c!"x"]) ∧
    (∃ d', annotateAll (Tool.header.annotators exToolEnv
        { simpleMatcher := false, coreTargets := [{ name := c!"x", value := .one c!"abcd fghijklmnop qrst" }] })
        (docOfWords [[c!"abcd"]]) = .ok d' ∧ docTags d' = [none]) ∧
    (∃ d', annotateAll (Tool.header.annotators exToolEnv
        { simpleMatcher := false, coreTargets := [{ name := c!"x", value := .one c!"abcde fghijklmnop qrst" }] })
        (docOfWords [[c!"fghijklmnop"], [c!"qrst"]]) = .ok d' ∧ docTags d' = [some c!"x", some c!"x"]) ∧
    (∃ d', annotateAll (Tool.header.annotators exToolEnv
        { simpleMatcher := false, coreTargets := [{ name := c!"x", value := .one c!"abcde fghijklmnop qrst" }] })
        (docOfWords [[c!"fghijklmnop"], [c!"xy"], [c!"qrst"]]) = .ok d' ∧ docTags d' = [none, none, none]) ∧
    (∃ d', annotateAll (Tool.referenceSegmenter.annotators exToolEnv
        { simpleMatcher := false, coreTargets := [{ name := c!"x", value := .one c!"a", subs := [{ name := c!"y", value := .one c!"a" }] }] })
        (docOfWords [[c!"xy", c!"a", c!"fg"]]) = .ok d' ∧ docTags d' = [none, some c!"x", none] ∧
        d'.nonSpaceTokens.map (fun i => d'.getSubTag i) = [none, some c!"y", none]) :=
  ⟨exists_of_okAnd (by decide +kernel), exists_of_okAnd (by decide +kernel), exists_of_okAnd (by decide +kernel),
   exists_of_okAnd (by decide +kernel), exists_of_okAnd (by decide +kernel)⟩

/-- Nothing is found with a matcher which finds no characters. -/
theorem C104_characters (env : CoreEnv) (cfg : CoreCfg) (text : Nat → Str) (Line : List Nat → Prop) (value : Str)
    (hw : ∀ a b, ∀ x ∈ blocksOf env a b, x.size = 0) (line : List Nat) (r : Nat × Nat) :
    ¬ LineFound env cfg text Line value line r := by
  have hb : ∀ {v start e cur next on after}, ¬ LineInValue env cfg.seqFilter v start e cur next on after := by
    intro v start e cur next on after h
    have h1 := bSplit_first_none (cc := env.cc) (r := comparison env v (withFollowing cur next)) (n := cur.length)
      (fun x hx => .inl (hw _ _ x hx))
    rw [h.parts, h.matched] at h1
    cases h1
  have ha : ∀ {v start e cur next on after}, ¬ ValueInLine env cfg.choiceFilter v start e cur next on after := by
    intro v start e cur next on after h
    have h1 := aSplit_first_none (cc := env.cc) (r := comparison env (withFollowing cur next) (v.drop start)) (n := cur.length)
      (fun x hx => .inl (hw _ _ x hx))
    rw [h.parts, h.matched] at h1
    cases h1
  intro h
  rcases h with ⟨h⟩ | ⟨_, _, _, _, h⟩ | ⟨_, _, _, _, h⟩
  · rcases h with ⟨_, _, h⟩ | ⟨_, _, h, _⟩ | ⟨_, _, _, h⟩ | ⟨_, _, _, h, _⟩
    all_goals exact hb h
  · exact ha h
  · exact ha h

example : (∀ a b, ∀ x ∈ blocksOf { coreExampleEnv with words := fun _ _ => [], align := fun _ _ => [] } a b, x.size = 0) ∧
    LineFound coreExampleEnv (lineMatching (4/5)) (fun _ => c!"some") (fun l => l = [0]) c!"some" [0] (0, 4) := by
  constructor
  · intro a b x hx
    unfold blocksOf at hx
    split at hx <;> cases hx
  · have h : LineInValue coreExampleEnv (lineMatching (4/5)).seqFilter c!"some" 0 false (joined (fun _ => c!"some") [0]) none
        ((comparison coreExampleEnv c!"some" c!"some").bSplitAt asciiClass 4).1
        ((comparison coreExampleEnv c!"some" c!"some").bSplitAt asciiClass 4).2 :=
      ⟨by decide, rfl, by decide +kernel, .inl (.inr ⟨by decide +kernel, .inr (.inr (by decide +kernel))⟩)⟩
    have e : ((comparison coreExampleEnv c!"some" c!"some").bSplitAt asciiClass 4).1.bRange = (0, 4) := by decide +kernel
    rw [← e]
    exact .part (.first (next := none) rfl (fun _ h => by cases h) h)

end Verif
