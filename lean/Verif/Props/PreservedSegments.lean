/-
Fields to be preserved and segmentation: C97.
-/
import Verif.Props.ToolLabels
import Verif.Props.SegmentsBack
import Verif.Props.WrittenText

namespace Verif

open Spec

/-- The matching of the tools with the default annotators keeps the value of a label. -/
theorem hasValue_default {env : ToolEnv} {a : ToolArgs} {s : Bool} {b d : Doc} (hu : a.useLineNumbers = false)
    (hn : ∀ x ∈ a.targets, x.name ≠ [] ∧ tagValue (some x.name) = some x.name)
    (hc : ∀ x ∈ a.coreTargets, x.name ≠ [] ∧ ∀ s ∈ x.subs, s.name ≠ []) {f : Str} (hfne : f ≠ []) {i : Nat}
    (hnd : b.nonSpaceTokens.Nodup) (hprop : ∀ j, ProperTag (b.getTag j)) (hb : HasValue f i b)
    (h : annotateAll (defaultAnnotators env a s) b = .ok d) : HasValue f i d := by
  have hone : ∀ (g : Doc → Except Err Doc) (x y : Doc) rest, annotateAll (g :: rest) x = .ok y →
      ∃ z, g x = .ok z ∧ annotateAll rest z = .ok y := by
    intro g x y rest h
    unfold annotateAll at h
    split at h
    · cases h
    · next z hz => exact ⟨z, hz, h⟩
  unfold defaultAnnotators at h
  rw [hu] at h
  simp only [Bool.false_eq_true, if_false, List.nil_append] at h
  split at h
  · obtain ⟨z, hz, h⟩ := hone _ _ _ _ h
    obtain rfl := Except.ok.inj h
    split at hz
    · exact hasValue_simple _ _ _ hnd hprop hn hz hb
    · rcases (C83_safe _ _ _ _ _ (fun x hx => (hc x hx).1) (fun x hx => (hc x hx).2) hz).2 i with h | h
      · unfold HasValue; rw [h.1]; exact hb
      · exfalso
        have e := h.1
        unfold HasValue at hb
        cases hg : b.getTag i with
        | none => rw [hg] at hb; cases hb
        | some s =>
          cases s with
          | nil => rw [hg] at hb; exact hfne (Option.some.inj hb).symm
          | cons c s => rw [hg] at e; cases e
  · obtain rfl := Except.ok.inj h; exact hb

/-- **C97**, for segmentation: a token of a field that is always to be preserved keeps the value of its label, or its whole line gets
one label of the segmentation, or (with labels preserved) its whole line is left without label. Matching never changes
it: it is labelled with the field until lines are labelled as a whole, and lines are given up only if the label that most
of their tokens have is mapped to a segment, or by page numbers, page headers and references. -/
theorem C97_segmentation (env : ToolEnv) (henv : env.seg.isDigit '\n' = false) (a : ToolArgs) (scfg : SegConfig) (np : List Str) (dc : DocCfg)
    (root : Elem) (d0 d' : Doc) (hl : loadDoc dc root = .ok d0)
    (ha : annotateAll ((Tool.segmentation scfg np).annotators env a)
      (beforeAnnotator ((Tool.segmentation scfg np).annotateCfg a) d0) = .ok d')
    (hu : a.useLineNumbers = false)
    (hn : ∀ x ∈ a.targets, x.name ≠ [] ∧ tagValue (some x.name) = some x.name)
    (hc : ∀ x ∈ a.coreTargets, x.name ≠ [] ∧ ∀ s ∈ x.subs, s.name ≠ [])
    (he : [] ∉ a.alwaysPreserve) (f : Str) (hf : f ∈ a.alwaysPreserve)
    (i : Nat) (hi : i ∈ d0.allTokens) (hv : tagValue (d0.getPreservedTag i) = some f) :
    ∃ d1, SameBut d0 d1 ∧ d' = segment env.seg scfg (!a.noPreserveTags) d1 ∧ tagValue (d1.getTag i) = some f ∧
      ∃ l ∈ d0.lines, i ∈ l.tokens ∧
        ((∃ s, IsLabel scfg s ∧ ∀ j ∈ l.tokens, d'.getTag j = some s) ∨
          (a.noPreserveTags = false ∧ ∀ j ∈ l.tokens, truthy (d'.getTag j) = false) ∨
          (KeepsTags scfg (l.nonSpace.map (fun j => d1.getTagValue j)) ∧ ∀ j ∈ l.tokens, d'.getTag j = d1.getTag j)) := by
  have hfne : f ≠ [] := fun e => he (e ▸ hf)
  obtain ⟨hb0, hprop, hnd⟩ := before_kept a (.segmentation scfg np) dc root d0 hl rfl he f hf i hi hv
  have hs0 := Props.C14_aux_sameBut ((Tool.segmentation scfg np).annotateCfg a) d0
  generalize beforeAnnotator ((Tool.segmentation scfg np).annotateCfg a) d0 = b at *
  have ha : annotateAll (defaultAnnotators env a false ++ [total (segment env.seg scfg (!a.noPreserveTags))]) b = .ok d' := ha
  rw [annotateAll_append] at ha
  split at ha
  · cases ha
  · next d1 h1 =>
    have hd' : d' = segment env.seg scfg (!a.noPreserveTags) d1 := (Except.ok.inj ha).symm
    have hs1 : SameBut d0 d1 := hs0.trans (keeps_annotateAll _ (keeps_default env a false) _ _ h1)
    have hv1 : tagValue (d1.getTag i) = some f := by
      rw [← stripTagPrefix_eq_tagValue]
      exact hasValue_default hu hn hc hfne hnd hprop hb0 h1
    refine ⟨d1, hs1, hd', hv1, ?_⟩
    obtain ⟨_, _, kept, t1, t2, t3, t4, t5, t6, _, _, _, h⟩ := C29_labels env.seg henv scfg (!a.noPreserveTags) dc root d0 d1 hl hs1
    have hi1 : i ∈ d1.allTokens := by rw [hs1.allTokens]; exact hi
    rw [allTokens_segLines] at hi1
    obtain ⟨l, hm, hil⟩ := List.mem_flatMap.1 hi1
    refine ⟨l.line, ?_, hil, ?_⟩
    · rw [← hs1.lines]
      exact List.mem_of_getElem? (mem_segLines hm).1
    · subst hd'
      rcases h l hm with ⟨⟨ha, hb⟩, hlab⟩ | ⟨hk, _, hattr⟩
      · cases hfl : finalLabel (!a.noPreserveTags) (t6 l.index) with
        | some s => exact .inl ⟨s, hlab s hfl, ha s hfl⟩
        | none =>
          refine .inr (.inl ⟨?_, hb hfl⟩)
          cases hp : a.noPreserveTags with
          | false => rfl
          | true =>
            rw [hp] at hfl
            unfold finalLabel at hfl
            split at hfl
            · next hor =>
              rcases hor with e | e
              · cases e
              · rw [hfl] at e; cases e
            · cases hfl
      · exact .inr (.inr ⟨hk, fun j hj => hattr j hj _⟩)

/-- A figure that is always preserved on a line of its own keeps its label; on the line of the title, it gets the label of
the line. -/
example : exToolEnv.seg.isDigit '\n' = false ∧
    (∃ d', loadAndAnnotate exToolEnv { targets := exTargets, alwaysPreserve := [c!"figure"] }
        (.segmentation { mapping := [(c!"front", [c!"title"])] } []) exFigureCfg
        (.mk c!"tei" [] none [.mk c!"text" [] (some c!"some title")
          [.mk c!"lb" [] none [] none, .mk c!"figure" [] (some c!"one") [] none] none] none) = .ok d' ∧
      d'.allTokens.map (fun i => d'.getTag i) = [some c!"front", some c!"front", some c!"front", some c!"b-figure"]) :=
  ⟨by decide +kernel, exists_of_okAnd (by decide +kernel)⟩

end Verif
