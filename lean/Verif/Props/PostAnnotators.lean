/-
C14 (preserved fields), C15 (where a document is saved), C23 (expanding to untagged tokens),
C24 (replacing tags), C25 (group tags), C34 (sub tag only annotator).
-/
import Verif.Lemmas.PostAnnotators
import Verif.Lemmas.Ok

namespace Verif.Props
open Spec

/-- A line of words with main tags, preserved tags and sub tags, for examples. -/
def exWord (text : Str) (attrib : Dict Str) : Tok := ⟨text, false, attrib, some c!" "⟩

/-- The tags of the tokens of a document. -/
def tagsOf (d : Doc) : List (Option Str) := d.nonSpaceTokens.map d.getTag

/-! ## C14 Preserved fields survive annotation, others do not -/

theorem C14_aux_main (cfg : AnnotateCfg) (full : Option Str) :
    (if cfg.preserveTags || !cfg.preserveFields.isEmpty then
      preserveTagFn cfg.preserveFields (cfg.fields.filter (fun f => !cfg.preserveFields.contains f))
    else fun _ => none) full = none ∨
    ((if cfg.preserveTags || !cfg.preserveFields.isEmpty then
      preserveTagFn cfg.preserveFields (cfg.fields.filter (fun f => !cfg.preserveFields.contains f))
    else fun _ => none) full = full ∧ keepMain cfg (stripTagPrefix full)) := by
  unfold keepMain
  by_cases hp : cfg.preserveFields = []
  · simp only [hp, if_true]
    by_cases ht : cfg.preserveTags = true
    · simp only [ht, Bool.true_or, if_true]
      unfold preserveTagFn
      by_cases hx : (stripTagPrefix full).any (fun t => (cfg.fields.filter (fun f => !([] : List Str).contains f)).contains t) = true
      · left; simp only [hx, if_true]
      · right
        simp only [hx]
        refine ⟨by simp, trivial, ?_⟩
        intro f hf he
        apply hx
        rw [he]
        simp [hf]
    · left; simp [ht]
  · have hne : cfg.preserveFields.isEmpty = false := by
      cases h : cfg.preserveFields with
      | nil => exact absurd h hp
      | cons _ _ => rfl
    simp only [hp, if_false, hne, Bool.not_false, Bool.or_true, if_true]
    unfold preserveTagFn
    simp only [hne, Bool.not_false, Bool.true_and]
    split
    · left; rfl
    · split
      · left; rfl
      · next h =>
        right
        refine ⟨rfl, ?_⟩
        cases hs : stripTagPrefix full with
        | none => rw [hs] at h; simp at h
        | some v =>
          rw [hs] at h
          exact ⟨v, by simpa using h, rfl⟩

theorem C14_aux_keep (cfg : AnnotateCfg) (full : Option Str) (h : keepMain cfg (stripTagPrefix full)) :
    (if cfg.preserveTags || !cfg.preserveFields.isEmpty then
      preserveTagFn cfg.preserveFields (cfg.fields.filter (fun f => !cfg.preserveFields.contains f))
    else fun _ => none) full = full := by
  unfold keepMain at h
  by_cases hp : cfg.preserveFields = []
  · simp only [hp, if_true] at h
    simp only [hp, h.1, Bool.true_or, if_true]
    unfold preserveTagFn
    cases hs : stripTagPrefix full with
    | none => simp
    | some v =>
      have : v ∉ cfg.fields := fun hv => h.2 v hv hs
      simp [this]
  · simp only [hp, if_false] at h
    obtain ⟨v, hv, hs⟩ := h
    have hne : cfg.preserveFields.isEmpty = false := by
      cases h : cfg.preserveFields with
      | nil => exact absurd h hp
      | cons _ _ => rfl
    simp only [hne, Bool.not_false, Bool.or_true, if_true]
    unfold preserveTagFn
    simp [hs, hv]

theorem C14_aux_sub (cfg : AnnotateCfg) (d : Doc) :
    ∃ fn : Option Str → Option Str, (∀ t, fn t = t ∨ fn t = none) ∧
      (∀ t, keepSub cfg (stripTagPrefix t) → fn t = t) ∧
      (∀ t, ¬ keepSub cfg (stripTagPrefix t) → fn t = none) ∧
      (∀ j, (if !cfg.preserveSubTags then mapTokenTags (fun _ => none) (some subLevel) d
        else if !cfg.noPreserveSubFields.isEmpty then
          mapTokenTags (preserveTagFn [] cfg.noPreserveSubFields) (some subLevel) d
        else d).getAttr j = (mapTokenTags fn (some subLevel) d).getAttr j) := by
  unfold keepSub
  by_cases hs : cfg.preserveSubTags = true
  · have hfn : ∀ t, preserveTagFn [] cfg.noPreserveSubFields t =
        if (stripTagPrefix t).any (fun t => cfg.noPreserveSubFields.contains t) = true then none else t := by
      intro t
      unfold preserveTagFn
      simp
    refine ⟨preserveTagFn [] cfg.noPreserveSubFields, preserveTagFn_cases _ _, ?_, ?_, ?_⟩
    · intro t h
      rw [hfn, if_neg]
      intro hx
      cases hv : stripTagPrefix t with
      | none => rw [hv] at hx; cases hx
      | some v =>
        rw [hv] at hx
        exact h.2 v (by simpa using hx) hv
    · intro t h
      rw [hfn, if_pos]
      cases hv : stripTagPrefix t with
      | none => rw [hv] at h; simp [hs] at h
      | some v =>
        rw [hv] at h
        simp only [hs, true_and] at h
        simpa using h
    · intro j
      simp only [hs, Bool.not_true, Bool.false_eq_true, if_false]
      by_cases he : cfg.noPreserveSubFields.isEmpty = true
      · simp only [he, Bool.not_true, Bool.false_eq_true, if_false]
        rw [getAttr_mapTokenTags (preserveTagFn_cases _ _)]
        split
        · funext m
          unfold mapAttrs
          rw [hfn, if_neg]
          have : cfg.noPreserveSubFields = [] := List.isEmpty_iff.1 he
          rw [if_neg]
          · simp
          · rw [this]
            cases stripTagPrefix (tagOr (some subLevel) (d.getAttr j)) <;> simp
        · rfl
      · simp [he]
  · refine ⟨fun _ => none, fun _ => .inr rfl, fun t h => absurd h.1 hs, fun _ _ => rfl, ?_⟩
    intro j
    simp [hs]

theorem C14_aux_sameBut (cfg : AnnotateCfg) (d : Doc) : SameBut d (beforeAnnotator cfg d) := by
  have hm : ∀ fn l d, SameBut d (mapTokenTags fn l d) := by
    intro fn l d
    refine sameBut_foldl _ ?_ _ _
    intro d i
    unfold mapTokenTagsStep
    simp only
    split
    · exact (sameBut_setAttr _ _ _ _).trans (sameBut_setAttr _ _ _ _)
    · exact .refl d
  have ha : ∀ f d, SameBut d (applyPreservedFields f d) := by
    intro f d
    refine sameBut_foldl _ ?_ _ _
    intro d i
    unfold applyPreservedStep
    simp only
    split
    · exact sameBut_setTag _ _ _ _ _
    · exact .refl d
  unfold beforeAnnotator prepareDoc
  generalize hb : (if cfg.preserveFields.isEmpty then d else applyPreservedFields cfg.preserveFields d) = b
  have h1 : SameBut d b := by
    rw [← hb]
    split
    · exact .refl d
    · exact ha _ _
  refine h1.trans ?_
  simp only
  split
  · exact (hm _ _ _).trans (hm _ _ _)
  · split
    · exact (hm _ _ _).trans (hm _ _ _)
    · exact hm _ _ _

/-- The state of each token of the document just before the annotators run: the text is unchanged,
original tags which are to be kept are still there, and all others are gone. Tags of preserved
fields are set as current tags, so that annotators see them as already tagged. -/
theorem C14_before_annotation (cfg : AnnotateCfg) (d : Doc) (i : Nat) (hi : i ∈ d.allTokens) :
    SameBut d (beforeAnnotator cfg d) ∧
    (keepMain cfg (stripTagPrefix (d.getTagOrPreserved i)) →
      (beforeAnnotator cfg d).getTagOrPreserved i = d.getTagOrPreserved i) ∧
    (¬ keepMain cfg (stripTagPrefix (d.getTagOrPreserved i)) →
      (beforeAnnotator cfg d).getTagOrPreserved i = none) ∧
    (∀ f ∈ cfg.preserveFields, stripTagPrefix (d.getTagOrPreserved i) = some f →
      (beforeAnnotator cfg d).getTag i = d.getTagOrPreserved i) ∧
    (keepSub cfg (stripTagPrefix (d.getTagOrPreserved i (some subLevel))) →
      (beforeAnnotator cfg d).getTagOrPreserved i (some subLevel) = d.getTagOrPreserved i (some subLevel)) ∧
    (¬ keepSub cfg (stripTagPrefix (d.getTagOrPreserved i (some subLevel))) →
      (beforeAnnotator cfg d).getTagOrPreserved i (some subLevel) = none) := by
  -- names of the attributes
  have n1 : scopedAttribName tagAttribName none (some subLevel) ≠ scopedAttribName tagAttribName none none := by decide
  have n2 : scopedAttribName preservedTagAttribName none (some subLevel) ≠
      scopedAttribName preservedTagAttribName none none := by decide
  have n3 : scopedAttribName preservedTagAttribName none (some subLevel) ≠
      scopedAttribName tagAttribName none none := by decide
  have n4 : scopedAttribName preservedTagAttribName none none ≠
      scopedAttribName tagAttribName none (some subLevel) := by decide
  -- the main tag function
  let fn : Option Str → Option Str := if cfg.preserveTags || !cfg.preserveFields.isEmpty then
      preserveTagFn cfg.preserveFields (cfg.fields.filter (fun f => !cfg.preserveFields.contains f))
    else fun _ => none
  have hfn : ∀ t, fn t = t ∨ fn t = none := by
    intro t
    rcases C14_aux_main cfg t with h | h
    · exact .inr h
    · exact .inl h.1
  -- the document after setting preserved fields
  let d1 := if cfg.preserveFields.isEmpty then d else applyPreservedFields cfg.preserveFields d
  have hd1 : SameBut d d1 := by
    show SameBut d (if _ then _ else _)
    split
    · exact .refl d
    · refine sameBut_foldl _ ?_ _ _
      intro d i
      unfold applyPreservedStep
      simp only
      split
      · exact sameBut_setTag _ _ _ _ _
      · exact .refl d
  have h1 : ∀ l, tagOr l (d1.getAttr i) = d.getTagOrPreserved i l := by
    intro l
    show tagOr l ((if _ then _ else _ : Doc).getAttr i) = _
    split
    · rfl
    · rw [getAttr_applyPreservedFields, if_pos hi, tagOr_applyAttrs]; rfl
  let d2 := mapTokenTags fn none d1
  have hi1 : i ∈ d1.allTokens := by rw [hd1.allTokens]; exact hi
  have h2 : d2.getAttr i = mapAttrs fn none (d1.getAttr i) := by
    show (mapTokenTags fn none d1).getAttr i = _
    rw [getAttr_mapTokenTags hfn, if_pos hi1]
  have hi2 : i ∈ d2.allTokens := by
    have : SameBut d1 d2 := by
      refine sameBut_foldl _ ?_ _ _
      intro d i
      unfold mapTokenTagsStep
      simp only
      split
      · exact (sameBut_setAttr _ _ _ _).trans (sameBut_setAttr _ _ _ _)
      · exact .refl d
    rw [this.allTokens]; exact hi1
  obtain ⟨sfn, s1, s2, s3, s4⟩ := C14_aux_sub cfg d2
  have h3 : (beforeAnnotator cfg d).getAttr i = mapAttrs sfn (some subLevel) (d2.getAttr i) := by
    have := s4 i
    rw [getAttr_mapTokenTags s1, if_pos hi2] at this
    exact this
  have hmain : ∀ m, m = scopedAttribName tagAttribName none none ∨
      m = scopedAttribName preservedTagAttribName none none →
      (beforeAnnotator cfg d).getAttr i m = d2.getAttr i m := by
    intro m hm
    rw [h3]
    unfold mapAttrs
    split
    · rcases hm with rfl | rfl
      · rw [if_neg n1.symm, if_neg n3.symm]
      · rw [if_neg n4, if_neg n2.symm]
    · rfl
  have hsub : ∀ m, m = scopedAttribName tagAttribName none (some subLevel) ∨
      m = scopedAttribName preservedTagAttribName none (some subLevel) →
      d2.getAttr i m = d1.getAttr i m := by
    intro m hm
    rw [h2]
    unfold mapAttrs
    split
    · rcases hm with rfl | rfl
      · rw [if_neg n1, if_neg n4.symm]
      · rw [if_neg n3, if_neg n2]
    · rfl
  have e1 : (beforeAnnotator cfg d).getTagOrPreserved i = fn (d.getTagOrPreserved i) := by
    have : (beforeAnnotator cfg d).getTagOrPreserved i = tagOr none (d2.getAttr i) := by
      unfold Doc.getTagOrPreserved Doc.getTag Doc.getPreservedTag tagOr
      rw [hmain _ (.inl rfl), hmain _ (.inr rfl)]
    rw [this, h2, tagOr_mapAttrs hfn, h1]
  have e2 : (beforeAnnotator cfg d).getTagOrPreserved i (some subLevel) =
      sfn (d.getTagOrPreserved i (some subLevel)) := by
    have a : (beforeAnnotator cfg d).getTagOrPreserved i (some subLevel) =
        tagOr (some subLevel) (mapAttrs sfn (some subLevel) (d2.getAttr i)) := by
      rw [← h3]; rfl
    have b : tagOr (some subLevel) (d2.getAttr i) = tagOr (some subLevel) (d1.getAttr i) := by
      unfold tagOr; rw [hsub _ (.inl rfl), hsub _ (.inr rfl)]
    rw [a, tagOr_mapAttrs s1, b, h1]
  refine ⟨C14_aux_sameBut cfg d, ?_, ?_, ?_, ?_, ?_⟩
  · intro h
    rw [e1]
    exact C14_aux_keep cfg _ h
  · intro h
    rw [e1]
    exact (C14_aux_main cfg _).resolve_right (fun x => h x.2)
  · intro f hf hv
    have hne : cfg.preserveFields ≠ [] := by intro h; rw [h] at hf; cases hf
    have hk : keepMain cfg (stripTagPrefix (d.getTagOrPreserved i)) := by
      unfold keepMain; rw [if_neg hne]; exact ⟨f, hf, hv⟩
    have hfx : fn (tagOr none (d1.getAttr i)) = tagOr none (d1.getAttr i) := by
      rw [h1]; exact C14_aux_keep cfg _ hk
    have a : (beforeAnnotator cfg d).getTag i = d1.getAttr i (scopedAttribName tagAttribName none none) := by
      show (beforeAnnotator cfg d).getAttr i _ = _
      rw [hmain _ (.inl rfl), h2]
      unfold mapAttrs
      rw [if_neg (by simp [hfx])]
    rw [a]
    show (if _ then _ else _ : Doc).getAttr i _ = _
    rw [if_neg (by rw [List.isEmpty_iff]; exact hne), getAttr_applyPreservedFields, if_pos hi, tagName_none]
    unfold applyAttrs
    rw [if_pos]
    · rfl
    · refine ⟨?_, rfl⟩
      show (stripTagPrefix (d.getTagOrPreserved i)).any _ = true
      rw [hv]; simpa using hf
  · intro h; rw [e2]; exact s2 _ h
  · intro h; rw [e2]; exact s3 _ h

/-- With any annotators that do not change tokens which are already tagged, a token whose original
tag belongs to a preserved field ends up with that tag. -/
theorem C14_preserved_fields_survive (cfg : AnnotateCfg) (annotate : Doc → Except Err Doc) (d d' : Doc)
    (hkeep : ∀ d d' i, annotate d = .ok d' → truthy (d.getTag i) = true → d'.getTag i = d.getTag i)
    (ha : annotate (beforeAnnotator cfg d) = .ok d') (i : Nat) (hi : i ∈ d.allTokens)
    (f : Str) (hf : f ∈ cfg.preserveFields) (hne : f ≠ [])
    (hv : stripTagPrefix (d.getTagOrPreserved i) = some f) :
    d'.getTag i = d.getTagOrPreserved i := by
  have h := (C14_before_annotation cfg d i hi).2.2.2.1 f hf hv
  rw [← h]
  apply hkeep _ _ _ ha
  rw [h]
  cases hg : d.getTagOrPreserved i with
  | none => rw [hg] at hv; cases hv
  | some t =>
    cases t with
    | nil => rw [hg] at hv; exact absurd (Option.some.inj hv).symm hne
    | cons => rfl

/-- Preserved tags `a` and `x`, a sub tag, annotating `x` and preserving `p`. -/
def exPreserve : Doc := Doc.ofLines [[exWord c!"One" [(c!"preserved_tag", c!"b-p"), (c!"level2_preserved_tag", c!"b-s")],
  exWord c!"Two" [(c!"preserved_tag", c!"b-x")], exWord c!"Three" [(c!"preserved_tag", c!"b-a")]]]

def exPreserveCfg : AnnotateCfg := ⟨true, [c!"x"], [c!"p"], false, []⟩

example : (exPreserve.nonSpaceTokens.map (beforeAnnotator exPreserveCfg exPreserve).getTagOrPreserved =
      [some c!"b-p", none, none]) ∧
    (exPreserve.nonSpaceTokens.map (beforeAnnotator exPreserveCfg exPreserve).getTag =
      [some c!"b-p", none, none]) ∧
    (exPreserve.nonSpaceTokens.map (fun i => exPreserve.getTagOrPreserved i (some subLevel)) =
      [some c!"b-s", none, none]) ∧
    (exPreserve.nonSpaceTokens.map
      (fun i => (beforeAnnotator exPreserveCfg exPreserve).getTagOrPreserved i (some subLevel)) =
      [none, none, none]) := by decide +kernel

/-- Naming fields to always preserve removes the tags of all other fields, although tags are to
be preserved in general and the field (`a`) is not to be annotated: without preserved fields
it is kept. -/
theorem C14_preserving_a_field_drops_others :
    (beforeAnnotator exPreserveCfg exPreserve).getTagOrPreserved 2 = none ∧
    (beforeAnnotator { exPreserveCfg with preserveFields := [] } exPreserve).getTagOrPreserved 2 =
      some c!"b-a" := by decide +kernel

/-! ## C15 Where a document is saved -/

/-- A run without an error: the document is checked after all changes. It is written once, to
the target, if and only if the checks pass; if they do not it is written to the failed target if
there is one, and not at all if there is none. What is written is the checked document. -/
theorem C15_saved {D X : Type} (env : SaveEnv D X) (target : Str) (failed : Option Str)
    (r : Option (Str × X)) (h : annotateDocument env target failed = .ok r) :
    ∃ d0 d ok, env.load = .ok d0 ∧ env.annotate (env.prepare d0) = .ok d ∧ env.passes d = .ok ok ∧
      (ok = true → ∃ x, env.serialise d = .ok x ∧ r = some (target, x)) ∧
      (ok = false → truthy failed = true → ∃ f x, failed = some f ∧ env.serialise d = .ok x ∧ r = some (f, x)) ∧
      (ok = false → truthy failed = false → r = none) := by
  unfold annotateDocument at h
  split at h
  · cases h
  · next d0 h0 =>
    split at h
    · cases h
    · next d h1 =>
      refine ⟨d0, d, ?_⟩
      split at h
      · cases h
      · next h2 =>
        refine ⟨true, h0, h1, h2, ?_, by simp, by simp⟩
        intro _
        split at h
        · cases h
        · next x hx => exact ⟨x, hx, (Except.ok.inj h).symm⟩
      · next h2 =>
        refine ⟨false, h0, h1, h2, by simp, ?_, ?_⟩
        · intro _ ht
          obtain ⟨s, rfl, hs⟩ := truthy_iff.1 ht
          cases s with
          | nil => exact absurd rfl hs
          | cons c s =>
            simp only at h
            split at h
            · cases h
            · next x hx => exact ⟨_, x, rfl, hx, (Except.ok.inj h).symm⟩
        · intro _ ht
          split at h
          · simp at ht
          · exact (Except.ok.inj h).symm

/-- A document that can be loaded, annotated, checked and written is processed without error. -/
theorem C15_no_error {D X : Type} (env : SaveEnv D X) (target : Str) (failed : Option Str) (d0 d : D) (ok : Bool)
    (x : X) (h0 : env.load = .ok d0) (h1 : env.annotate (env.prepare d0) = .ok d) (h2 : env.passes d = .ok ok)
    (h3 : env.serialise d = .ok x) :
    annotateDocument env target failed = .ok (if ok then some (target, x) else
      if truthy failed then failed.map (fun f => (f, x)) else none) := by
  unfold annotateDocument
  simp only [h0, h1, h2]
  cases ok with
  | true => simp [h3]
  | false =>
    rcases failed with _ | _ | ⟨c, f⟩ <;> simp [h3]

/-- A document saved to the failed target. -/
example : annotateDocument (D := Nat) (X := Nat) ⟨.ok 1, (· + 1), fun d => .ok (d * 10), fun d => .ok (d < 5), .ok⟩
    c!"out" (some c!"failed") = .ok (some (c!"failed", 20)) := by decide

/-! ## C23 Expanding to untagged tokens -/

/-- A new tag of a token with a value only changes the prefix of its tag. -/
theorem C23_aux_value (d d' : Doc) (i : Nat) (v : Str) (h : Updated d d' c!"tag" i (some (c!"i-" ++ v))) (hv : v ≠ []) :
    valueOf d' none i = some v := by
  have h1 := h c!"tag"
  rw [if_pos ⟨rfl, rfl⟩] at h1
  have e : d'.getTag i = some (c!"i-" ++ v) := by
    unfold Doc.getTag; rw [← h1]; rfl
  unfold valueOf Doc.getTagOrPreservedValue Doc.getTagOrPreserved
  rw [e]
  show (if truthy (stripTagPrefix (some (iPrefix ++ v))) = true then _ else _) = _
  have e2 : pyOr (some (c!"i-" ++ v)) (d'.getPreservedTag i) = some (iPrefix ++ v) := rfl
  rw [e2, stripTagPrefix_i, if_pos (truthy_some.2 hv)]

/-- Expanding to preceding untagged tokens changes the tags as specified, and nothing else;
no tag value of a tagged token changes. -/
theorem C23_previous (enabled : List Str) (d : Doc) (hnd : d.nonSpaceTokens.Nodup) :
    SameBut d (expandPrevious enabled d) ∧
    (∀ j, j ∉ d.nonSpaceTokens → (expandPrevious enabled d).getAttr j = d.getAttr j) ∧
    ∀ pre j post, d.nonSpaceTokens = pre ++ j :: post →
      (∀ m, (expandPrevious enabled d).getAttr j m =
        match expandPreviousTag (valueOf d none) enabled pre j post with
        | some tag => if m = c!"tag" then some tag else d.getAttr j m
        | none => d.getAttr j m) ∧
      ∀ v, valueOf d none j = some v → valueOf (expandPrevious enabled d) none j = some v := by
  have h := expandPrevious_loop enabled d d.nonSpaceTokens [] d (by simpa using hnd) (fun _ _ => rfl) (by simp)
  refine ⟨h.1, fun j hj => h.2.1 j (by simpa using hj), ?_⟩
  intro pre j post hs
  have hu := h.2.2 pre j post (by simpa using hs)
  change Updated d (expandPrevious enabled d) c!"tag" j _ at hu
  constructor
  · intro m
    rw [hu m]
    cases expandPreviousTag (valueOf d none) enabled pre j post <;> simp
  · intro v hv
    unfold expandPreviousTag at hu
    rw [hv] at hu
    simp only at hu
    by_cases hc : v ∈ enabled ∧ pre.getLast?.any (fun p => (valueOf d none p).isNone) = true
    · rw [if_pos hc] at hu
      exact C23_aux_value d _ j v hu (valueOf_ne_nil hv)
    · rw [if_neg hc] at hu
      rw [← hv]
      apply valueOf_congr
      funext m
      rw [hu m]
      simp

/-- Expanding to following untagged tokens changes the tags as specified, and nothing else: an
untagged token behind a token with an enabled tag continues that tag. -/
theorem C23_following (enabled : List Str) (d : Doc) (hnd : d.nonSpaceTokens.Nodup) :
    SameBut d (expandFollowing enabled d) ∧
    (∀ j, j ∉ d.nonSpaceTokens → (expandFollowing enabled d).getAttr j = d.getAttr j) ∧
    ∀ pre j post, d.nonSpaceTokens = pre ++ j :: post →
      (∀ m, (expandFollowing enabled d).getAttr j m =
        match expandFollowingTag (valueOf d none) enabled pre j with
        | some tag => if m = c!"tag" then some tag else d.getAttr j m
        | none => d.getAttr j m) ∧
      ∀ v, valueOf d none j = some v → valueOf (expandFollowing enabled d) none j = some v := by
  have h := expandFollowing_effect enabled d hnd
  refine ⟨h.1, h.2.1, ?_⟩
  intro pre j post hs
  have hu := h.2.2 pre j post hs
  constructor
  · intro m
    rw [hu m]
    cases expandFollowingTag (valueOf d none) enabled pre j <;> simp
  · intro v hv
    rw [← hv]
    apply valueOf_congr
    funext m
    rw [hu m]
    unfold expandFollowingTag
    rw [hv]
    simp

/-- The hypothesis holds for loaded documents, also after changes of their tags. -/
theorem C23_tokens_distinct (cfg : DocCfg) (root : Elem) (d d' : Doc) (hl : loadDoc cfg root = .ok d)
    (hs : SameBut d d') : d'.nonSpaceTokens.Nodup := (nodup_loadDoc hl hs).2

/-- `-, x, -, -, y`. -/
def exExpand : Doc := Doc.ofLines [[exWord c!"a" [], exWord c!"b" [(c!"preserved_tag", c!"b-x")]],
  [exWord c!"c" [], exWord c!"d" [], exWord c!"e" [(c!"tag", c!"b-y")]]]

example : tagsOf (expandPrevious [c!"y"] exExpand) =
      [none, none, some c!"b-y", some c!"i-y", some c!"i-y"] ∧
    tagsOf (expandFollowing [c!"x"] exExpand) =
      [none, none, some c!"i-x", some c!"i-x", some c!"b-y"] ∧
    exExpand.nonSpaceTokens.Nodup := by decide +kernel

/-! ## C24 Replacing tags -/

/-- If the tokens with replaced tags have no preserved tags (their tags being current tags), then
replacing tags renames the tags with mapped values, keeping the prefix, and changes nothing else.
With preserved tags this does not hold, see `C24_preserved_tags_lost`. -/
theorem C24_replaced_partial (repl : Dict (Option Str)) (d : Doc) (hnd : d.nonSpaceTokens.Nodup)
    (hp : ∀ i ∈ d.nonSpaceTokens, (replacedTag repl (valueOf d none i) (d.getTagOrPreserved i)).isSome →
      ¬ truthy (stripTagPrefix (d.getPreservedTag i)) = true ∧
      ¬ truthy (stripTagPrefix (d.getPreservedTag i (some 2))) = true) :
    SameBut d (replaceTags repl d) ∧
    (∀ j, j ∉ d.nonSpaceTokens → (replaceTags repl d).getAttr j = d.getAttr j) ∧
    ∀ j ∈ d.nonSpaceTokens,
      (∀ m, m ≠ c!"tag" → (replaceTags repl d).getAttr j m = d.getAttr j m) ∧
      (replaceTags repl d).getTag j =
        (replacedTag repl (valueOf d none j) (d.getTagOrPreserved j)).getD (d.getTag j) := by
  have h := replaceTags_effect repl d d.nonSpaceTokens hnd d (fun _ _ => rfl) hp
  refine ⟨h.1, h.2.1, ?_⟩
  intro j hj
  constructor
  · intro m hm
    have := h.2.2 j hj m
    rw [if_neg hm] at this
    exact this
  · have := h.2.2 j hj c!"tag"
    rw [if_pos rfl] at this
    exact this

def exReplace : Doc := Doc.ofLines [[exWord c!"a" [(c!"tag", c!"b-x")], exWord c!"b" [(c!"tag", c!"i-x")],
  exWord c!"c" [(c!"tag", c!"b-z")], exWord c!"d" [(c!"tag", c!"b-w"), (c!"preserved_tag", c!"b-v")]]]

example : tagsOf (replaceTags [(c!"x", some c!"y"), (c!"z", none)] exReplace) =
      [some c!"b-y", some c!"i-y", none, some c!"b-w"] ∧
    exReplace.nonSpaceTokens.Nodup ∧
    ∀ i ∈ exReplace.nonSpaceTokens,
      (replacedTag [(c!"x", some c!"y"), (c!"z", none)] (valueOf exReplace none i)
        (exReplace.getTagOrPreserved i)).isSome →
      ¬ truthy (stripTagPrefix (exReplace.getPreservedTag i)) = true ∧
      ¬ truthy (stripTagPrefix (exReplace.getPreservedTag i (some 2))) = true := by decide +kernel

/-- Preserved tags: replacing the tag of the first word of an entity removes the preserved tags of
the other words of the line, which are left without any tag instead of getting the new one. -/
theorem C24_preserved_tags_lost :
    let d := Doc.ofLines [[exWord c!"a" [(c!"preserved_tag", c!"b-x")], exWord c!"b" [(c!"preserved_tag", c!"i-x")]]]
    d.nonSpaceTokens.map d.getTagOrPreserved = [some c!"b-x", some c!"i-x"] ∧
    d.nonSpaceTokens.map (replaceTags [(c!"x", some c!"y")] d).getTagOrPreserved = [some c!"b-y", none] := by
  decide +kernel

/-! ## C25 Group tags -/

/-- Untagged tokens behind a token whose tag belongs to a group continue the group; everything else
is unchanged. With a tag level only tokens with a main tag are looked at. -/
theorem C25_group (group : Str → Option Str) (level : Option Nat) (d : Doc)
    (hnd : d.nonSpaceTokens.Nodup) :
    SameBut d (mergeGroupTags group level d) ∧
    (∀ j, j ∉ d.nonSpaceTokens → (mergeGroupTags group level d).getAttr j = d.getAttr j) ∧
    ∀ pre j post, d.nonSpaceTokens = pre ++ j :: post →
      let looked := fun i => level.isNone || truthy (d.getTagOrPreserved i)
      ∀ m, (mergeGroupTags group level d).getAttr j m =
        match looked j, groupTag (valueOf d level) group (pre.filter looked) j with
        | true, some tag => if m = scopedAttribName c!"tag" none level then some tag else d.getAttr j m
        | _, _ => d.getAttr j m := by
  have h := mergeGroup_effect group level d hnd
  refine ⟨h.1, h.2.1, ?_⟩
  intro pre j post hs looked m
  have hu := h.2.2 pre j post hs m
  have e : considered d level = looked := rfl
  rw [hu, e]
  cases looked j with
  | false => simp
  | true =>
    cases groupTag (valueOf d level) group (pre.filter looked) j <;> simp

example : tagsOf (mergeGroupTags (fun t => if t = c!"x" then some c!"g" else none) none exExpand) =
    [none, none, some c!"i-g", some c!"i-g", some c!"b-y"] := by decide +kernel

/-! ## C34 The sub tag only annotator -/

theorem C34_aux_clear (preserveSub : Bool) (d : Doc) (ids : List Nat) (j : Nat) :
    (ids.foldl (fun d i =>
      let d' := d.setTagOnly i none
      if preserveSub then d' else d'.clearPreservedSubTag i) d).getAttr j =
    if j ∈ ids then (fun m => if m = c!"tag" ∨ (preserveSub = false ∧ m = preservedSubTagAttribName) then none
      else d.getAttr j m) else d.getAttr j := by
  apply foldl_attr (F := fun a m => if m = c!"tag" ∨ (preserveSub = false ∧ m = preservedSubTagAttribName) then none
      else a m)
  · intro d i j m
    cases preserveSub
    · simp only [Bool.false_eq_true, if_false]
      unfold Doc.clearPreservedSubTag
      rw [getAttr_setAttr, getAttr_setTagOnly, tagName_none]
      by_cases hji : j = i <;> by_cases h1 : m = c!"tag" <;> by_cases h2 : m = preservedSubTagAttribName <;>
        simp [hji, h1, h2]
    · simp only [if_true]
      rw [getAttr_setTagOnly, tagName_none]
      by_cases hji : j = i <;> by_cases h1 : m = c!"tag" <;> simp [hji, h1]
  · intro a
    funext m
    simp only
    split <;> rfl

theorem C34_aux_restore (d : Doc) (ids : List Nat) (j : Nat) :
    (ids.foldl (fun d i => d.setTagOnly i (d.getTagOrPreserved i)) d).getAttr j =
    if j ∈ ids then (fun m => if m = c!"tag" then tagOr none (d.getAttr j) else d.getAttr j m) else d.getAttr j := by
  apply foldl_attr (F := fun a m => if m = c!"tag" then tagOr none a else a m)
  · intro d i j m
    rw [getAttr_setTagOnly, tagName_none]
    by_cases hji : j = i
    · subst hji
      by_cases h1 : m = c!"tag" <;> simp [h1, Doc.getTagOrPreserved, Doc.getTag, Doc.getPreservedTag, tagOr]
    · simp [hji]
  · intro a
    funext m
    simp only
    by_cases h1 : m = c!"tag"
    · simp only [h1, if_true]
      have e1 : scopedAttribName tagAttribName none none = c!"tag" := tagName_none
      have e2 : scopedAttribName preservedTagAttribName none none ≠ c!"tag" := by decide
      show pyOr (if scopedAttribName tagAttribName none none = c!"tag" then _ else _)
        (if scopedAttribName preservedTagAttribName none none = c!"tag" then _ else _) = _
      rw [if_pos e1, if_neg e2]
      unfold tagOr pyOr
      split
      · rfl
      · split <;> rfl
    · simp [h1]

/-- The main tag of each token is the same before and after if it has no current tag (as after loading) or
one equal to its preserved tag (as for the fields which are always preserved), and the wrapped annotator
changes neither main tags nor preserved main tags (see `Verif.C34_sub_tags_only`). Missing are tokens with other
current tags, which are lost, see `C34_current_tags_lost`. -/
theorem C34_main_tags_kept_partial (preserveSub : Bool) (inner : Doc → Except Err Doc) (d d' : Doc)
    (hinner : ∀ d d', inner d = .ok d' → ∀ i, d'.getTag i = d.getTag i ∧ d'.getPreservedTag i = d.getPreservedTag i)
    (h : subTagOnlyAnnotate preserveSub inner d = .ok d')
    (i : Nat) (hi : i ∈ d.allTokens) (hnone : d.getTag i = none ∨ d.getTag i = d.getPreservedTag i) :
    d'.getTagOrPreserved i = d.getTagOrPreserved i ∧ d'.getTag i = d.getTagOrPreserved i := by
  unfold subTagOnlyAnnotate at h
  simp only at h
  let d1 := d.allTokens.foldl (fun d i =>
      let d' := d.setTagOnly i none
      if preserveSub then d' else d'.clearPreservedSubTag i) d
  have h1 : d1.getAttr i = _ := C34_aux_clear preserveSub d d.allTokens i
  rw [if_pos hi] at h1
  split at h
  · cases h
  next d2 hd2 =>
  simp only [Except.ok.injEq] at h
  subst h
  have h2 := C34_aux_restore d2 d.allTokens i
  rw [if_pos hi] at h2
  have t1 : d1.getTag i = none := by
    unfold Doc.getTag; rw [h1, tagName_none]; simp
  have p1 : d1.getPreservedTag i = d.getPreservedTag i := by
    unfold Doc.getPreservedTag; rw [h1]
    simp only
    rw [if_neg]
    have : ¬ (scopedAttribName preservedTagAttribName none none = c!"tag") := by decide
    have : ¬ (scopedAttribName preservedTagAttribName none none = preservedSubTagAttribName) := by decide
    simp [*]
  have e : d.getTagOrPreserved i = d.getPreservedTag i := by
    unfold Doc.getTagOrPreserved
    rcases hnone with hnone | hnone
    · rw [hnone]; rfl
    · rw [hnone]; unfold pyOr; split <;> rfl
  have hi1 := hinner d1 d2 hd2 i
  have ht : tagOr none (d2.getAttr i) = d.getPreservedTag i := by
    show pyOr (d2.getTag i) (d2.getPreservedTag i) = _
    rw [hi1.1, hi1.2, t1, p1]; rfl
  have hp : scopedAttribName preservedTagAttribName none none ≠ c!"tag" := by decide
  constructor
  · show tagOr none ((List.foldl _ d2 d.allTokens).getAttr i) = _
    rw [h2, e, ht]
    unfold tagOr
    simp only [hp, if_false, tagName_none, if_true]
    have : d2.getAttr i (scopedAttribName preservedTagAttribName none none) = d.getPreservedTag i := by
      rw [← p1, ← hi1.2]; rfl
    rw [this]
    unfold pyOr
    split <;> rfl
  · unfold Doc.getTag
    show (List.foldl _ d2 d.allTokens).getAttr i _ = _
    rw [h2, tagName_none, e]
    simp only [if_true, ht]

/-- A document with preserved tags only. -/
example :
    let d := Doc.ofLines [[exWord c!"a" [(c!"preserved_tag", c!"b-x")], exWord c!"b" []]]
    let inner := fun (d : Doc) => Except.ok (d.setSubTag 0 (some c!"b-s"))
    tagsOf d = [none, none] ∧ ∃ d', subTagOnlyAnnotate true inner d = .ok d' ∧
      (tagsOf d' = [some c!"b-x", none] ∧ d'.getSubTag 0 = some c!"b-s") :=
  ⟨by decide +kernel, _, rfl, by decide +kernel⟩

/-- The current main tags are lost, even if the wrapped annotator does nothing: the restoring loop
does not use the saved tags. -/
theorem C34_current_tags_lost :
    ∃ d d', tagsOf d = [some c!"b-x"] ∧ subTagOnlyAnnotate true .ok d = .ok d' ∧ tagsOf d' = [none] :=
  ⟨Doc.ofLines [[exWord c!"a" [(c!"tag", c!"b-x")]]], _, by decide +kernel, rfl, by decide +kernel⟩

end Verif.Props
