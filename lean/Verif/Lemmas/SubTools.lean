/-
Lemmas about the tools annotating sub tags only.
-/
import Verif.Lemmas.Tools
import Verif.Lemmas.RefDoc

namespace Verif

theorem subOnly_subTagTokens (cfg : MatchCfg) (name : Str) (is : List Nat) : ∀ (d : Doc) (index : Nat),
    SubOnly d (subTagTokens cfg name d index is) := by
  induction is with
  | nil => intro d k; exact .refl d
  | cons i is ih => intro d k; exact (subOnly_setSubTag d i _).trans (ih _ _)

theorem subOnly_subRanges (senv : SeqEnv) (cfg : MatchCfg) (tokens : List Nat) (name : Str) (d d' : Doc) (err : Option Err)
    (rs : List (Nat × Nat)) (h : subRanges senv cfg tokens name d err rs = .ok d') : SubOnly d d' := by
  induction rs with
  | nil =>
    unfold subRanges at h
    cases err with
    | none => cases h; exact .refl _
    | some e => cases h
  | cons r rs ih =>
    unfold subRanges at h
    simp only [] at h
    split at h
    · exact ih h
    · cases h; exact subOnly_subTagTokens _ _ _ _ _

theorem subOnly_subAnnotations (env : MatchEnv) (cfg : MatchCfg) (tokens : List Nat) (text : Str) (d d' : Doc)
    (subs : List (Str × TargetValue)) (h : subAnnotations env cfg tokens text d subs = .ok d') : SubOnly d d' := by
  induction subs generalizing d with
  | nil => cases h; exact .refl _
  | cons s subs ih =>
    obtain ⟨name, v⟩ := s
    cases v with
    | many vs => cases h
    | one v =>
      unfold subAnnotations at h
      simp only [] at h
      split at h
      · cases h
      · next d1 h1 => exact (subOnly_subRanges _ _ _ _ _ _ _ _ h1).trans (ih d1 h)

theorem subOnly_processSub (env : MatchEnv) (senv : SeqEnv) (cfg : MatchCfg) (seqs : List (List Nat)) (range : Nat × Nat)
    (subs : List (Str × TargetValue)) (d d' : Doc) (h : processSub env senv cfg seqs range subs d = .ok d') : SubOnly d d' := by
  unfold processSub at h
  split at h
  · cases h; exact .refl _
  · exact subOnly_subAnnotations _ _ _ _ _ _ _ h

theorem subOnly_applyRanges (env : MatchEnv) (senv : SeqEnv) (cfg : MatchCfg) (hm : cfg.mainTags = false)
    (seqs : List (List Nat)) (target : Target) (rs : List (Nat × Nat)) (d d' : Doc)
    (h : applyRanges env senv cfg seqs target d rs = .ok d') : SubOnly d d' := by
  induction rs generalizing d with
  | nil => cases h; exact .refl _
  | cons r rs ih =>
    unfold applyRanges at h
    split at h
    · cases h
    · next r' _ =>
      simp only [] at h
      have g1 : updateRange senv cfg seqs r' target.name d = d := by
        unfold updateRange
        simp [hm]
      rw [g1] at h
      split at h
      · cases h
      · next d2 h2 =>
        refine SubOnly.trans ?_ (ih d2 h)
        split at h2
        · exact subOnly_processSub _ _ _ _ _ _ _ _ h2
        · cases h2; exact .refl _

theorem subOnly_processTarget (env : MatchEnv) (cfg : MatchCfg) (hm : cfg.mainTags = false) (pending : List (List Nat))
    (st st' : MatchState) (target : Target) (h : processTarget env cfg pending st target = .ok st') : SubOnly st.doc st'.doc := by
  unfold processTarget at h
  simp only [] at h
  split at h
  · cases h
  · split at h
    · cases h
    · next d hd => cases h; exact subOnly_applyRanges _ _ _ hm _ _ _ _ _ hd
  · split at h
    · cases h; exact .refl _
    · split at h
      · cases h
      · cases h; exact .refl _
      · split at h
        · cases h
        · split at h
          · cases h
          · next d hd => cases h; exact subOnly_applyRanges _ _ _ hm _ _ _ _ _ hd

theorem subOnly_processTargets (env : MatchEnv) (cfg : MatchCfg) (hm : cfg.mainTags = false) (pending : List (List Nat))
    (targets : List Target) (st st' : MatchState) (h : processTargets env cfg pending st targets = .ok st') :
    SubOnly st.doc st'.doc := by
  induction targets generalizing st with
  | nil => cases h; exact .refl _
  | cons t ts ih =>
    unfold processTargets at h
    split at h
    · cases h
    · next st1 h1 => exact (subOnly_processTarget _ _ hm _ _ _ _ h1).trans (ih st1 h)

theorem subOnly_processTargetAnnotations (env : MatchEnv) (cfg : MatchCfg) (hm : cfg.mainTags = false) (d d' : Doc)
    (targets remaining : List Target) (h : processTargetAnnotations env cfg d targets = .ok (d', remaining)) : SubOnly d d' := by
  unfold processTargetAnnotations at h
  simp only [] at h
  split at h
  · cases h
  · next st hst =>
    cases h
    have := subOnly_processTargets env cfg hm _ _ _ _ hst
    exact this

theorem subOnly_annotateLoop (env : MatchEnv) (cfg : MatchCfg) (hm : cfg.mainTags = false) (n : Nat) :
    ∀ (d : Doc) (targets : List Target) (r : Doc × List Target), annotateLoop env cfg n d targets = .ok (some r) → SubOnly d r.1 := by
  induction n with
  | zero =>
    intro d ts r h
    cases ts with
    | nil => cases h; exact .refl _
    | cons t ts => cases h
  | succ n ih =>
    intro d ts r h
    cases ts with
    | nil => cases h; exact .refl _
    | cons t ts =>
      unfold annotateLoop at h
      split at h
      · cases h
      · next d1 rem h1 =>
        have g := subOnly_processTargetAnnotations env cfg hm _ _ _ _ h1
        split at h
        · cases h; exact g
        · exact g.trans (ih _ _ _ h)

/-- Matching without main tags changes sub tags only. -/
theorem subOnly_simpleAnnotate (env : MatchEnv) (cfg : MatchCfg) (hm : cfg.mainTags = false) (hx : cfg.extendToLineEnabled = false)
    (targets : List Target) (d d' : Doc) (h : simpleAnnotate env cfg targets d = .ok d') : SubOnly d d' := by
  obtain ⟨d1, left, hl, rfl⟩ := C19_aux env cfg targets d d' h
  rw [hx]
  exact subOnly_annotateLoop env cfg hm _ _ _ _ hl

theorem subOnly_foldlM {β : Type} (f : Doc → β → Except Err Doc) (hf : ∀ x d d', f d x = .ok d' → SubOnly d d') (l : List β) :
    ∀ d d', l.foldlM f d = .ok d' → SubOnly d d' := by
  induction l with
  | nil => intro d d' h; obtain rfl := Except.ok.inj h; exact .refl _
  | cons x l ih =>
    intro d d' h
    simp only [List.foldlM_cons] at h
    cases hx : f d x with
    | error e => rw [hx] at h; cases h
    | ok d1 =>
      rw [hx] at h
      exact (hf x d d1 hx).trans (ih d1 d' h)

theorem subOnly_referenceAnnotate (env : RefEnv) (cfg : RefConfig) (d d' : Doc) (h : referenceAnnotate env cfg d = .ok d') :
    SubOnly d d' := by
  refine subOnly_foldlM _ (fun e => ?_) (refEntities d d.nonSpaceTokens) d d' h
  intro d d' h
  unfold refEntity at h
  have h1 : SubOnly d (addNameSuffix env cfg (mapEtal cfg d e.2) e.2) := (subOnly_setRefTags _ _).trans (subOnly_setRefTags _ _)
  generalize addNameSuffix env cfg (mapEtal cfg d e.2) e.2 = d1 at h h1
  unfold addIdnoPrefix at h
  generalize prefixExtended env _ _ _ = p at h
  cases p with
  | error e => cases h
  | ok tags =>
    obtain rfl := Except.ok.inj h
    exact h1.trans ((subOnly_setRefTags _ _).trans (subOnly_setRefTags _ _))

theorem subOnly_mergeGroupTags (group : Str → Option Str) (d : Doc) : SubOnly d (mergeGroupTags group (some subLevel) d) := by
  have key : ∀ (l : List Nat) (st : Option Str × Doc), SubOnly st.2 (l.foldl (mergeGroupStep group (some subLevel)) st).2 := by
    intro l
    induction l with
    | nil => exact fun st => .refl _
    | cons i l ih =>
      intro st
      refine SubOnly.trans ?_ (ih _)
      unfold mergeGroupStep
      split
      · exact .refl _
      · simp only
        split
        · exact .refl _
        · split
          · exact .refl _
          · refine ⟨sameBut_setTagOnly _ _ _ _ _, fun j n h1 _ => ?_⟩
            show (st.2.setAttr i _ _).getAttr j n = _
            rw [getAttr_setAttr, if_neg (fun h => h1 h.2)]
  exact key _ (none, d)

theorem SubOnly.getPreservedTag {d d' : Doc} (h : SubOnly d d') (j : Nat) : d'.getPreservedTag j = d.getPreservedTag j :=
  h.attrs j _ (by decide) (by decide)

/-- The main tags of a document which had preserved tags only, before the annotators run. -/
theorem before_tags (cfg : AnnotateCfg) (d : Doc) (i : Nat) (hi : i ∈ d.allTokens) (hn : d.getTag i = none) :
    (beforeAnnotator cfg d).getTag i = none ∨
      (beforeAnnotator cfg d).getTag i = (beforeAnnotator cfg d).getPreservedTag i := by
  have n1 : scopedAttribName tagAttribName none (some subLevel) ≠ scopedAttribName tagAttribName none none := by decide
  have n2 : scopedAttribName preservedTagAttribName none (some subLevel) ≠
      scopedAttribName preservedTagAttribName none none := by decide
  have n3 : scopedAttribName preservedTagAttribName none (some subLevel) ≠
      scopedAttribName tagAttribName none none := by decide
  have n4 : scopedAttribName preservedTagAttribName none none ≠
      scopedAttribName tagAttribName none (some subLevel) := by decide
  have n5 : scopedAttribName preservedTagAttribName none none ≠ scopedAttribName tagAttribName none none := by decide
  let fn : Option Str → Option Str := if cfg.preserveTags || !cfg.preserveFields.isEmpty then
      preserveTagFn cfg.preserveFields (cfg.fields.filter (fun f => !cfg.preserveFields.contains f))
    else fun _ => none
  have hfn : ∀ t, fn t = t ∨ fn t = none := by
    intro t
    rcases Props.C14_aux_main cfg t with h | h
    · exact .inr h
    · exact .inl h.1
  let d1 := if cfg.preserveFields.isEmpty then d else applyPreservedFields cfg.preserveFields d
  have hd1 : d1.allTokens = d.allTokens := by
    show (if _ then _ else _ : Doc).allTokens = _
    split
    · rfl
    · refine SameBut.allTokens (sameBut_foldl _ (fun d i => ?_) _ _)
      unfold applyPreservedStep
      simp only
      split
      · exact sameBut_setTag _ _ _ _ _
      · exact .refl d
  have t1 : d1.getTag i = none ∨ d1.getTag i = d1.getPreservedTag i := by
    have e : d1.getAttr i = d.getAttr i ∨ d1.getAttr i = applyAttrs cfg.preserveFields (d.getAttr i) := by
      show (if _ then _ else _ : Doc).getAttr i = _ ∨ (if _ then _ else _ : Doc).getAttr i = _
      split
      · exact .inl rfl
      · right; rw [getAttr_applyPreservedFields, if_pos hi]
    rcases e with e | e
    · left; show d1.getAttr i _ = _; rw [e]; exact hn
    · by_cases hc : (stripTagPrefix (tagOr none (d.getAttr i))).any (fun t => cfg.preserveFields.contains t) = true
      · right
        show d1.getAttr i (scopedAttribName tagAttribName none none) = d1.getAttr i (scopedAttribName preservedTagAttribName none none)
        rw [e]
        unfold applyAttrs
        rw [if_pos ⟨hc, by decide⟩, if_neg (fun h => by revert h; simp; intro _; decide)]
        unfold tagOr
        have : d.getAttr i (scopedAttribName tagAttribName none none) = none := hn
        rw [this]; rfl
      · left
        show d1.getAttr i (scopedAttribName tagAttribName none none) = none
        rw [e]
        unfold applyAttrs
        rw [if_neg (fun h => hc h.1)]
        exact hn
  let d2 := mapTokenTags fn none d1
  have h2 : d2.getAttr i = mapAttrs fn none (d1.getAttr i) := by
    show (mapTokenTags fn none d1).getAttr i = _
    rw [getAttr_mapTokenTags hfn, if_pos (by rw [hd1]; exact hi)]
  have t2 : d2.getTag i = none ∨ d2.getTag i = d2.getPreservedTag i := by
    show d2.getAttr i _ = _ ∨ d2.getAttr i _ = d2.getAttr i _
    rw [h2]
    unfold mapAttrs
    by_cases hx : fn (tagOr none (d1.getAttr i)) ≠ tagOr none (d1.getAttr i)
    · left
      rw [if_pos hx, if_pos rfl]
      exact (hfn _).resolve_left hx
    · rw [if_neg hx, if_neg hx]
      exact t1
  have hi2 : i ∈ d2.allTokens := by
    have : SameBut d1 d2 := by
      refine sameBut_foldl _ ?_ _ _
      intro d i
      unfold mapTokenTagsStep
      simp only
      split
      · exact (sameBut_setAttr _ _ _ _).trans (sameBut_setAttr _ _ _ _)
      · exact .refl d
    rw [this.allTokens, hd1]; exact hi
  obtain ⟨sfn, s1, _, _, s4⟩ := Props.C14_aux_sub cfg d2
  have h3 : (beforeAnnotator cfg d).getAttr i = mapAttrs sfn (some subLevel) (d2.getAttr i) := by
    have := s4 i
    rw [getAttr_mapTokenTags s1, if_pos hi2] at this
    exact this
  have hmain : ∀ m, m = scopedAttribName tagAttribName none none ∨ m = scopedAttribName preservedTagAttribName none none →
      (beforeAnnotator cfg d).getAttr i m = d2.getAttr i m := by
    intro m hm
    rw [h3]
    unfold mapAttrs
    split
    · rcases hm with rfl | rfl
      · rw [if_neg n1.symm, if_neg n3.symm]
      · rw [if_neg n4, if_neg n2.symm]
    · rfl
  have a1 : (beforeAnnotator cfg d).getTag i = d2.getTag i := hmain _ (.inl rfl)
  have a2 : (beforeAnnotator cfg d).getPreservedTag i = d2.getPreservedTag i := hmain _ (.inr rfl)
  rw [a1, a2]
  exact t2

end Verif
