/-
C128: without kept labels the labels of a file do not matter.
C129: running a tool again on its output gives the same file.
-/
import Verif.Lemmas.RunAgain
import Verif.Lemmas.SaveAgain
import Verif.Props.SaveAgain

namespace Verif

open Spec (tokenTexts blank tokenPath Apart Whole dropFinalNoTokens moveSpace trailing withoutTrailing space)

namespace Spec

/-- No label of the file is one of those to be kept. -/
def noneKept (a : ToolArgs) (t : Tool) (cfg : DocCfg) (root : Elem) : Prop :=
  ∀ d, loadDoc { cfg with preserveTags := true } root = .ok d → ∀ j ∈ d.allTokens, ∀ v,
    (tagValue (d.getPreservedTag j) = some v → ¬ keptLabel a t v) ∧
    (tagValue (d.getPreservedTag j (some subLevel)) = some v → ¬ keptSubLabel a t v)

/-- No labels are to be kept, whatever they are: tags are not to be preserved, there are no fields to be always preserved,
the tool has no field of its own and sub tags are not to be preserved. -/
def keepsNothing (a : ToolArgs) (t : Tool) : Prop :=
  a.noPreserveTags = true ∧ a.alwaysPreserve = [] ∧ toolField t = none ∧ a.preserveSubTags = false

/-- No line but the last one ends with white space, and the last line is not empty. -/
def settledLines (cc : CharClass) (lines : List (List Str)) : Prop :=
  (∀ l ∈ lines.dropLast, ∀ s, l.getLast? = some s → space cc s = false) ∧ lines.getLast? ≠ some []

/-- Neither the labels nor missing labels are written to line break elements. -/
def noBreakLabels (mapping : Dict Str) (names : List Str) : Prop :=
  ∀ v, v = [] ∨ oneOf names v → ∀ g ∈ tagRequiredPath mapping (some v),
    ∀ tag attrib, parseTagExpression g = .ok (tag, attrib) → tag ≠ c!"lb"

end Spec

/-! ## C128 Labels which are not kept do not matter -/

/-- If no labels are to be kept, this is so for each file. -/
theorem keepsNothing_noneKept {a : ToolArgs} {t : Tool} (h : Spec.keepsNothing a t) (cfg : DocCfg) (root : Elem) :
    Spec.noneKept a t cfg root := by
  obtain ⟨h1, h2, h3, h4⟩ := h
  intro d _ j _ v
  refine ⟨fun _ hk => ?_, fun _ hk => ?_⟩
  · unfold Spec.keptLabel at hk
    rw [h3] at hk
    simp [h2, h1] at hk
  · have := hk.1
    rw [h4] at this
    cases this

theorem before_noneKept {a : ToolArgs} {t : Tool} {cfg : DocCfg} {root : Elem} {d : Doc} (hk : Spec.noneKept a t cfg root)
    (h : loadDoc { cfg with preserveTags := true } root = .ok d) :
    beforeAnnotator (t.annotateCfg a) d = Doc.ofLines ((tokenTexts d).map (bareLine cfg.cc)) := by
  refine before_bare h _ (fun j hj v hv hkeep => ?_) (fun j hj v hv hkeep => ?_)
  · rw [stripTagPrefix_eq_tagValue] at hv
    exact (hk d h j hj v).1 hv (keptLabel_of_keepMain hkeep)
  · rw [stripTagPrefix_eq_tagValue] at hv
    exact (hk d h j hj v).2 hv (keptSubLabel_of_keepSub hkeep)

theorem before_same {a : ToolArgs} {t : Tool} {cfg : DocCfg} {root₁ root₂ : Elem} {d₁ d₂ : Doc}
    (hk₁ : Spec.noneKept a t cfg root₁) (hk₂ : Spec.noneKept a t cfg root₂)
    (h₁ : loadDoc { cfg with preserveTags := true } root₁ = .ok d₁)
    (h₂ : loadDoc { cfg with preserveTags := true } root₂ = .ok d₂)
    (ht : tokenTexts d₁ = tokenTexts d₂) :
    beforeAnnotator (t.annotateCfg a) d₁ = beforeAnnotator (t.annotateCfg a) d₂ := by
  rw [before_noneKept hk₁ h₁, before_noneKept hk₂ h₂, ht]

/-- **C128.** Two files with the same tokens on the same lines, whatever their labels and elements are, get the same
labels, if their labels are not to be kept. -/
theorem C128_annotated (env : ToolEnv) (a : ToolArgs) (t : Tool) (cfg : DocCfg) (root₁ root₂ : Elem) (d₁ d₂ : Doc)
    (hk₁ : Spec.noneKept a t cfg root₁) (hk₂ : Spec.noneKept a t cfg root₂)
    (h₁ : loadDoc { cfg with preserveTags := true } root₁ = .ok d₁)
    (h₂ : loadDoc { cfg with preserveTags := true } root₂ = .ok d₂)
    (ht : tokenTexts d₁ = tokenTexts d₂) :
    annotateAll (t.annotators env a) (beforeAnnotator (t.annotateCfg a) d₁) =
      annotateAll (t.annotators env a) (beforeAnnotator (t.annotateCfg a) d₂) := by
  rw [before_same hk₁ hk₂ h₁ h₂ ht]

theorem docRoot_container {cfg : DocCfg} {root₁ root₂ c₁ c₂ r₁ : Elem} {d : Doc} (hc₁ : findAll cfg.containerPath root₁ = [c₁])
    (hc₂ : findAll cfg.containerPath root₂ = [c₂]) (htag : c₁.tag = c₂.tag) (h : docRoot cfg root₁ d = .ok r₁) :
    ∃ r₂, docRoot cfg root₂ d = .ok r₂ ∧ findAll cfg.containerPath r₂ = findAll cfg.containerPath r₁ := by
  unfold docRoot updatedTei at h ⊢
  rw [hc₁] at h
  rw [hc₂]
  simp only at h ⊢
  rw [← htag]
  split at h
  · cases h
  · next f hf =>
    have hhead := (linesToTei_head _ _ _ _ hf).1
    obtain ⟨e1, a1, a2, _⟩ := findAll_replaceFirst f.close cfg.containerPath root₁ c₁ [] hc₁ hhead
    obtain ⟨e2, b1, b2, _⟩ := findAll_replaceFirst f.close cfg.containerPath root₂ c₂ [] hc₂ (hhead.trans htag)
    rw [a1] at h
    cases h
    rw [b1]
    exact ⟨e2, rfl, by rw [a2, b2]⟩

/-- A document saved into the file it was saved into before: the file does not change. -/
theorem docRoot_again {cfg : DocCfg} {root c r : Elem} {d : Doc} (hc : findAll cfg.containerPath root = [c])
    (h : docRoot cfg root d = .ok r) : docRoot cfg r d = .ok r ∧ ∃ c', findAll cfg.containerPath r = [c'] := by
  unfold docRoot updatedTei at h ⊢
  rw [hc] at h
  simp only at h
  split at h
  · cases h
  · next f hf =>
    have hhead := (linesToTei_head _ _ _ _ hf).1
    obtain ⟨e1, a1, a2, _⟩ := findAll_replaceFirst f.close cfg.containerPath root c [] hc hhead
    rw [a1] at h
    cases h
    rw [a2]
    simp only
    rw [show f.close.tag = c.tag from hhead, hf]
    simp only
    rw [replaceFirst_same _ _ _ _ a2]
    exact ⟨rfl, _, rfl⟩

theorem run_of_steps {env : ToolEnv} {a : ToolArgs} {t : Tool} {cfg : DocCfg} {passes : Doc → Except Err Bool} {root₁ root₂ r₁ r₂ : Elem}
    {target path : Str} {failed : Option Str} {d₁ d₂ : Doc}
    (h₁ : loadDoc { cfg with preserveTags := true } root₁ = .ok d₁)
    (h₂ : loadDoc { cfg with preserveTags := true } root₂ = .ok d₂)
    (hb : beforeAnnotator (t.annotateCfg a) d₁ = beforeAnnotator (t.annotateCfg a) d₂)
    (hw : ∀ d', annotateAll (t.annotators env a) (beforeAnnotator (t.annotateCfg a) d₁) = .ok d' →
      docRoot cfg root₁ d' = .ok r₁ → docRoot cfg root₂ d' = .ok r₂)
    (h : t.run env a cfg passes root₁ target failed = .ok (some (path, r₁))) :
    t.run env a cfg passes root₂ target failed = .ok (some (path, r₂)) := by
  unfold Tool.run annotateDocument at h ⊢
  simp only [h₁, h₂, ← hb] at h ⊢
  split at h
  · cases h
  · next d' hd' =>
    split at h
    · cases h
    · next hp =>
      split at h
      · cases h
      · next x hx =>
        cases h
        simp only [hw d' hd' hx]
    · next hp =>
      split at h
      · split at h
        · cases h
        · next x hx =>
          cases h
          simp only [hw d' hd' hx]
      · cases h

/-- So the file written for the one file and the file written for the other one have the same content of the container,
and they are written to the same path. -/
theorem C128_written (env : ToolEnv) (a : ToolArgs) (t : Tool) (cfg : DocCfg) (passes : Doc → Except Err Bool)
    (root₁ root₂ c₁ c₂ r₁ : Elem) (d₁ d₂ : Doc) (target path : Str) (failed : Option Str)
    (hk₁ : Spec.noneKept a t cfg root₁) (hk₂ : Spec.noneKept a t cfg root₂)
    (hc₁ : findAll cfg.containerPath root₁ = [c₁]) (hc₂ : findAll cfg.containerPath root₂ = [c₂]) (htag : c₁.tag = c₂.tag)
    (h₁ : loadDoc { cfg with preserveTags := true } root₁ = .ok d₁)
    (h₂ : loadDoc { cfg with preserveTags := true } root₂ = .ok d₂)
    (ht : tokenTexts d₁ = tokenTexts d₂)
    (h : t.run env a cfg passes root₁ target failed = .ok (some (path, r₁))) :
    ∃ r₂, t.run env a cfg passes root₂ target failed = .ok (some (path, r₂)) ∧
      findAll cfg.containerPath r₂ = findAll cfg.containerPath r₁ := by
  obtain ⟨d0, d', g0, g1, g2, _⟩ := run_steps h
  rw [h₁] at g0
  cases g0
  obtain ⟨r₂, e1, e2⟩ := docRoot_container (cfg := cfg) hc₁ hc₂ htag g2
  refine ⟨r₂, run_of_steps h₁ h₂ (before_same hk₁ hk₂ h₁ h₂ ht) (fun d2 hd2 _ => ?_) h, e2⟩
  rw [g1] at hd2
  cases hd2
  exact e1

/-! ## C129 Running a tool again -/

theorem trailing_nil {cc : CharClass} {l : List Str} (h : ∀ s, l.getLast? = some s → space cc s = false) :
    trailing cc l = [] ∧ withoutTrailing cc l = l := by
  have : trailing cc l = [] := by
    unfold trailing
    cases hr : l.reverse with
    | nil => rfl
    | cons s r =>
      have hs : space cc s = false := h s (by rw [List.getLast?_eq_head?_reverse, hr]; rfl)
      simp [hs]
  refine ⟨this, ?_⟩
  have e := withoutTrailing_append cc l
  rw [this, List.append_nil] at e
  exact e

theorem moveSpace_settled {cc : CharClass} {ls : List (List Str)}
    (h : ∀ l ∈ ls.dropLast, ∀ s, l.getLast? = some s → space cc s = false) : moveSpace cc [] ls = ls := by
  induction ls with
  | nil => rfl
  | cons l ls ih =>
    cases ls with
    | nil => rfl
    | cons m ls =>
      simp only [moveSpace, List.nil_append]
      obtain ⟨h1, h2⟩ := trailing_nil (h l (by simp))
      rw [h1, h2, ih (fun x hx => h x (by rw [List.dropLast_cons_of_ne_nil (by simp)]; exact List.mem_cons_of_mem _ hx))]

theorem dropFinal_settled {cc : CharClass} {ls : List (List Str)} (h : Spec.settledLines cc ls) :
    dropFinalNoTokens (moveSpace cc [] ls) = ls := by
  rw [moveSpace_settled h.1]
  unfold dropFinalNoTokens
  rw [if_neg h.2]

theorem noBreak_annotated {env : ToolEnv} {a : ToolArgs} {t : Tool} {dc : DocCfg} {root : Elem} {d0 d' : Doc}
    (hk : Spec.noneKept a t dc root) (hnb : Spec.noBreakLabels dc.mapping (Spec.toolLabels a t ++ Spec.toolSubLabels a t))
    (hl : loadDoc { dc with preserveTags := true } root = .ok d0)
    (ha : annotateAll (t.annotators env a) (beforeAnnotator (t.annotateCfg a) d0) = .ok d') : Spec.NoBreakTags dc d' := by
  intro l hl' u hu _ g hg tag attrib hp
  unfold Doc.lineToks at hl'
  obtain ⟨ln, _, rfl⟩ := List.mem_map.1 hl'
  obtain ⟨i, _, rfl⟩ := List.mem_map.1 hu
  have key : ∀ x : Option Str, (∀ v, v ≠ [] → Spec.tagValue x = some v → Spec.oneOf (Spec.toolLabels a t ++ Spec.toolSubLabels a t) v) →
      g ∈ tagRequiredPath dc.mapping (splitTagPrefix x).2 → tag ≠ c!"lb" := by
    intro x hx hgx
    have e : (splitTagPrefix x).2 = Spec.tagValue x := by rw [← stripTagPrefix_eq_tagValue]; rfl
    rw [e] at hgx
    cases hv : Spec.tagValue x with
    | none => rw [hv] at hgx; exact hnb [] (.inl rfl) g hgx tag attrib hp
    | some v =>
      rw [hv] at hgx
      by_cases hne : v = []
      · exact hnb v (.inl hne) g hgx tag attrib hp
      · exact hnb v (.inr (hx v hne hv)) g hgx tag attrib hp
  have hw := writerTags_eq (d'.tok i)
  unfold writerTags at hw
  rw [Prod.mk.injEq] at hw
  unfold tokenPath at hg
  split at hg
  · refine key (Spec.fullSubTag (d'.tok i)) (fun v hne hv => ?_) hg
    rw [← hw.2] at hv
    rcases (C96_labels env a t _ root d0 d' hl ha i v hne).2 hv with ⟨n, hn, h⟩ | ⟨j, hj, hv, h⟩
    · exact ⟨n, List.mem_append_right _ hn, h⟩
    · exact absurd h ((hk d0 hl j hj v).2 hv)
  · refine key (Spec.fullTag (d'.tok i)) (fun v hne hv => ?_) hg
    rw [← hw.1] at hv
    rcases (C96_labels env a t _ root d0 d' hl ha i v hne).1 hv with ⟨n, hn, h⟩ | ⟨j, hj, hv, h⟩
    · exact ⟨n, List.mem_append_left _ hn, h⟩
    · exact absurd h ((hk d0 hl j hj v).1 hv)

/-- What a run without kept labels writes has the tokens of the source file, up to white space at the ends of lines. -/
theorem run_tokens {env : ToolEnv} {a : ToolArgs} {t : Tool} {cfg : DocCfg} {passes : Doc → Except Err Bool} {root c root' : Elem}
    {target path : Str} {failed : Option Str} {d0 : Doc}
    (hspace : ∀ ch, cfg.cc.isSpace ch = true → cfg.cc.isWord ch = false)
    (hk : Spec.noneKept a t cfg root) (hr : ¬ Spec.removesText t)
    (hnb : Spec.noBreakLabels cfg.mapping (Spec.toolLabels a t ++ Spec.toolSubLabels a t))
    (hc : findAll cfg.containerPath root = [c])
    (h0 : loadDoc { cfg with preserveTags := true } root = .ok d0)
    (hapart : ∀ l ∈ tokenTexts d0, Apart cfg.cc l)
    (h : t.run env a cfg passes root target failed = .ok (some (path, root'))) :
    ∃ d1, loadDoc { cfg with preserveTags := true } root' = .ok d1 ∧
      tokenTexts d1 = dropFinalNoTokens (moveSpace cfg.cc [] (tokenTexts d0)) := by
  obtain ⟨d0', d', g0, g1, g2, _⟩ := run_steps h
  rw [h0] at g0
  cases g0
  have hs : SameBut d0 d' := (Props.C14_aux_sameBut _ _).trans (keeps_annotateAll _ (tool_keeps env a t hr) _ _ g1)
  have htx : tokenTexts d' = tokenTexts d0 := sameBut_lineToks_texts hs
  obtain ⟨d1, e1, e2⟩ := reload_tokens { cfg with preserveTags := true } root c root' d' hspace hc g2
    (htx ▸ C109_loaded_whole _ root d0 h0) (htx ▸ hapart) (noBreak_annotated (dc := cfg) hk hnb h0 g1)
  exact ⟨d1, e1, by rw [e2, htx]⟩

/-- **C129.** A run of a tool on the file it has written, with the same target annotations, writes the same file again, if
neither the labels of the source file nor those written are to be kept. -/
theorem C129_again_partial (env : ToolEnv) (a : ToolArgs) (t : Tool) (cfg : DocCfg) (passes : Doc → Except Err Bool)
    (root c root' : Elem) (target path : Str) (failed : Option Str) (d0 : Doc)
    (hspace : ∀ ch, cfg.cc.isSpace ch = true → cfg.cc.isWord ch = false)
    (hk : Spec.noneKept a t cfg root) (hk' : Spec.noneKept a t cfg root') (hr : ¬ Spec.removesText t)
    (hnb : Spec.noBreakLabels cfg.mapping (Spec.toolLabels a t ++ Spec.toolSubLabels a t))
    (hc : findAll cfg.containerPath root = [c])
    (h0 : loadDoc { cfg with preserveTags := true } root = .ok d0)
    (hapart : ∀ l ∈ tokenTexts d0, Apart cfg.cc l)
    (hset : Spec.settledLines cfg.cc (tokenTexts d0))
    (h : t.run env a cfg passes root target failed = .ok (some (path, root'))) :
    t.run env a cfg passes root' target failed = .ok (some (path, root')) := by
  obtain ⟨d1, e1, e2⟩ := run_tokens hspace hk hr hnb hc h0 hapart h
  rw [dropFinal_settled hset] at e2
  exact run_of_steps h0 e1 (before_same hk hk' h0 e1 e2.symm) (fun d2 _ hd2 => (docRoot_again hc hd2).1) h

theorem apart_front {cc : CharClass} (hspace : ∀ ch, cc.isSpace ch = true → cc.isWord ch = false) {front l : List Str}
    (hf : ∀ s ∈ front, space cc s = true) (hl : Apart cc l) : Apart cc (front ++ l) := by
  intro pre s t post x y h hx hy
  rcases List.append_eq_append_iff.1 h with ⟨m, h1, h2⟩ | ⟨m, h1, h2⟩
  · exact hl m s t post x y h2 hx hy
  · cases m with
    | nil =>
      refine hl [] s t post x y ?_ hx hy
      simpa using h2.symm
    | cons u m =>
      rw [List.cons_append, List.cons.injEq] at h2
      have hs : space cc s = true := hf s (by rw [h1, h2.1]; simp)
      have hxs : cc.isSpace x = true := List.all_eq_true.1 hs x (List.mem_of_getLast? hx)
      unfold Spec.tokenBoundary
      rw [hspace x hxs]
      rfl

theorem apart_prefix {cc : CharClass} {l m : List Str} (h : Apart cc (l ++ m)) : Apart cc l := by
  intro pre s t post x y hl hx hy
  exact h pre s t (post ++ m) x y (by rw [hl]; simp) hx hy

theorem moveSpace_apart {cc : CharClass} (hspace : ∀ ch, cc.isSpace ch = true → cc.isWord ch = false) (ls : List (List Str)) :
    ∀ (front : List Str), (∀ s ∈ front, space cc s = true) → (∀ l ∈ ls, Apart cc l) → ∀ l ∈ moveSpace cc front ls, Apart cc l := by
  induction ls with
  | nil => intro _ _ _ l hl; cases hl
  | cons k ls ih =>
    intro front hf h l hl
    have hk : Apart cc (front ++ k) := apart_front hspace hf (h k (List.mem_cons_self ..))
    cases ls with
    | nil =>
      rw [moveSpace, List.mem_singleton] at hl
      rw [hl]; exact hk
    | cons m ls =>
      rw [moveSpace] at hl
      rcases List.mem_cons.1 hl with hl | hl
      · rw [hl]
        refine apart_prefix (m := trailing cc (front ++ k)) ?_
        rw [withoutTrailing_append]; exact hk
      · exact ih _ (trailing_space cc _) (fun l hl => h l (List.mem_cons_of_mem _ hl)) l hl

theorem withoutTrailing_last (cc : CharClass) (l : List Str) (s : Str) (h : (withoutTrailing cc l).getLast? = some s) :
    space cc s = false := by
  unfold withoutTrailing at h
  rw [List.getLast?_reverse] at h
  have := List.head?_dropWhile_not (space cc) l.reverse
  rw [h] at this
  simpa using this

theorem moveSpace_ends {cc : CharClass} (ls : List (List Str)) :
    ∀ (front : List Str), ∀ l ∈ (moveSpace cc front ls).dropLast, ∀ s, l.getLast? = some s → space cc s = false := by
  induction ls with
  | nil => intro _ l hl; cases hl
  | cons k ls ih =>
    intro front l hl s hs
    cases ls with
    | nil => rw [moveSpace] at hl; cases hl
    | cons m ls =>
      have hne : moveSpace cc (trailing cc (front ++ k)) (m :: ls) ≠ [] := by
        cases ls <;> simp [moveSpace]
      rw [moveSpace, List.dropLast_cons_of_ne_nil hne] at hl
      rcases List.mem_cons.1 hl with hl | hl
      · rw [hl] at hs; exact withoutTrailing_last cc _ s hs
      · exact ih _ l hl s hs

/-- White space at the ends of lines is moved by the first run. After that the file does not change any more: the third run
writes what the second one has written. -/
theorem C129_settles_partial (env : ToolEnv) (a : ToolArgs) (t : Tool) (cfg : DocCfg) (passes : Doc → Except Err Bool)
    (root c root' root'' : Elem) (target path path' : Str) (failed : Option Str) (d0 : Doc)
    (hspace : ∀ ch, cfg.cc.isSpace ch = true → cfg.cc.isWord ch = false)
    (hk : Spec.noneKept a t cfg root) (hk' : Spec.noneKept a t cfg root') (hk'' : Spec.noneKept a t cfg root'')
    (hr : ¬ Spec.removesText t)
    (hnb : Spec.noBreakLabels cfg.mapping (Spec.toolLabels a t ++ Spec.toolSubLabels a t))
    (hc : findAll cfg.containerPath root = [c])
    (h0 : loadDoc { cfg with preserveTags := true } root = .ok d0)
    (hapart : ∀ l ∈ tokenTexts d0, Apart cfg.cc l)
    (hlast : (tokenTexts d0).getLast? ≠ some [])
    (h : t.run env a cfg passes root target failed = .ok (some (path, root')))
    (h' : t.run env a cfg passes root' target failed = .ok (some (path', root''))) :
    t.run env a cfg passes root'' target failed = .ok (some (path', root'')) := by
  obtain ⟨d1, e1, e2⟩ := run_tokens hspace hk hr hnb hc h0 hapart h
  obtain ⟨_, d', _, _, g2, _⟩ := run_steps h
  obtain ⟨_, c', hc'⟩ := docRoot_again hc g2
  have hl' : (moveSpace cfg.cc [] (tokenTexts d0)).getLast? ≠ some [] := fun hh => hlast (moveSpace_last _ _ _ hh)
  have e3 : tokenTexts d1 = moveSpace cfg.cc [] (tokenTexts d0) := by
    rw [e2]; unfold dropFinalNoTokens; rw [if_neg hl']
  refine C129_again_partial env a t cfg passes root' c' root'' target path' failed d1 hspace hk' hk'' hr hnb hc' e1 ?_ ?_ h'
  · rw [e3]
    exact moveSpace_apart hspace _ [] (by simp) hapart
  · rw [e3]
    exact ⟨moveSpace_ends _ [], hl'⟩

/-- For a source file with text and line breaks only, and options which say that no labels are to be kept. -/
theorem C129_plain_partial (env : ToolEnv) (a : ToolArgs) (t : Tool) (cfg : DocCfg) (passes : Doc → Except Err Bool)
    (root c root' : Elem) (target path : Str) (failed : Option Str) (d0 : Doc)
    (hspace : ∀ ch, cfg.cc.isSpace ch = true → cfg.cc.isWord ch = false)
    (hk : Spec.keepsNothing a t) (hr : ¬ Spec.removesText t)
    (hnb : Spec.noBreakLabels cfg.mapping (Spec.toolLabels a t ++ Spec.toolSubLabels a t))
    (hc : findAll cfg.containerPath root = [c]) (hplain : Spec.PlainLines c)
    (h0 : loadDoc { cfg with preserveTags := true } root = .ok d0)
    (hset : Spec.settledLines cfg.cc (tokenTexts d0))
    (h : t.run env a cfg passes root target failed = .ok (some (path, root'))) :
    t.run env a cfg passes root' target failed = .ok (some (path, root')) :=
  C129_again_partial env a t cfg passes root c root' target path failed d0 hspace (keepsNothing_noneKept hk cfg root)
    (keepsNothing_noneKept hk cfg root') hr hnb hc h0
    (C109_loaded_apart { cfg with preserveTags := true } root d0 h0 (fun e he => by rw [show findAll _ root = [c] from hc] at he; rw [List.mem_singleton.1 he]; exact hplain))
    hset h

/-- Checks `Spec.noBreakLabels`. -/
def noBreakLabelsB (mapping : Dict Str) (names : List Str) : Bool :=
  ([] :: names ++ names.filterMap (fun n => Spec.tagValue (some n))).all fun v =>
    (tagRequiredPath mapping (some v)).all fun g =>
      match parseTagExpression g with
      | .ok (tag, _) => !decide (tag = c!"lb")
      | .error _ => true

theorem noBreakLabels_of_check {mapping : Dict Str} {names : List Str} (h : noBreakLabelsB mapping names = true) :
    Spec.noBreakLabels mapping names := by
  intro v hv g hg tag attrib hp
  have hm : v ∈ [] :: names ++ names.filterMap (fun n => Spec.tagValue (some n)) := by
    rcases hv with rfl | ⟨n, hn, rfl | hv⟩
    · simp
    · simp [hn]
    · exact List.mem_append_right _ (List.mem_filterMap.2 ⟨n, hn, hv⟩)
  have := List.all_eq_true.1 (List.all_eq_true.1 h v hm) g hg
  rw [hp] at this
  simpa using this

theorem noBreakLabels_subset {mapping : Dict Str} {names names' : List Str} (h : Spec.noBreakLabels mapping names)
    (hs : ∀ n ∈ names', n ∈ names) : Spec.noBreakLabels mapping names' := by
  intro v hv
  refine h v ?_
  rcases hv with hv | ⟨n, hn, hv⟩
  · exact .inl hv
  · exact .inr ⟨n, hs n hn, hv⟩

/-- The condition on labels holds for the tools, if the target annotations have the names of labels of the tool. -/
theorem C129_tool_labels (mapping : Dict Str) (mains : List (Option Str)) (htool : (mapping, mains) ∈ Spec.toolTags)
    (names : List Str) (hn : ∀ n ∈ names, n ∈ mapping.map (·.1)) : Spec.noBreakLabels mapping names := by
  have key : ∀ m ∈ Spec.toolTags, noBreakLabelsB m.1 (m.1.map (·.1)) = true := by decide +kernel
  exact noBreakLabels_subset (noBreakLabels_of_check (key _ htool)) hn

/-- `<tei><text>some title<lb/>by author abc</text></tei>`, where a line may have a label. -/
def exAgainRoot (labelled : Bool) : Elem :=
  .mk c!"tei" [] none [.mk c!"text" []
    (if labelled then none else some c!"some title")
    ((if labelled then [.mk c!"front" [] none [.mk c!"name" [] (some c!"some title") [] none] none] else []) ++
      [.mk c!"lb" [] none [] (some c!"by author abc")]) none] none

/-- The options for titles and names, keeping no labels. -/
def exAgainArgs : ToolArgs := { targets := exTargets, noPreserveTags := true }

/-- Runs a tool again and again on its output. -/
def runAgain (t : Tool) (a : ToolArgs) (cfg : DocCfg) : Nat → Elem → List (Option Elem)
  | 0, _ => []
  | n + 1, root =>
    match t.run exToolEnv a cfg (fun _ => .ok true) root c!"out" none with
    | .ok (some (_, e)) => some e :: runAgain t a cfg n e
    | _ => [none]

/-- The conditions are met by a file with and without labels. -/
example : Spec.keepsNothing exAgainArgs .header ∧ ¬ Spec.removesText .header ∧
    (findAll exToolCfg.containerPath (exAgainRoot false)).length = 1 ∧
    (∀ c ∈ findAll exToolCfg.containerPath (exAgainRoot false), Spec.PlainLines c) ∧
    Spec.noBreakLabels exToolCfg.mapping (Spec.toolLabels exAgainArgs .header ++ Spec.toolSubLabels exAgainArgs .header) :=
  ⟨⟨rfl, rfl, rfl, rfl⟩, id, rfl, (by
    intro c hc
    have hc : c ∈ [Elem.mk c!"text" [] (some c!"some title") [.mk c!"lb" [] none [] (some c!"by author abc")] none] := hc
    rw [List.mem_singleton.1 hc]
    refine ⟨rfl, fun c hc => ?_⟩
    rw [List.mem_singleton.1 hc]
    exact ⟨rfl, rfl, rfl⟩), noBreakLabels_of_check (by decide +kernel)⟩

example : ∀ b : Bool, ∃ d, loadDoc { exToolCfg with preserveTags := true } (exAgainRoot b) = .ok d ∧
    tokenTexts d = [[c!"some", c!" ", c!"title"], [c!"by", c!" ", c!"author", c!" ", c!"abc"]] := by
  intro b
  cases b <;> exact exists_of_okAnd (by decide +kernel)

example : Spec.settledLines asciiClass [[c!"some", c!" ", c!"title"], [c!"by", c!" ", c!"author", c!" ", c!"abc"]] := by
  refine ⟨fun l hl s hs => ?_, by decide⟩
  have hl : l ∈ [[c!"some", c!" ", c!"title"]] := hl
  rw [List.mem_singleton] at hl
  subst hl
  cases hs
  decide

/-- The files written, as text. -/
def againFiles (l : List (Option Elem)) : List (Option Str) := l.map (fun e => e.map exXml)

/-- Both files get the same labels, which stay the same with each further run. -/
example : ∀ b : Bool, againFiles (runAgain .header exAgainArgs exToolCfg 3 (exAgainRoot b)) =
    List.replicate 3 (some c!"<tei><text><front><title>some title<lb></lb></title></front>by author<front> <name>abc</name></front></text></tei>") := by
  intro b
  cases b <;> decide +kernel

/-- C129 is violated if references without tags are removed: each run writes the text twice as often. -/
theorem C129_text_grows : ∃ a cfg root, (findAll cfg.containerPath root).length = 1 ∧
    (runAgain (.reference false false true) a cfg 3 root).map (fun e => e.map Spec.outerText) =
      [some c!"onetwoonetwo", some c!"onetwoonetwoonetwoonetwo",
        some c!"onetwoonetwoonetwoonetwoonetwoonetwoonetwoonetwo"] :=
  ⟨{}, exRefCfg, exRefRoot, by decide +kernel⟩

/-- If a field is always preserved, a further run may label another occurrence of the value, so that there are two titles. -/
theorem C129_kept_field_found_again : ∃ (a : ToolArgs) (root : Elem), a.alwaysPreserve = [c!"title"] ∧
    againFiles (runAgain .header a exToolCfg 2 root) =
      [some c!"<tei><text><front><title>some title<lb></lb></title></front>by some title</text></tei>",
       some c!"<tei><text><front><title>some title<lb></lb></title><title>by some title</title></front></text></tei>"] :=
  ⟨{ targets := [⟨c!"title", .one c!"some title", []⟩], alwaysPreserve := [c!"title"] },
    .mk c!"tei" [] none [.mk c!"text" [] (some c!"some title") [.mk c!"lb" [] none [] (some c!"by some title")] none] none,
    rfl, by decide +kernel⟩

end Verif
