/-
Properties C10, C34 and C92: exact forms. The text of the file written for any number of containers and with the removal of
untagged text, and the main tags after annotating sub tags only.
-/
import Verif.Props.Tools
import Verif.Props.Removed
import Verif.Spec.ExactForms

namespace Verif
open Spec Props

/-! ### The text around the first container -/

theorem replaceFirst_around (path : List Str) : ∀ (e c : Elem) (rest : List Elem), findAll path e = c :: rest →
    ∃ before after, outerText e = before ++ outerText c ++ after ∧
      ∀ new, ∃ e', replaceFirst (fun _ => new) path e = some e' ∧ outerText e' = before ++ outerText new ++ after := by
  induction path with
  | nil =>
    intro e c rest h
    simp only [findAll, List.cons.injEq] at h
    exact ⟨[], [], by simp [h.1], fun new => ⟨new, rfl, by simp⟩⟩
  | cons t ts ih =>
    rintro ⟨tg, a, x, cs, tl⟩ c rest h
    simp only [findAll, Elem.children] at h
    have key : ∀ cs : List Elem, (cs.filter (fun c => c.tag = t)).flatMap (findAll ts) = c :: rest →
        ∃ before after, itertextList cs = before ++ outerText c ++ after ∧
          ∀ new, ∃ cs', replaceChild t (replaceFirst (fun _ => new) ts) cs = some cs' ∧
            itertextList cs' = before ++ outerText new ++ after := by
      intro cs
      induction cs with
      | nil => intro h; cases h
      | cons d cs ihc =>
        intro h
        by_cases hd : d.tag = t
        · simp only [List.filter_cons, hd, decide_true, if_true, List.flatMap_cons] at h
          cases hfd : findAll ts d with
          | nil =>
            rw [hfd] at h
            obtain ⟨b, f, h1, h2⟩ := ihc h
            refine ⟨outerText d ++ b, f, by rw [itertextList_cons, h1]; simp [outerText], fun new => ?_⟩
            obtain ⟨cs', h3, h4⟩ := h2 new
            refine ⟨d :: cs', ?_, by rw [itertextList_cons, h4]; simp [outerText]⟩
            rw [replaceChild, if_pos hd, (replaceFirst_text new ts d).2 hfd, h3]
            rfl
          | cons c0 r0 =>
            rw [hfd] at h
            simp only [List.cons_append, List.cons.injEq] at h
            obtain ⟨b, f, h1, h2⟩ := ih d c r0 (by rw [hfd, h.1])
            refine ⟨b, f ++ itertextList cs, ?_, fun new => ?_⟩
            · rw [itertextList_cons]
              unfold outerText at h1 ⊢
              rw [h1]
              simp
            · obtain ⟨d', h3, h4⟩ := h2 new
              refine ⟨d' :: cs, by rw [replaceChild, if_pos hd, h3], ?_⟩
              rw [itertextList_cons]
              unfold outerText at h4 ⊢
              rw [h4]
              simp
        · simp only [List.filter_cons, hd, decide_false, Bool.false_eq_true, if_false] at h
          obtain ⟨b, f, h1, h2⟩ := ihc h
          refine ⟨outerText d ++ b, f, by rw [itertextList_cons, h1]; simp [outerText], fun new => ?_⟩
          obtain ⟨cs', h3, h4⟩ := h2 new
          refine ⟨d :: cs', ?_, by rw [itertextList_cons, h4]; simp [outerText]⟩
          rw [replaceChild, if_neg hd, h3]
          rfl
    obtain ⟨b, f, h1, h2⟩ := key cs h
    refine ⟨orEmpty x ++ b, f ++ orEmpty tl, by simp [outerText, itertext, h1, Elem.tail], fun new => ?_⟩
    obtain ⟨cs', h3, h4⟩ := h2 new
    exact ⟨.mk tg a x cs' tl, by rw [replaceFirst, h3]; rfl, by simp [outerText, itertext, h4, Elem.tail]⟩

/-- **C10.** The text written for any document: the text of its lines instead of the text of the first container (with the text
behind it); the text before and after is that of the source file. -/
theorem C10_written (cfg : DocCfg) (root c : Elem) (rest : List Elem) (hc : findAll cfg.containerPath root = c :: rest) :
    ∃ before after, outerText root = before ++ outerText c ++ after ∧
      ∀ d root', docRoot cfg root d = .ok root' → outerText root' = before ++ (lineTexts d).flatten ++ after := by
  obtain ⟨b, f, h1, h2⟩ := replaceFirst_around cfg.containerPath root c rest hc
  refine ⟨b, f, h1, fun d root' hs => ?_⟩
  unfold docRoot updatedTei at hs
  rw [hc] at hs
  simp only at hs
  split at hs
  · cases hs
  · next g hg =>
    obtain ⟨e', h3, h4⟩ := h2 g.close
    rw [h3] at hs
    obtain rfl := Except.ok.inj hs
    rw [h4]
    have h5 := linesToTei_text _ _ _ _ hg
    have h6 : outerText g.close = (lineTexts d).flatten := by
      have e : outerText g.close = itertext g.close := by simp [outerText, Frame.close, Elem.tail, orEmpty]
      rw [e, h5, flatten_flatMap_text]
      simp [Frame.close, itertext, itertextList, orEmpty, Doc.lineToks, lineTexts, Function.comp_def, List.flatMap_map]
    rw [h6]

/-- The text of the lines of a document which has been loaded. -/
theorem loaded_text {cfg : DocCfg} {root : Elem} {d d' : Doc} (hl : loadDoc cfg root = .ok d)
    (hlines : d'.lines = d.lines) (htext : ∀ i, (d'.tok i).text = (d.tok i).text) :
    (lineTexts d').flatten = (findAll cfg.containerPath root).flatMap outerText := by
  obtain ⟨lines, hlo, ht, _⟩ := C11_preserved cfg root d hl
  have e : lineTexts d' = lineTexts d := by
    unfold lineTexts
    rw [hlines]
    simp only [htext]
  rw [e, ht]
  have h2 := congrArg List.flatten (extractContainersFrom_lines cfg.cc _ (findAll cfg.containerPath root) Buf.empty lines hlo rfl)
  have e2 : lines.map toksText = lines.map (fun l => l.flatMap (·.text)) := rfl
  rw [← e2, h2]
  generalize findAll cfg.containerPath root = es
  induction es with
  | nil => rfl
  | cons x es ih =>
    rw [List.flatMap_cons, List.flatten_append, ih, List.flatMap_cons]
    congr 1
    simp [dropFinalEmpty_flatten, splitBreaks_flatten, outerText, flow_text, filterMap_chars]

/-- **C10**, exactly: a file which has been loaded, its labels changed in any way, and saved has the text of all containers at the
place of the first one, while the other ones stay. Its text is that of the source file if and only if the other containers
have no text. -/
theorem C10_exact (cfg : DocCfg) (root c root' : Elem) (rest : List Elem) (d d' : Doc)
    (hc : findAll cfg.containerPath root = c :: rest) (hl : loadDoc cfg root = .ok d)
    (hlines : d'.lines = d.lines) (htext : ∀ i, (d'.tok i).text = (d.tok i).text)
    (hs : docRoot cfg root d' = .ok root') :
    (∃ before after, outerText root = before ++ outerText c ++ after ∧
      outerText root' = before ++ outerText c ++ rest.flatMap outerText ++ after) ∧
    (outerText root' = outerText root ↔ ∀ x ∈ rest, outerText x = []) := by
  obtain ⟨b, f, h1, h2⟩ := C10_written cfg root c rest hc
  have h3 := h2 d' root' hs
  rw [loaded_text hl hlines htext, hc, List.flatMap_cons] at h3
  refine ⟨⟨b, f, h1, by rw [h3]; simp⟩, ?_⟩
  constructor
  · intro he
    have hlen := congrArg List.length he
    rw [h1, h3] at hlen
    simp only [List.length_append] at hlen
    have h0 : rest.flatMap outerText = [] := List.length_eq_zero_iff.1 (by omega)
    intro x hx
    exact List.flatMap_eq_nil_iff.1 h0 x hx
  · intro he
    rw [h1, h3, List.flatMap_eq_nil_iff.2 he]
    simp

/-- The two containers of `C10_several_containers_duplicate_text`. -/
example : ∃ c rest, findAll exDocCfg.containerPath (.mk c!"tei" [] none [.mk c!"text" [] (some c!"a") [] none,
      .mk c!"text" [] (some c!"b") [] none] none) = c :: rest ∧ rest.map outerText = [c!"b"] :=
  ⟨_, _, rfl, rfl⟩

/-! ### Main tags after annotating sub tags only -/

/-- **C34**, exactly: after annotating sub tags only, the main tag of each token is its label of the source file, whatever its main
tag was before. It is the same as before if and only if there was no main tag other than the label of the source file. -/
theorem C34_exact (preserveSub : Bool) (inner : Doc → Except Err Doc) (d d' : Doc)
    (hinner : ∀ d d', inner d = .ok d' → ∀ i, d'.getTag i = d.getTag i ∧ d'.getPreservedTag i = d.getPreservedTag i)
    (h : subTagOnlyAnnotate preserveSub inner d = .ok d') (i : Nat) (hi : i ∈ d.allTokens) :
    d'.getTag i = d.getPreservedTag i ∧ d'.getPreservedTag i = d.getPreservedTag i ∧
    (d'.getTagOrPreserved i = d.getTagOrPreserved i ↔ ¬ truthy (d.getTag i) = true ∨ d.getTag i = d.getPreservedTag i) := by
  unfold subTagOnlyAnnotate at h
  simp only at h
  let d1 := d.allTokens.foldl (fun d i =>
      let d' := d.setTagOnly i none
      if preserveSub then d' else d'.clearPreservedSubTag i) d
  have h1 : d1.getAttr i = _ := C34_aux_clear preserveSub d d.allTokens i
  rw [if_pos hi] at h1
  split at h
  · cases h
  next d2 hd2 =>
  obtain rfl := Except.ok.inj h
  have h2 := C34_aux_restore d2 d.allTokens i
  rw [if_pos hi] at h2
  have t1 : d1.getTag i = none := by
    unfold Doc.getTag; rw [h1, tagName_none]; simp
  have p1 : d1.getPreservedTag i = d.getPreservedTag i := by
    unfold Doc.getPreservedTag; rw [h1]
    simp only
    rw [if_neg]
    have : ¬ (scopedAttribName preservedTagAttribName none none = c!"tag") := by decide
    have : ¬ (scopedAttribName preservedTagAttribName none none = preservedSubTagAttribName) := by decide
    simp [*]
  have hi1 := hinner d1 d2 hd2 i
  have ht : tagOr none (d2.getAttr i) = d.getPreservedTag i := by
    show pyOr (d2.getTag i) (d2.getPreservedTag i) = _
    rw [hi1.1, hi1.2, t1, p1]; rfl
  have hp : scopedAttribName preservedTagAttribName none none ≠ c!"tag" := by decide
  have e1 : (d.allTokens.foldl (fun d i => d.setTagOnly i (d.getTagOrPreserved i)) d2).getTag i = d.getPreservedTag i := by
    show (List.foldl _ d2 d.allTokens).getAttr i (scopedAttribName tagAttribName none none) = _
    rw [h2, ht]
    simp [tagName_none]
  have e2 : (d.allTokens.foldl (fun d i => d.setTagOnly i (d.getTagOrPreserved i)) d2).getPreservedTag i = d.getPreservedTag i := by
    show (List.foldl _ d2 d.allTokens).getAttr i (scopedAttribName preservedTagAttribName none none) = _
    rw [h2]
    simp only [hp, if_false]
    rw [← p1, ← hi1.2]; rfl
  refine ⟨e1, e2, ?_⟩
  generalize d.allTokens.foldl (fun d i => d.setTagOnly i (d.getTagOrPreserved i)) d2 = x at e1 e2 ⊢
  unfold Doc.getTagOrPreserved
  rw [e1, e2]
  unfold pyOr
  rw [show (if truthy (d.getPreservedTag i) = true then d.getPreservedTag i else d.getPreservedTag i) = d.getPreservedTag i by
    split <;> rfl]
  by_cases ht : truthy (d.getTag i) = true
  · rw [if_pos ht]
    exact ⟨fun h => .inr h.symm, fun h => (h.resolve_left (fun hc => hc ht)).symm⟩
  · rw [if_neg ht]
    exact ⟨fun _ => .inl ht, fun _ => rfl⟩

/-- A token with a label of the source file, one with another main tag and one without any. -/
example : let d := Doc.ofLines [[exWord c!"a" [(c!"preserved_tag", c!"b-x")], exWord c!"b" [(c!"tag", c!"b-y"), (c!"preserved_tag", c!"i-x")],
      exWord c!"c" []]]
    d.allTokens.map (fun i => d.getTagOrPreserved i) = [some c!"b-x", some c!"b-y", none] ∧
    ∃ d', subTagOnlyAnnotate true .ok d = .ok d' ∧
      d'.allTokens.map (fun i => d'.getTagOrPreserved i) = [some c!"b-x", some c!"i-x", none] :=
  ⟨by decide +kernel, exists_of_okAnd (by decide +kernel)⟩

/-! ### The text written by the tools -/

/-- **C92**, for any number of containers: the file written has the text of all containers at the place of the first one; it has the text of
the source file if and only if the other containers have no text. -/
theorem C92_containers (env : ToolEnv) (a : ToolArgs) (t : Tool) (cfg : DocCfg) (passes : Doc → Except Err Bool) (root root' c : Elem)
    (rest : List Elem) (target path : Str) (failed : Option Str) (hr : ¬ Spec.removesText t)
    (hc : findAll cfg.containerPath root = c :: rest)
    (h : t.run env a cfg passes root target failed = .ok (some (path, root'))) :
    (∃ before after, outerText root = before ++ outerText c ++ after ∧
      outerText root' = before ++ outerText c ++ rest.flatMap outerText ++ after) ∧
    (outerText root' = outerText root ↔ ∀ x ∈ rest, outerText x = []) := by
  obtain ⟨d0, d', h0, h1, h2, _⟩ := run_steps h
  have hs : SameBut d0 d' := (C14_aux_sameBut _ _).trans (keeps_annotateAll _ (tool_keeps env a t hr) _ _ h1)
  exact C10_exact { cfg with preserveTags := true } root c root' rest d0 d' hc h0 hs.lines hs.text h2

theorem staying_congr {d x : Doc} (hs : SameBut d x) (ht : ∀ i, x.getTag i = d.getTag i) (ids : List Nat) :
    staying x ids = staying d ids := by
  unfold staying stays
  simp only [hs.isSpace, ht]

theorem annotateAll_append {D : Type} (as bs : List (D → Except Err D)) (d : D) :
    annotateAll (as ++ bs) d = match annotateAll as d with
      | .error e => .error e
      | .ok x => annotateAll bs x := by
  induction as generalizing d with
  | nil => rfl
  | cons a as ih =>
    rw [List.cons_append, annotateAll, annotateAll]
    cases a d with
    | error e => rfl
    | ok x => exact ih x

theorem removed_text (d : Doc) :
    (lineTexts d.removeAllUntagged).flatten = (List.replicate (linesWithText d) (textOf d (staying d d.allTokens))).flatten := by
  obtain ⟨h1, _, h3⟩ := C13_exact d
  unfold lineTexts
  rw [h1, h3, List.map_map, List.filter_map, List.map_map]
  unfold linesWithText
  congr 1
  rw [← List.map_const']
  rfl

/-- **C92**, exactly, for the removal of references or affiliations without labels: the text of the tokens which stay is written once for
each line up to which something stays, at the place of the container. Which tokens stay depends on the labels given without the removal. -/
theorem C92_removed (env : ToolEnv) (a : ToolArgs) (t : Tool) (cfg : DocCfg) (passes : Doc → Except Err Bool) (root root' c : Elem)
    (rest : List Elem) (target path : Str) (failed : Option Str) (hr : Spec.removesText t)
    (hc : findAll cfg.containerPath root = c :: rest)
    (h : t.run env a cfg passes root target failed = .ok (some (path, root'))) :
    ∃ d before after, loadAndAnnotate env a (withoutRemoval t) { cfg with preserveTags := true } root = .ok d ∧
      outerText root = before ++ outerText c ++ after ∧
      outerText root' = before ++ (List.replicate (linesWithText d) (textOf d (staying d d.allTokens))).flatten ++ after := by
  obtain ⟨d0, d', h0, h1, h2, _⟩ := run_steps h
  obtain ⟨b, f, hb, hw⟩ := C10_written cfg root c rest hc
  have hw' := hw d' root' h2
  cases t with
  | reference s p r =>
    have hr' : r = true := hr
    subst hr'
    have e : Tool.annotators env a (.reference s p true) =
        Tool.annotators env a (.reference s p false) ++ [total Doc.removeAllUntagged] := by
      simp [Tool.annotators, removeUntaggedIf]
    rw [e, annotateAll_append] at h1
    split at h1
    · cases h1
    · next d hd =>
      obtain rfl := Except.ok.inj h1
      refine ⟨d, b, f, ?_, hb, ?_⟩
      · unfold loadAndAnnotate
        rw [h0]
        have : Tool.annotateCfg a (withoutRemoval (.reference s p true)) = Tool.annotateCfg a (.reference s p true) := by
          cases s <;> rfl
        rw [this]
        exact hd
      · rw [hw', removed_text]
  | affiliation s r =>
    have hr' : r = true := hr
    subst hr'
    have e : Tool.annotators env a (.affiliation s true) =
        [matchOrSubTags env (simpleCfg a true true false) a.targets s] ++
          [total Doc.removeAllUntagged, total (mergeGroupTags addressGroup (some subLevel))] := rfl
    have e2 : Tool.annotators env a (.affiliation s false) =
        [matchOrSubTags env (simpleCfg a true true false) a.targets s] ++ [total (mergeGroupTags addressGroup (some subLevel))] := rfl
    rw [e, annotateAll_append] at h1
    split at h1
    · cases h1
    · next d hd =>
      obtain rfl := Except.ok.inj h1
      have hs0 : SameBut d0 d := (C14_aux_sameBut _ _).trans
        (keeps_annotateAll _ (fun g hg => tool_keeps env a (.affiliation s false) (by simp [Spec.removesText]) g (by rw [e2]; simp at hg ⊢; exact .inl hg)) _ _ hd)
      have hg := C25_group addressGroup (some subLevel) d (nodup_loadDoc h0 hs0).2
      have hsame := keeps_mergeGroupTags addressGroup (some subLevel) d
      have htag : ∀ i, (mergeGroupTags addressGroup (some subLevel) d).getTag i = d.getTag i := by
        intro i
        show (mergeGroupTags addressGroup (some subLevel) d).getAttr i _ = d.getAttr i _
        by_cases hi : i ∈ d.nonSpaceTokens
        · obtain ⟨pre, post, hp⟩ := List.append_of_mem hi
          rw [hg.2.2 pre i post hp]
          split
          · rw [if_neg (by decide)]
          · rfl
        · rw [hg.2.1 i hi]
      refine ⟨mergeGroupTags addressGroup (some subLevel) d, b, f, ?_, hb, ?_⟩
      · unfold loadAndAnnotate
        rw [h0]
        show annotateAll (Tool.annotators env a (.affiliation s false)) _ = _
        rw [e2, annotateAll_append]
        have : Tool.annotateCfg a (withoutRemoval (.affiliation s true)) = Tool.annotateCfg a (.affiliation s true) := by
          cases s <;> rfl
        rw [this, hd]
        rfl
      · rw [hw']
        have hk := keeps_mergeGroupTags addressGroup (some subLevel) d.removeAllUntagged
        have e3 : lineTexts (mergeGroupTags addressGroup (some subLevel) d.removeAllUntagged) = lineTexts d.removeAllUntagged := by
          unfold lineTexts
          rw [hk.lines]
          simp only [hk.text]
        have e4 : linesWithText (mergeGroupTags addressGroup (some subLevel) d) = linesWithText d := by
          unfold linesWithText
          rw [hsame.lines]
          simp only [staying_congr hsame htag]
        have e5 : textOf (mergeGroupTags addressGroup (some subLevel) d) (staying (mergeGroupTags addressGroup (some subLevel) d)
            (mergeGroupTags addressGroup (some subLevel) d).allTokens) = textOf d (staying d d.allTokens) := by
          unfold textOf
          rw [staying_congr hsame htag]
          unfold Doc.allTokens
          rw [hsame.lines]
          simp only [hsame.text]
        rw [e4, e5, ← removed_text]
        exact congrArg (fun x => b ++ List.flatten x ++ f) e3
  | _ => exact absurd hr (by simp [Spec.removesText])

/-- The references of `C92_removing_repeats_text`: both stay, on two lines. -/
example : ∃ d, loadAndAnnotate exToolEnv {} (withoutRemoval (.reference false false true)) exRefCfg exRefRoot = .ok d ∧
    (linesWithText d = 2 ∧ textOf d (staying d d.allTokens) = c!"onetwo") :=
  exists_of_okAnd (by decide +kernel)

end Verif
