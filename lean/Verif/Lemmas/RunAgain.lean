/-
Documents all of whose labels are removed before the annotators run depend on the texts of their tokens only.
-/
import Verif.Lemmas.ReloadTokens
import Verif.Lemmas.PostAnnotators
import Verif.Props.ToolLabels

namespace Verif
open Spec

/-! ### Tokens without labels -/

/-- A token without labels. -/
def unlabelled (t : Tok) : Tok := { t with attrib := [] }

/-- The tokens, newest first, made of texts; `next` is the text behind them. -/
def bareRev (cc : CharClass) (next : Option Str) : List Str → List Tok
  | [] => []
  | s :: r =>
    ⟨s, (strip cc s).isEmpty, [], next.map (fun n => if (strip cc n).isEmpty then n else [])⟩ :: bareRev cc (some s) r

/-- The tokens of a line made of texts. -/
def bareLine (cc : CharClass) (l : List Str) : List Tok := (bareRev cc none l.reverse).reverse

/-- A token has labels of the file only. -/
def LoadedAttrib (t : Tok) : Prop := ∀ m, m ≠ tagAttribName → m ≠ subTagAttribName → t.attrib.get? m = none

/-- The tokens of a buffer are those made of their texts, up to labels. -/
def BareBuf (cc : CharClass) (rev : List Tok) : Prop :=
  rev.map unlabelled = bareRev cc none (rev.map (·.text)) ∧ ∀ t ∈ rev, LoadedAttrib t

/-- The tokens of a line are those made of their texts, up to labels. -/
def BareToks (cc : CharClass) (l : List Tok) : Prop :=
  l.map unlabelled = bareLine cc (l.map (·.text)) ∧ ∀ t ∈ l, LoadedAttrib t

theorem bareBuf_nil (cc : CharClass) : BareBuf cc [] := ⟨rfl, fun _ h => absurd h List.not_mem_nil⟩

theorem bareBuf_toks {cc : CharClass} {rev : List Tok} (h : BareBuf cc rev) : BareToks cc rev.reverse := by
  refine ⟨?_, fun t ht => h.2 t (List.mem_reverse.1 ht)⟩
  unfold bareLine
  rw [List.map_reverse, h.1, List.map_reverse, List.reverse_reverse]

theorem loadedAttrib_toTextToken (cc : CharClass) (s : Str) (tag sub : Option Str) : LoadedAttrib (toTextToken cc s tag sub) := by
  intro m h1 h2
  unfold toTextToken
  cases tag <;> cases sub <;> simp [Dict.set, Dict.get?, Ne.symm h1, Ne.symm h2]
  · split <;> simp [Dict.get?, Ne.symm h1, Ne.symm h2]

theorem bareBuf_appendToken {cc : CharClass} {b : Buf} (h : BareBuf cc b.rev) (s : Str) :
    BareBuf cc (b.appendToken cc s).rev := by
  unfold Buf.appendToken
  simp only
  cases hr : b.rev with
  | nil =>
    refine ⟨rfl, fun t ht => ?_⟩
    rw [List.mem_singleton] at ht
    rw [ht]; exact loadedAttrib_toTextToken _ _ _ _
  | cons t ts =>
    rw [hr] at h
    obtain ⟨h1, h2⟩ := h
    simp only [List.map_cons, bareRev, List.cons.injEq] at h1
    refine ⟨?_, ?_⟩
    · simp only [List.map_cons, bareRev, List.cons.injEq]
      refine ⟨rfl, ?_, h1.2⟩
      have := h1.1
      unfold unlabelled at this ⊢
      simp only [Tok.mk.injEq] at this ⊢
      exact ⟨trivial, this.2.1, trivial, rfl⟩
    · intro u hu
      rcases List.mem_cons.1 hu with rfl | hu
      · exact loadedAttrib_toTextToken _ _ _ _
      · rcases List.mem_cons.1 hu with rfl | hu
        · exact h2 t (List.mem_cons_self ..)
        · exact h2 u (List.mem_cons_of_mem _ hu)

theorem bareBuf_appendTokens {cc : CharClass} (ss : List Str) : ∀ {b : Buf}, BareBuf cc b.rev → BareBuf cc (b.appendTokens cc ss).rev := by
  induction ss with
  | nil => exact fun h => h
  | cons s ss ih => exact fun h => ih (bareBuf_appendToken h s)

theorem bareBuf_appendText {cc : CharClass} {b : Buf} (h : BareBuf cc b.rev) (s : Option Str) : BareBuf cc (b.appendText cc s).rev := by
  unfold Buf.appendText
  split
  · exact h
  · split
    · exact h
    · exact bareBuf_appendTokens _ h

mutual
theorem bare_extractElem (cc : CharClass) (rp : List Str) : ∀ (e : Elem) (path : List Str) (b : Buf) (r : List (List Tok) × Buf),
    extractElem cc rp e path b = .ok r → BareBuf cc b.rev → (∀ l ∈ r.1, BareToks cc l) ∧ BareBuf cc r.2.rev
  | .mk tag a text children tail, path, b, r, h, hb => by
    rw [extractElem.eq_1] at h
    simp only at h
    split at h
    · cases h
    · next lines b3 hch =>
      cases h
      have hb1 : BareBuf cc ((if (hasDirectText cc text children || (pathTag path).any fun t => rp.contains t) = true then
          if truthy b.nextTag = true then b.setNextSub (pathTag path) else b.setNextTag (pathTag path)
        else b).appendText cc text).rev := by
        apply bareBuf_appendText
        split
        · split
          · exact hb
          · exact hb
        · exact hb
      obtain ⟨g1, g2⟩ := bare_extractChildren cc rp children path _ _ hch hb1
      refine ⟨g1, bareBuf_appendText ?_ _⟩
      split
      · exact g2
      · exact g2
theorem bare_extractChildren (cc : CharClass) (rp : List Str) : ∀ (es : List Elem) (path : List Str) (b : Buf) (r : List (List Tok) × Buf),
    extractChildren cc rp es path b = .ok r → BareBuf cc b.rev → (∀ l ∈ r.1, BareToks cc l) ∧ BareBuf cc r.2.rev
  | [], _, b, r, h, hb => by
    rw [extractChildren.eq_1] at h
    cases h
    exact ⟨fun _ h => absurd h List.not_mem_nil, hb⟩
  | .mk tag a text children tail :: es, path, b, r, h, hb => by
    rw [extractChildren.eq_2] at h
    split at h
    · cases h
    · split at h
      · cases h
      · next lines1 b2 h1 =>
        split at h
        · cases h
        · next lines2 b3 h2 =>
          cases h
          have hb1 : BareBuf cc (if tag = lbTag then b.flush.2 else b).rev := by
            split
            · exact bareBuf_nil cc
            · exact hb
          obtain ⟨g1, g2⟩ := bare_extractElem cc rp (.mk tag a text children tail) _ _ _ h1 hb1
          obtain ⟨g3, g4⟩ := bare_extractChildren cc rp es _ _ _ h2 g2
          refine ⟨fun l hl => ?_, g4⟩
          simp only [List.mem_append] at hl
          rcases hl with (hl | hl) | hl
          · split at hl
            · rw [List.mem_singleton] at hl
              rw [hl]; exact bareBuf_toks hb
            · exact absurd hl List.not_mem_nil
          · exact g1 l hl
          · exact g3 l hl
end

theorem bare_extractContainersFrom (cc : CharClass) (rp : List Str) (es : List Elem) : ∀ (b : Buf) (ls : List (List Tok)),
    extractContainersFrom cc rp es b = .ok ls → BareBuf cc b.rev → ∀ l ∈ ls, BareToks cc l := by
  induction es with
  | nil => intro b ls h _ l hl; simp only [extractContainersFrom] at h; cases h; cases hl
  | cons e es ih =>
    intro b ls h hb l hl
    simp only [extractContainersFrom] at h
    split at h
    · cases h
    · next lines b1 h1 =>
      split at h
      · cases h
      · next rest h2 =>
        cases h
        obtain ⟨g1, g2⟩ := bare_extractElem cc rp e _ _ _ h1 hb
        simp only [List.mem_append] at hl
        rcases hl with (hl | hl) | hl
        · exact g1 l hl
        · split at hl
          · cases hl
          · rw [List.mem_singleton] at hl
            rw [hl]; exact bareBuf_toks g2
        · refine ih _ _ h2 ?_ l hl
          split
          · exact g2
          · exact bareBuf_nil cc

theorem bareLine_lines {cc : CharClass} {ls : List (List Tok)} (h : ∀ l ∈ ls, BareToks cc l) :
    ls.map (fun l => l.map unlabelled) = (ls.map (fun l => l.map (·.text))).map (bareLine cc) := by
  rw [List.map_map]
  exact List.map_congr_left fun l hl => (h l hl).1

/-! ### Documents without labels -/

theorem number_length (n : Nat) (ls ls' : List (List Tok)) (h : ls.map List.length = ls'.map List.length) :
    Doc.number n ls = Doc.number n ls' := by
  induction ls generalizing n ls' with
  | nil => cases ls' with
    | nil => rfl
    | cons _ _ => cases h
  | cons l ls ih => cases ls' with
    | nil => cases h
    | cons l' ls' =>
      simp only [List.map_cons, List.cons.injEq] at h
      simp only [Doc.number]
      rw [h.1, ih _ _ h.2]

theorem getD_map_unlabelled (toks : List Tok) (i : Nat) :
    (toks.map unlabelled).getD i ⟨[], false, [], none⟩ = unlabelled (toks.getD i ⟨[], false, [], none⟩) := by
  simp only [List.getD_eq_getElem?_getD, List.getElem?_map]
  cases toks[i]? <;> rfl

theorem get?_eq_nil {β : Type} {d : Dict β} (h : ∀ k, d.get? k = none) : d = [] := by
  cases d with
  | nil => rfl
  | cons p d =>
    have := h p.1
    simp [Dict.get?] at this

/-- A document with the given lines and without labels. -/
theorem eq_ofLines_unlabelled {lines : List (List Tok)} {d : Doc} (hs : SameBut (Doc.ofLines lines) d)
    (ha : ∀ j m, d.getAttr j m = none) : d = Doc.ofLines (lines.map (fun l => l.map unlabelled)) := by
  have htok : d.tok = (Doc.ofLines (lines.map (fun l => l.map unlabelled))).tok := by
    funext j
    have e : (Doc.ofLines (lines.map (fun l => l.map unlabelled))).tok j = unlabelled ((Doc.ofLines lines).tok j) := by
      show (lines.map (fun l => l.map unlabelled)).flatten.getD j _ = unlabelled (lines.flatten.getD j _)
      rw [← List.map_flatten]
      exact getD_map_unlabelled _ _
    rw [e]
    have h1 := hs.text j
    have h2 := hs.isSpace j
    have h3 := hs.whitespace j
    have h4 : (d.tok j).attrib = [] := get?_eq_nil (fun m => ha j m)
    generalize d.tok j = t at *
    generalize (Doc.ofLines lines).tok j = u at *
    cases t; cases u
    simp only at h1 h2 h3 h4
    subst h1 h2 h3 h4
    rfl
  have hnum : Doc.number 0 (lines.map (fun l => l.map unlabelled)) = Doc.number 0 lines := by
    refine number_length _ _ _ ?_
    rw [List.map_map]
    exact List.map_congr_left fun l _ => by simp
  have hlof : d.lineOf = (Doc.ofLines (lines.map (fun l => l.map unlabelled))).lineOf := by
    rw [hs.lineOf]
    unfold Doc.ofLines
    rw [hnum]
  have hlines : d.lines = (Doc.ofLines (lines.map (fun l => l.map unlabelled))).lines := by
    rw [hs.lines]
    show (Doc.number 0 lines).map (fun l => (⟨l, l.filter (fun i => !((Doc.ofLines lines).tok i).isSpace)⟩ : Line)) =
      (Doc.number 0 (lines.map (fun l => l.map unlabelled))).map
        (fun l => (⟨l, l.filter (fun i => !((Doc.ofLines (lines.map (fun l => l.map unlabelled))).tok i).isSpace)⟩ : Line))
    rw [hnum, ← htok]
    refine List.map_congr_left fun l _ => ?_
    congr 2
    funext i
    rw [hs.isSpace i]
  cases d
  simp only at htok hlof hlines
  rw [htok, hlof, hlines]

/-! ### Loaded documents -/

theorem getAttr_foldl_other {f : Doc → Nat → Doc} {m : Str} (hf : ∀ d i j, (f d i).getAttr j m = d.getAttr j m) (ids : List Nat) :
    ∀ (d : Doc) (j : Nat), (ids.foldl f d).getAttr j m = d.getAttr j m := by
  induction ids with
  | nil => intro _ _; rfl
  | cons i ids ih => intro d j; rw [List.foldl_cons, ih, hf]

theorem getAttr_setAttr_other (d : Doc) (i j : Nat) {m n : Str} (v : Option Str) (h : m ≠ n) :
    (d.setAttr i n v).getAttr j m = d.getAttr j m := by
  rw [getAttr_setAttr, if_neg (fun hh => h hh.2)]

/-- A loaded document has no attributes other than the four for tags. -/
theorem loaded_other {cfg : DocCfg} {root : Elem} {d : Doc} (hl : loadDoc cfg root = .ok d) (j : Nat) (m : Str)
    (h1 : m ≠ tagAttribName) (h2 : m ≠ subTagAttribName) (h3 : m ≠ preservedTagAttribName)
    (h4 : m ≠ preservedSubTagAttribName) : d.getAttr j m = none := by
  unfold loadDoc at hl
  split at hl
  · cases hl
  · next lines hlo =>
    simp only [Except.ok.injEq] at hl
    have hbare := bare_extractContainersFrom cfg.cc _ _ _ _ hlo (bareBuf_nil _)
    have h0 : (Doc.ofLines lines).getAttr j m = none := by
      show (lines.flatten.getD j ⟨[], false, [], none⟩).attrib.get? m = none
      rw [List.getD_eq_getElem?_getD]
      cases hj : lines.flatten[j]? with
      | none => rfl
      | some t =>
        obtain ⟨l, hl, ht⟩ := List.mem_flatten.1 (List.mem_of_getElem? hj)
        exact (hbare l hl).2 t ht m h1 h2
    rw [← hl]
    unfold Doc.resetCurrentTags
    rw [getAttr_foldl_other (fun d i j => by
      unfold Doc.setTagOnly Doc.setSubTagOnly
      rw [getAttr_setAttr_other _ _ _ _ h2]
      exact getAttr_setAttr_other _ _ _ _ h1)]
    split
    · unfold Doc.preserveCurrentTags
      rw [getAttr_foldl_other (fun d i j => by
        unfold Doc.preserveToken Doc.setPreservedTag
        simp only
        refine (getAttr_setAttr_other _ _ _ _ ?_).trans (getAttr_setAttr_other _ _ _ _ ?_)
        · exact h4
        · exact h3)]
      exact h0
    · exact h0

theorem getAttr_setTag_other (d : Doc) (i j : Nat) (tag : Option Str) {m : Str}
    (h1 : m ≠ tagAttribName) (h3 : m ≠ preservedTagAttribName) (h4 : m ≠ preservedSubTagAttribName) :
    (d.setTag i tag).getAttr j m = d.getAttr j m := by
  have hclear : ∀ (d : Doc) (l : Option Nat), m ≠ scopedAttribName preservedTagAttribName none l →
      (d.clearSamePreserved i l).getAttr j m = d.getAttr j m := by
    intro d l hm
    unfold Doc.clearSamePreserved
    simp only
    split
    · exact getAttr_foldl_other (fun d i j => by
        split
        · exact getAttr_setAttr_other _ _ _ _ hm
        · rfl) _ _ _
    · rfl
  have hset : (d.setTagOnly i tag).getAttr j m = d.getAttr j m := getAttr_setAttr_other _ _ _ _ h1
  unfold Doc.setTag
  simp only
  split
  · exact hset
  · split
    · rw [if_pos trivial, hclear _ (some subLevel) h4, hclear _ none h3]; exact hset
    · exact hset

/-- Attributes other than those for tags stay as they are. -/
theorem before_other (cfg : AnnotateCfg) (d : Doc) (j : Nat) (m : Str)
    (h1 : m ≠ tagAttribName) (h2 : m ≠ subTagAttribName) (h3 : m ≠ preservedTagAttribName)
    (h4 : m ≠ preservedSubTagAttribName) : (beforeAnnotator cfg d).getAttr j m = d.getAttr j m := by
  have hmap : ∀ (fn : Option Str → Option Str) (l : Option Nat) (d : Doc), l = none ∨ l = some subLevel →
      (mapTokenTags fn l d).getAttr j m = d.getAttr j m := by
    intro fn l d hl
    refine getAttr_foldl_other (fun d i j => ?_) _ _ _
    unfold mapTokenTagsStep
    simp only
    split
    · unfold Doc.clearPreservedTagOnly Doc.setTagOnly
      rcases hl with rfl | rfl
      · exact (getAttr_setAttr_other _ _ _ _ h3).trans (getAttr_setAttr_other _ _ _ _ h1)
      · exact (getAttr_setAttr_other _ _ _ _ h4).trans (getAttr_setAttr_other _ _ _ _ h2)
    · rfl
  have happly : (applyPreservedFields cfg.preserveFields d).getAttr j m = d.getAttr j m := by
    refine getAttr_foldl_other (fun d i j => ?_) _ _ _
    unfold applyPreservedStep
    simp only
    split
    · exact getAttr_setTag_other _ _ _ _ h1 h3 h4
    · rfl
  unfold beforeAnnotator prepareDoc
  simp only
  have hb : (if cfg.preserveFields.isEmpty = true then d else applyPreservedFields cfg.preserveFields d).getAttr j m = d.getAttr j m := by
    split
    · rfl
    · exact happly
  split
  · rw [hmap _ _ _ (.inr rfl), hmap _ _ _ (.inl rfl)]; exact hb
  · split
    · rw [hmap _ _ _ (.inr rfl), hmap _ _ _ (.inl rfl)]; exact hb
    · rw [hmap _ _ _ (.inl rfl)]; exact hb

/-- If no label of the file is to be kept, the document just before the annotators run is made of the texts of the tokens. -/
theorem before_bare {dc : DocCfg} {root : Elem} {d : Doc} (hl : loadDoc dc root = .ok d) (cfg : AnnotateCfg)
    (hm : ∀ j ∈ d.allTokens, ∀ v, stripTagPrefix (d.getPreservedTag j) = some v → ¬ Spec.keepMain cfg (some v))
    (hs : ∀ j ∈ d.allTokens, ∀ v, stripTagPrefix (d.getPreservedTag j (some subLevel)) = some v → ¬ Spec.keepSub cfg (some v)) :
    beforeAnnotator cfg d = Doc.ofLines ((tokenTexts d).map (bareLine dc.cc)) := by
  obtain ⟨lines, hlo, htx⟩ := loadDoc_texts dc root d hl
  have hbare := bare_extractContainersFrom dc.cc _ _ _ _ hlo (bareBuf_nil _)
  have hsame : SameBut (Doc.ofLines lines) d := by
    unfold loadDoc at hl
    rw [hlo] at hl
    simp only [Except.ok.injEq] at hl
    rw [← hl]
    refine SameBut.trans ?_ (sameBut_resetCurrentTags _)
    split
    · exact sameBut_preserveCurrentTags _ _
    · exact .refl _
  rw [htx, ← bareLine_lines hbare]
  refine eq_ofLines_unlabelled (hsame.trans (Props.C14_aux_sameBut _ _)) (fun j m => ?_)
  by_cases hj : j ∈ d.allTokens
  · have t1 : d.getTag j = none := loaded_no_tag hl j hj
    have t2 : d.getTag j (some subLevel) = none := loaded_no_sub_tag hl j hj
    have p1 : d.getTagOrPreserved j = d.getPreservedTag j := by unfold Doc.getTagOrPreserved; rw [t1]; rfl
    have p2 : d.getTagOrPreserved j (some subLevel) = d.getPreservedTag j (some subLevel) := by
      unfold Doc.getTagOrPreserved; rw [t2]; rfl
    have strip_none : ∀ x : Option Str, stripTagPrefix x = none → x = none := by
      intro x hx
      rcases splitTagPrefix_cases x with ⟨v, rfl, h⟩ | ⟨v, rfl, h⟩ | ⟨_, _, h⟩
      · rw [stripTagPrefix, h] at hx; cases hx
      · rw [stripTagPrefix, h] at hx; cases hx
      · rw [stripTagPrefix, h] at hx; exact hx
    obtain ⟨_, hk, hnk, _, hks, hnks⟩ := Props.C14_before_annotation cfg d j hj
    have b1 : (beforeAnnotator cfg d).getTagOrPreserved j = none := by
      by_cases hkeep : Spec.keepMain cfg (stripTagPrefix (d.getTagOrPreserved j))
      · rw [hk hkeep]
        cases hv : stripTagPrefix (d.getTagOrPreserved j) with
        | none => exact strip_none _ hv
        | some v =>
          rw [hv] at hkeep
          rw [p1] at hv
          exact absurd hkeep (hm j hj v hv)
      · exact hnk hkeep
    have b2 : (beforeAnnotator cfg d).getTagOrPreserved j (some subLevel) = none := by
      by_cases hkeep : Spec.keepSub cfg (stripTagPrefix (d.getTagOrPreserved j (some subLevel)))
      · rw [hks hkeep]
        cases hv : stripTagPrefix (d.getTagOrPreserved j (some subLevel)) with
        | none => exact strip_none _ hv
        | some v =>
          rw [hv] at hkeep
          rw [p2] at hv
          exact absurd hkeep (hs j hj v hv)
      · exact hnks hkeep
    have pyOr_none : ∀ x y : Option Str, pyOr x y = none → y = none := by
      intro x y h
      unfold pyOr at h
      split at h
      · next ht => rw [h] at ht; cases ht
      · exact h
    have q1 : (beforeAnnotator cfg d).getPreservedTag j = none := pyOr_none _ _ b1
    have q2 : (beforeAnnotator cfg d).getPreservedTag j (some subLevel) = none := pyOr_none _ _ b2
    have q3 : (beforeAnnotator cfg d).getTag j = none := by
      rcases before_tags cfg d j hj t1 with h | h
      · exact h
      · rw [h, q1]
    have q4 : (beforeAnnotator cfg d).getSubTag j = none := before_sub_tag cfg j hj t2
    by_cases h1 : m = tagAttribName
    · rw [h1]; exact q3
    · by_cases h2 : m = subTagAttribName
      · rw [h2]; exact q4
      · by_cases h3 : m = preservedTagAttribName
        · rw [h3]; exact q1
        · by_cases h4 : m = preservedSubTagAttribName
          · rw [h4]; exact q2
          · rw [before_other cfg d j m h1 h2 h3 h4]
            exact loaded_other hl j m h1 h2 h3 h4
  · exact before_outside cfg (fun j hj m => loaded_outside hl j hj m) j hj m

end Verif
