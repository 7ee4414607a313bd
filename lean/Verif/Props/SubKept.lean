/-
Property C123: sub labels of the file which are to be kept.
-/
import Verif.Lemmas.SubKept
import Verif.Lemmas.SubExact
import Verif.Props.ToolLabels
import Verif.Props.ReplaceTags

namespace Verif

namespace Spec

/-- The tools with the option to keep the sub labels of the file. -/
def keepsSubLabels : Tool → Prop
  | .figure _ => True
  | .table _ => True
  | .affiliation _ _ => True
  | _ => False

/-- Two tokens are on one line of a document. -/
def OnOneLine (d : Doc) (i j : Nat) : Prop := ∃ line ∈ d.lines, i ∈ line.tokens ∧ j ∈ line.tokens

/-- A word on the line of token `i`, which had the sub label `v` in `d0`, has got one of another field. -/
def SubLabelLost (d0 d' : Doc) (i : Nat) (v : Str) : Prop :=
  ∃ j, OnOneLine d0 i j ∧ (d0.tok j).isSpace = false ∧ tagValue (d0.getPreservedTag j (some subLevel)) = some v ∧
    truthy (d'.getSubTag j) = true ∧ tagValue (d'.getSubTag j) ≠ some v

end Spec

theorem onOneLine_loaded {dc : DocCfg} {root : Elem} {d : Doc} (hl : loadDoc dc root = .ok d) {i j : Nat} (h : i ∈ d.lineOf j) :
    Spec.OnOneLine d i j := by
  obtain ⟨lines, hs⟩ := sameBut_loadDoc hl
  rw [hs.lineOf] at h
  have e : (Doc.ofLines lines).lineOf j = ((Doc.number 0 lines).find? (fun l => l.contains j)).getD [] := rfl
  rw [e] at h
  cases hf : (Doc.number 0 lines).find? (fun l => l.contains j) with
  | none => rw [hf] at h; cases h
  | some x =>
    rw [hf] at h
    have hx := List.mem_of_find?_eq_some hf
    refine ⟨⟨x, x.filter (fun i => !((Doc.ofLines lines).tok i).isSpace)⟩, ?_, h, by simpa using List.find?_some hf⟩
    rw [hs.lines]
    exact List.mem_map.2 ⟨x, hx, rfl⟩

theorem tool_keepsSub (env : ToolEnv) (a : ToolArgs) (t : Tool) (ht : Spec.keepsSubLabels t) (hn : ∀ t ∈ a.targets, ∀ s ∈ t.subs, s.1 ≠ [])
    (b d' : Doc) (h : annotateAll (t.annotators env a) b = .ok d') : SubKept b d' := by
  have key : ∀ seg d1, matchOrSubTags env (simpleCfg a true true false) a.targets seg b = .ok d1 → SubKept b d1 :=
    fun seg d1 h => (keepsSub_matchOrSubTags env _ _ seg rfl rfl hn b b d1 h rfl (.refl b)).1
  cases t with
  | figure seg =>
    unfold Tool.annotators annotateAll at h
    split at h
    · cases h
    · next d1 h1 => cases h; exact key seg _ h1
  | table seg =>
    unfold Tool.annotators annotateAll at h
    split at h
    · cases h
    · next d1 h1 => cases h; exact key seg _ h1
  | affiliation seg r =>
    unfold Tool.annotators annotateAll at h
    simp only [List.cons_append, List.nil_append] at h
    split at h
    · cases h
    · next d1 h1 =>
      have h2 := key seg d1 h1
      cases r with
      | false => cases h; exact subKept_mergeGroup _ h2
      | true => cases h; exact subKept_mergeGroup _ (subKept_remove h2)
  | header => cases ht
  | referenceSegmenter => cases ht
  | segmentation _ _ => cases ht
  | fulltext _ _ _ => cases ht
  | reference _ _ _ => cases ht

/-- The sub labels to be kept, before the annotators. -/
theorem before_sub_kept {cfg : AnnotateCfg} {dc : DocCfg} {root : Elem} {d0 : Doc} (hl : loadDoc dc root = .ok d0) :
    ∀ j ∈ d0.allTokens,
      (Spec.keepSub cfg (stripTagPrefix (d0.getPreservedTag j (some subLevel))) →
        (beforeAnnotator cfg d0).getAttr j keptAttr = d0.getPreservedTag j (some subLevel)) ∧
      (¬ Spec.keepSub cfg (stripTagPrefix (d0.getPreservedTag j (some subLevel))) →
        (beforeAnnotator cfg d0).getAttr j keptAttr = none) := by
  intro j hj
  have hn := loaded_no_sub_tag hl j hj
  have hor : d0.getTagOrPreserved j (some subLevel) = d0.getPreservedTag j (some subLevel) := by
    unfold Doc.getTagOrPreserved
    have : d0.getTag j (some subLevel) = none := hn
    rw [this]; rfl
  obtain ⟨_, _, _, _, hk, hnk⟩ := Props.C14_before_annotation cfg d0 j hj
  have hbn := before_sub_tag cfg j hj hn
  have hbor : (beforeAnnotator cfg d0).getTagOrPreserved j (some subLevel) =
      (beforeAnnotator cfg d0).getAttr j keptAttr := by
    unfold Doc.getTagOrPreserved
    have : (beforeAnnotator cfg d0).getTag j (some subLevel) = none := hbn
    rw [this]; rfl
  rw [hor] at hk hnk
  rw [← hbor]
  exact ⟨hk, hnk⟩

/-- **C123.** With the option to keep sub labels, tools for figures, tables and affiliations keep the sub label of each
token (unless it is of a field for which it is not to be kept), except where they give a new sub label to a token which
had the same sub label on the same line. Missing is that only the token with the new sub label loses its old one, see
`C123_neighbours_lost`, and that preserved sub labels are not replaced at all, see `C123_replaced`. -/
theorem C123_kept_partial (env : ToolEnv) (a : ToolArgs) (t : Tool) (dc : DocCfg) (root : Elem) (d0 d' : Doc)
    (hl : loadDoc dc root = .ok d0)
    (ha : annotateAll (t.annotators env a) (beforeAnnotator (t.annotateCfg a) d0) = .ok d')
    (ht : Spec.keepsSubLabels t) (hp : a.preserveSubTags = true) (hn : ∀ t ∈ a.targets, ∀ s ∈ t.subs, s.1 ≠ [])
    (i : Nat) (hi : i ∈ d0.allTokens) (v : Str) (hv : Spec.tagValue (d0.getPreservedTag i (some subLevel)) = some v)
    (hnp : v ∉ a.noPreserveSubFields) :
    d'.getTagOrPreserved i (some subLevel) = d0.getPreservedTag i (some subLevel) ∨
    ∃ j, Spec.OnOneLine d0 i j ∧ Spec.tagValue (d0.getPreservedTag j (some subLevel)) = some v ∧
      truthy (d'.getSubTag j) = true := by
  have hk := tool_keepsSub env a t ht hn _ _ ha
  rw [← stripTagPrefix_eq_tagValue] at hv
  have hsub : t.hasSubTagOptions = true := by cases t <;> first | rfl | cases ht
  -- the sub labels before the annotators
  have hb := before_sub_kept (cfg := t.annotateCfg a) hl
  have hkeep : Spec.keepSub (t.annotateCfg a) (some v) := by
    refine ⟨by simp [Tool.annotateCfg, hsub, hp], fun f hf e => ?_⟩
    simp only [Tool.annotateCfg, hsub, if_true] at hf
    cases e
    exact hnp hf
  have hbi := (hb i hi).1 (by rw [hv]; exact hkeep)
  have hself : Spec.OnOneLine d0 i i := by
    obtain ⟨l, hl, hil⟩ := List.mem_flatMap.1 hi
    exact ⟨l, hl, hil, hil⟩
  by_cases hc : truthy (d'.getSubTag i) = true
  · exact .inr ⟨i, hself, by rw [← stripTagPrefix_eq_tagValue]; exact hv, hc⟩
  · have hlab : d'.getTagOrPreserved i (some subLevel) = d'.getAttr i keptAttr := by
      unfold Doc.getTagOrPreserved pyOr
      exact if_neg hc
    rcases hk.each i with e | ⟨_, j, hj, hs, htj⟩
    · left
      rw [hlab, e, hbi]
    · right
      have hj' : Spec.OnOneLine d0 i j := by
        refine onOneLine_loaded hl ?_
        rw [(Props.C14_before_annotation (t.annotateCfg a) d0 i hi).1.lineOf] at hj
        exact hj
      refine ⟨j, hj', ?_, htj⟩
      obtain ⟨l, hl', _, hjl⟩ := hj'
      have hbj := hb j (List.mem_flatMap.2 ⟨l, hl', hjl⟩)
      rw [hbi, hv] at hs
      by_cases hkj : Spec.keepSub (t.annotateCfg a) (stripTagPrefix (d0.getPreservedTag j (some subLevel)))
      · rw [hbj.1 hkj] at hs
        rw [← stripTagPrefix_eq_tagValue]; exact hs
      · rw [hbj.2 hkj] at hs; cases hs

theorem linesApart_loaded {dc : DocCfg} {root : Elem} {d0 b : Doc} (hl : loadDoc dc root = .ok d0) (hs : SameBut d0 b) :
    LinesApart b := by
  obtain ⟨lines, h0⟩ := sameBut_loadDoc hl
  have h' := h0.trans hs
  have hnd : (Doc.number 0 lines).flatten.Nodup := by rw [number_flatten]; exact List.nodup_range'
  have e : ∀ k, (Doc.ofLines lines).lineOf k = ((Doc.number 0 lines).find? (fun l => l.contains k)).getD [] := fun _ => rfl
  constructor
  · intro i j hj
    rw [h'.lineOf, e] at hj
    rw [h'.lineOf, e, e]
    cases hf : (Doc.number 0 lines).find? (fun l => l.contains i) with
    | none => rw [hf] at hj; cases hj
    | some l =>
      rw [hf] at hj
      rw [find_contains_of_nodup hnd (List.mem_of_find?_eq_some hf) hj]
  · intro i j hj
    rw [h'.lineOf, e] at hj ⊢
    cases hf : (Doc.number 0 lines).find? (fun l => l.contains i) with
    | none => rw [hf] at hj; cases hj
    | some l => simpa using List.find?_some hf

theorem lineOf_loaded {dc : DocCfg} {root : Elem} {d : Doc} (hl : loadDoc dc root = .ok d) {i j : Nat} (h : Spec.OnOneLine d i j) :
    i ∈ d.lineOf j := by
  obtain ⟨lines, hs⟩ := sameBut_loadDoc hl
  obtain ⟨l, hll, hi, hj⟩ := h
  rw [hs.lines] at hll
  obtain ⟨x, hx, rfl⟩ := List.mem_map.1 hll
  have hnd : (Doc.number 0 lines).flatten.Nodup := by rw [number_flatten]; exact List.nodup_range'
  have e : (Doc.ofLines lines).lineOf j = ((Doc.number 0 lines).find? (fun l => l.contains j)).getD [] := rfl
  rw [hs.lineOf, e, find_contains_of_nodup hnd hx hj]
  exact hi

theorem tool_subExact (env : ToolEnv) (a : ToolArgs) (seg : Bool) (t : Tool) (ht : t = .figure seg ∨ t = .table seg)
    (hn : ∀ t ∈ a.targets, ∀ s ∈ t.subs, s.1 ≠ []) (b d' : Doc) (hb : LinesApart b) (hx : SubExact b b)
    (h : annotateAll (t.annotators env a) b = .ok d') : SubExact b d' := by
  rcases ht with rfl | rfl
  all_goals
    unfold Tool.annotators annotateAll at h
    split at h
    · cases h
    · next d1 h1 => cases h; exact subExact_matchOrSubTags env _ _ seg rfl rfl hn hb h1 hx

/-- **C123 (exactly which sub labels are kept).** With the option to keep sub labels, tools for figures and tables keep
the sub label of a token exactly if the token gets no new one and no word on its line which had the same sub label gets
one of another field. -/
theorem C123_exact (env : ToolEnv) (a : ToolArgs) (seg : Bool) (t : Tool) (ht : t = .figure seg ∨ t = .table seg)
    (dc : DocCfg) (root : Elem) (d0 d' : Doc) (hl : loadDoc dc root = .ok d0)
    (ha : annotateAll (t.annotators env a) (beforeAnnotator (t.annotateCfg a) d0) = .ok d')
    (hp : a.preserveSubTags = true) (hn : ∀ t ∈ a.targets, ∀ s ∈ t.subs, s.1 ≠ [])
    (i : Nat) (hi : i ∈ d0.allTokens) (v : Str) (hv0 : v ≠ [])
    (hv : Spec.tagValue (d0.getPreservedTag i (some subLevel)) = some v) (hnp : v ∉ a.noPreserveSubFields) :
    (truthy (d'.getSubTag i) = true → d'.getTagOrPreserved i (some subLevel) = d'.getSubTag i) ∧
    (truthy (d'.getSubTag i) = false → Spec.SubLabelLost d0 d' i v → d'.getTagOrPreserved i (some subLevel) = none) ∧
    (truthy (d'.getSubTag i) = false → ¬ Spec.SubLabelLost d0 d' i v →
      d'.getTagOrPreserved i (some subLevel) = d0.getPreservedTag i (some subLevel)) := by
  have hsame : SameBut d0 (beforeAnnotator (t.annotateCfg a) d0) := (Props.C14_before_annotation (t.annotateCfg a) d0 i hi).1
  have hb := before_sub_kept (cfg := t.annotateCfg a) hl
  have hsub : t.hasSubTagOptions = true := by rcases ht with rfl | rfl <;> rfl
  have hkeep : Spec.keepSub (t.annotateCfg a) (some v) := by
    refine ⟨by simp [Tool.annotateCfg, hsub, hp], fun f hf e => ?_⟩
    simp only [Tool.annotateCfg, hsub, if_true] at hf
    cases e
    exact hnp hf
  rw [← stripTagPrefix_eq_tagValue] at hv
  have hbi := (hb i hi).1 (by rw [hv]; exact hkeep)
  have hx : SubExact (beforeAnnotator (t.annotateCfg a) d0) (beforeAnnotator (t.annotateCfg a) d0) := by
    have hno : ∀ k, ¬ LosesSub (beforeAnnotator (t.annotateCfg a) d0) (beforeAnnotator (t.annotateCfg a) d0) k := by
      rintro k ⟨j, hj, hr, _⟩
      rw [hsame.lineOf] at hj
      obtain ⟨l, hll, _, hjl⟩ := onOneLine_loaded hl hj
      have hja : j ∈ d0.allTokens := List.mem_flatMap.2 ⟨l, hll, hjl⟩
      have := hr.2.2.1
      rw [before_sub_tag (t.annotateCfg a) j hja (loaded_no_sub_tag hl j hja)] at this
      cases this
    exact ⟨rfl, fun _ => rfl, fun k hk => absurd hk (hno k), fun _ _ => rfl⟩
  have hex := tool_subExact env a seg t ht hn _ _ (linesApart_loaded hl hsame) hx ha
  have hlost : LosesSub (beforeAnnotator (t.annotateCfg a) d0) d' i ↔ Spec.SubLabelLost d0 d' i v := by
    constructor
    · rintro ⟨j, hj, ⟨hsp, htr, hts, hne⟩, he⟩
      rw [hsame.lineOf] at hj
      have hone := onOneLine_loaded hl hj
      obtain ⟨l, hll, _, hjl⟩ := id hone
      have hbj := hb j (List.mem_flatMap.2 ⟨l, hll, hjl⟩)
      rw [hbi, hv] at he
      rw [← he] at hne
      refine ⟨j, hone, by rw [← hsame.isSpace]; exact hsp, ?_, hts, by rw [← stripTagPrefix_eq_tagValue]; exact hne⟩
      rw [← stripTagPrefix_eq_tagValue]
      by_cases hkj : Spec.keepSub (t.annotateCfg a) (stripTagPrefix (d0.getPreservedTag j (some subLevel)))
      · rw [hbj.1 hkj] at he; exact he.symm
      · rw [hbj.2 hkj] at he; cases he
    · rintro ⟨j, hone, hsp, hvj, hts, hne⟩
      obtain ⟨l, hll, _, hjl⟩ := id hone
      rw [← stripTagPrefix_eq_tagValue] at hvj hne
      have hbj := (hb j (List.mem_flatMap.2 ⟨l, hll, hjl⟩)).1 (by rw [hvj]; exact hkeep)
      refine ⟨j, by rw [hsame.lineOf]; exact lineOf_loaded hl hone, ⟨by rw [hsame.isSpace]; exact hsp, ?_, hts, ?_⟩, ?_⟩
      · rw [hbj, hvj]
        cases v with
        | nil => exact absurd rfl hv0
        | cons _ _ => rfl
      · rw [hbj, hvj]; exact hne
      · rw [hbi, hbj, hv, hvj]
  have hpres : truthy (d'.getSubTag i) = false → d'.getTagOrPreserved i (some subLevel) = d'.getAttr i keptAttr := by
    intro hc
    unfold Doc.getTagOrPreserved pyOr
    have : d'.getTag i (some subLevel) = d'.getSubTag i := rfl
    rw [this, hc]
    rfl
  refine ⟨fun hc => ?_, fun hc hlo => ?_, fun hc hlo => ?_⟩
  · unfold Doc.getTagOrPreserved pyOr
    have : d'.getTag i (some subLevel) = d'.getSubTag i := rfl
    rw [this, if_pos hc]
  · rw [hpres hc]; exact hex.lost i (hlost.2 hlo)
  · rw [hpres hc, hex.kept i (fun h => hlo (hlost.1 h)), hbi]

/-- An affiliation with two institutions on one line. -/
def exKeptSubRoot : Elem :=
  .mk c!"tei" [] none
    [.mk c!"text" [] none [.mk c!"aff" [] (some c!"at ") [.mk c!"org" [] (some c!"some title") [] (some c!" by "),
      .mk c!"org" [] (some c!"abc") [] none] none] none] none

def exKeptSubCfg : DocCfg :=
  ⟨asciiClass, [(c!"author_aff", c!"aff"), (c!"author_aff-org", c!"aff/org"), (c!"author_aff-country", c!"aff/country")],
    fun _ _ => true, [c!"text"], true⟩

/-- The sub labels of the words after annotating. -/
def subLabelsAfter (a : ToolArgs) (t : Tool) : Option (List (Option Str)) :=
  match loadDoc exKeptSubCfg exKeptSubRoot with
  | .error _ => none
  | .ok d =>
    match annotateAll (t.annotators exToolEnv a) (beforeAnnotator (t.annotateCfg a) d) with
    | .error _ => none
    | .ok d' => some (d'.nonSpaceTokens.map (fun i => d'.getTagOrPreserved i (some subLevel)))

/-- Without target annotations the sub labels are kept, but for fields for which they are not to be kept. -/
example : subLabelsAfter { preserveSubTags := true } (.affiliation false false) =
      some [none, some c!"b-author_aff-org", some c!"i-author_aff-org", none, some c!"b-author_aff-org"] ∧
    subLabelsAfter { preserveSubTags := true, noPreserveSubFields := [c!"author_aff-org"] } (.affiliation false false) =
      some [none, none, none, none, none] ∧
    subLabelsAfter {} (.affiliation false false) = some [none, none, none, none, none] := by
  decide +kernel

/-- A sub label which is to be kept is replaced if a sub annotation is found at its token: preserved sub labels do not
count as labels when it is tested whether tokens have one. -/
theorem C123_replaced : ∃ (a : ToolArgs) (t : Tool), Spec.keepsSubLabels t ∧ a.preserveSubTags = true ∧
    (subLabelsAfter { a with targets := [] } t).map (fun l => l[1]?) = some (some (some c!"b-author_aff-org")) ∧
    (subLabelsAfter a t).map (fun l => l[1]?) = some (some (some c!"b-author_aff-country")) :=
  ⟨{ preserveSubTags := true,
     targets := [⟨c!"author_aff", .one c!"some title", [(c!"author_aff-country", .one c!"some title")]⟩] },
   .affiliation false false, trivial, rfl, by decide +kernel⟩

/-- A token loses its sub label, and gets no other one, because another token on its line gets a new one. -/
theorem C123_neighbours_lost : ∃ (a : ToolArgs) (t : Tool), Spec.keepsSubLabels t ∧ a.preserveSubTags = true ∧
    (subLabelsAfter { a with targets := [] } t).map (fun l => l[4]?) = some (some (some c!"b-author_aff-org")) ∧
    subLabelsAfter a t = some [none, some c!"b-author_aff-country", some c!"i-author_aff-country", none, none] :=
  ⟨{ preserveSubTags := true,
     targets := [⟨c!"author_aff", .one c!"some title", [(c!"author_aff-country", .one c!"some title")]⟩] },
   .affiliation false false, trivial, rfl, by decide +kernel⟩

/-- An example for `C123_exact`: the words with a new sub label get it, the last one loses its own as it is the same as
that of words which have got another, and it is kept where the new sub label is of the same field. -/
example : subLabelsAfter
        { preserveSubTags := true, targets := [⟨c!"figure", .one c!"some title", [(c!"author_aff-country", .one c!"some title")]⟩] } (.figure true) =
      some [none, some c!"b-author_aff-country", some c!"i-author_aff-country", none, none] ∧
    subLabelsAfter
        { preserveSubTags := true, targets := [⟨c!"figure", .one c!"some title", [(c!"author_aff-org", .one c!"some title")]⟩] } (.figure true) =
      some [none, some c!"b-author_aff-org", some c!"i-author_aff-org", none, some c!"b-author_aff-org"] := by
  decide +kernel

end Verif
