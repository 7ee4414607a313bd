/-
C127 for the tool for references.
-/
import Verif.Props.SubPlace
import Verif.Props.Reference
import Verif.Lemmas.RefExact

namespace Verif
open Spec

/-- The sub tags given by the matcher of values anywhere. -/
theorem simpleAnnotate_sub (env : MatchEnv) (cfg : MatchCfg) (ts : List Target) (d d' : Doc) (hx : cfg.extendToLineEnabled = false)
    (h : simpleAnnotate env cfg ts d = .ok d') :
    SameBut d d' ∧ ∀ j, d'.getSubTag j = d.getSubTag j ∨ ∃ n ∈ targetSubNames ts, ∃ k, d'.getSubTag j = indexTag cfg n k := by
  obtain ⟨d1, left, hl, rfl⟩ := C19_aux env cfg _ d d' h
  obtain ⟨g, _⟩ := annotateLoop_grows env cfg _ d d1 ts left hl
  have key : ∀ j, d1.getSubTag j = d.getSubTag j ∨ ∃ n ∈ targetSubNames ts, ∃ k, d1.getSubTag j = indexTag cfg n k := by
    intro j
    rcases g.sub j with e | ⟨_, _, r⟩
    · exact .inl e
    · exact .inr r
  rw [hx, if_neg (by decide)]
  exact ⟨g.same, key⟩

theorem restoreTags_same (is : List Nat) (d : Doc) : SameBut d (is.foldl (fun d i => d.setTagOnly i (d.getTagOrPreserved i)) d) := by
  induction is generalizing d with
  | nil => exact .refl d
  | cons i is ih =>
    rw [List.foldl_cons]
    exact (sameBut_setAttr _ _ _ _).trans (ih _)

/-- The sub tags given by matching, with or without segmenting. -/
theorem matchOrSub_sub (env : ToolEnv) (a : ToolArgs) (segment : Bool) (d z : Doc)
    (h : matchOrSubTags env (simpleCfg a true false false) a.targets segment d = .ok z) :
    SameBut d z ∧ ∀ j, z.getSubTag j = d.getSubTag j ∨
      ∃ n ∈ targetSubNames a.targets, ∃ cfg k, z.getSubTag j = indexTag cfg n k := by
  unfold matchOrSubTags at h
  split at h
  · obtain ⟨h1, h2⟩ := simpleAnnotate_sub _ _ _ _ _ rfl h
    refine ⟨h1, fun j => ?_⟩
    rcases h2 j with e | ⟨n, hn, k, e⟩
    · exact .inl e
    · exact .inr ⟨n, hn, _, k, e⟩
  · unfold subTagOnlyAnnotate at h
    simp only [] at h
    split at h
    · cases h
    · next y hy =>
      obtain rfl := Except.ok.inj h
      have hs := clearPreserved_sub d.allTokens d
      obtain ⟨h1, h2⟩ := simpleAnnotate_sub _ _ _ _ _ rfl hy
      refine ⟨(hs.1.trans h1).trans (restoreTags_same _ _), fun j => ?_⟩
      rw [restoreTags_sub]
      rcases h2 j with e | ⟨n, hn, k, e⟩
      · exact .inl (e.trans (hs.2 j))
      · exact .inr ⟨n, hn, _, k, e⟩

theorem indexTag_proper (cfg : MatchCfg) (name : Str) (k : Nat) (hn : name ≠ [] ∧ tagValue (some name) = some name) :
    ProperTag (indexTag cfg name k) := by
  have h := indexTag_strip cfg name k hn.1 hn.2
  rw [stripTagPrefix_eq_tagValue] at h
  intro s hs
  refine ⟨?_, by rw [h]; intro hc; exact hn.1 (Option.some.inj hc)⟩
  rintro rfl
  rw [hs] at h
  exact hn.1 (Option.some.inj h).symm

theorem referenceMap_get {p : Bool} {k v : Str} (h : (referenceCfg p).subTagMap.get? k = some v) : v = c!"reference-page" := by
  simp only [referenceCfg, Dict.get?] at h
  split at h
  · exact (Option.some.inj h).symm
  · split at h
    · exact (Option.some.inj h).symm
    · cases h

theorem referenceMap_proper (p : Bool) : ProperMap (referenceCfg p).subTagMap := by
  intro k v h
  rw [referenceMap_get h]
  decide +kernel

theorem referenceMap_twice (p : Bool) (x : Str) : mappedName (referenceCfg p).subTagMap (mappedName (referenceCfg p).subTagMap x) =
    mappedName (referenceCfg p).subTagMap x := by
  unfold mappedName
  cases h : (referenceCfg p).subTagMap.get? x with
  | none => rw [Option.getD_none, h]; rfl
  | some v => rw [Option.getD_some, referenceMap_get h]; cases p <;> decide +kernel

theorem referenceMap_label (p : Bool) (x : Str) : mappedName (referenceCfg p).subTagMap x = referenceLabel x := by
  unfold mappedName referenceLabel
  simp only [referenceCfg, Dict.get?]
  by_cases h1 : x = c!"reference-fpage"
  · simp [h1]
  · by_cases h2 : x = c!"reference-lpage"
    · simp [h2]
    · simp [h1, h2, Ne.symm h1, Ne.symm h2]

/-! ### Sub labels which stay as they are -/

theorem mappedTag_same {m : Dict Str} {t : Option Str} {v : Str} (hv : tagValue t = some v) (hg : m.get? v = none) : mappedTag m t = t := by
  unfold mappedTag
  split
  · next w =>
    have e : w = v := Option.some.inj hv
    unfold mappedName
    rw [e, hg]
    rfl
  · next w =>
    have e : w = v := Option.some.inj hv
    unfold mappedName
    rw [e, hg]
    rfl
  · next w h1 h2 =>
    have e : w = v := by
      unfold tagValue at hv
      split at hv
      · next u hu => exact absurd (Option.some.inj hu) (h1 u)
      · next u hu => exact absurd (Option.some.inj hu) (h2 u)
      · exact Option.some.inj hv
    unfold mappedName
    rw [e, hg]
    rfl
  · rfl

/-- **C33.** A sub label which is not mapped, is not "et al", is not extended to the text before it and is not merged stays
exactly as it is, with its prefix. -/
theorem C33_kept {env : RefEnv} {cfg : RefConfig} {d d' : Doc} (hm : ProperMap cfg.subTagMap) (hr : RefReady env d)
    (h : referenceAnnotate env cfg d = .ok d') (j : Nat) (hj : j ∈ d.nonSpaceTokens) (v : Str)
    (hv : tagValue (d.getSubTag j) = some v) (h1 : cfg.subTagMap.get? v = none) (h2 : v ≠ cfg.etal) (h3 : v ∉ cfg.prefixTags)
    (h4 : v ∉ cfg.mergeTags) : d'.getSubTag j = d.getSubTag j := by
  obtain ⟨_, _, _, _, h5⟩ := C33_effect hm hr h
  have hf := references_flatten d d.nonSpaceTokens
  rw [← hf] at hj
  obtain ⟨e, he, hje⟩ := List.mem_flatten.1 hj
  obtain ⟨t1, t2, t3, r, l1, l2, l3⟩ := h5 e he
  have hmem : ∀ i ∈ e, i ∈ d.nonSpaceTokens := fun i hi => by rw [← hf]; exact List.mem_flatten.2 ⟨e, he, hi⟩
  obtain ⟨p1, p2, p3, p4⟩ := r.rels hm (fun i hi => hr.proper i (hmem i hi)) (fun i hi => hr.text i (hmem i hi))
  have q0 : ∀ t ∈ e.map d.getSubTag, ProperTag t := by
    intro t ht
    obtain ⟨i, hi, rfl⟩ := List.mem_map.1 ht
    exact hr.proper i (hmem i hi)
  have q1 := proper_of_pw p1 (fun _ _ h => h.1.2)
  have q2 := proper_of_pw p2 (fun _ _ h => h.1.2)
  have q3 := proper_of_pw p3 (fun _ _ h => h.1.2)
  have ht : ∀ i ∈ e, d.getText env.cc i ≠ [] := fun i hi => hr.text i (hmem i hi)
  obtain ⟨k, hk⟩ := List.mem_iff_getElem?.1 hje
  have hms : mappedTag cfg.subTagMap (d.getSubTag j) = d.getSubTag j := mappedTag_same hv h1
  have hn : d.getSubTag j ≠ none := fun hc => by rw [hc] at hv; cases hv
  have g0 : ((e.map d.getSubTag).map (mappedTag cfg.subTagMap))[k]? = some (d.getSubTag j) := by
    rw [List.getElem?_map, List.getElem?_map, hk]
    simp only [Option.map_some, hms]
  have g1 : t1[k]? = some (d.getSubTag j) := by
    rw [r.etal]
    refine (C68_others cfg.etal cfg.etalMerge _ (forall_proper_mapped hm q0)).2 k _ g0 ?_
    rw [hv]
    exact fun hc => h2 (Option.some.inj hc)
  have w1 := withText_proper (cc := env.cc) (d := d) hm q1 ht
  obtain ⟨x1, gx1, ex1⟩ := (pw_withText (cc := env.cc) (d := d) (m := cfg.subTagMap) l1).get g1
  rw [hms] at ex1
  have g2 : t2[k]? = some (d.getSubTag j) := by
    rw [r.suffixes, (C69_others cfg.suffixTags _ (fun x h => (w1 x h).1) (fun x h => (w1 x h).2)).2.1 k x1 gx1 (by rw [ex1]; exact hn), ex1]
  have w2 := withText_proper (cc := env.cc) (d := d) hm q2 ht
  obtain ⟨x2, gx2, ex2⟩ := (pw_withText (cc := env.cc) (d := d) (m := cfg.subTagMap) l2).get g2
  rw [hms] at ex2
  have g3 : t3[k]? = some (d.getSubTag j) := by
    obtain ⟨t, a1, a2⟩ := (prefixExtended_stays (fun x h => (w2 x h).1) r.prefixes).get gx2
    rw [a1, a2 v (by rw [ex2]; exact hv) h3, ex2]
  have g3' : (t3.map (mappedTag cfg.subTagMap))[k]? = some (d.getSubTag j) := by
    rw [List.getElem?_map, g3]
    simp only [Option.map_some, hms]
  obtain ⟨t, a1, a2⟩ := (extended_stays (refExtendCfg cfg) (fun u => by cases u <;> rfl) _ (forall_proper_mapped hm q3)).get g3'
  have a3 := a2 v hv (fun hc => h4 ((refMerge_enabled cfg v).1.1 hc))
  rw [← r.merged, List.getElem?_map, hk] at a1
  rw [← a3]
  exact Option.some.inj a1

theorem referenceBegins_spec (p : Bool) (name : Str) (h : referenceBegins p name = true) :
    (referenceCfg p).subTagMap.get? name = none ∧ name ∉ (referenceCfg p).prefixTags ∧ name ∉ (referenceCfg p).mergeTags ∧
      referenceLabel name = name := by
  unfold referenceBegins at h
  simp only [Bool.and_eq_true, Bool.not_eq_true', decide_eq_false_iff_not, Bool.and_eq_false_iff] at h
  obtain ⟨h1, h2⟩ := h
  have n1 : name ≠ c!"reference-fpage" := fun hc => h1 (by rw [hc]; decide +kernel)
  have n2 : name ≠ c!"reference-lpage" := fun hc => h1 (by rw [hc]; decide +kernel)
  refine ⟨?_, ?_, fun hc => h1 ?_, ?_⟩
  · simp only [referenceCfg, Dict.get?, Ne.symm n1, Ne.symm n2, if_false]
  · unfold referenceCfg
    simp only []
    split
    · next hp =>
      rcases h2 with h2 | h2
      · rw [hp] at h2; cases h2
      · exact h2
    · simp
  · have hs : ∀ x ∈ (referenceCfg p).mergeTags, x ∈ [c!"reference-author", c!"reference-editor", c!"reference-issue", c!"reference-page", c!"reference-fpage", c!"reference-lpage"] := by
      cases p <;> decide +kernel
    exact hs name hc
  · unfold referenceLabel
    rw [if_neg (fun h => h.elim n1 n2)]

/-- Where the tool for references gives sub labels. -/
theorem references_placed (env : ToolEnv) (a : ToolArgs) (segment includePrefix removeInvalid : Bool)
    (cfg : DocCfg) (hcc : env.ref.cc = cfg.cc) (passes : Doc → Except Err Bool) (root root' : Elem) (target path : Str) (failed : Option Str)
    (he : ExactEnv env.simple (simpleCfg a true false false)) (f : Char → Char) (hlow : ∀ s, env.simple.lower s = s.map f)
    (x : Target) (after : List Target) (v : Str) (hx : a.targets = x :: after)
    (hre : truthy ((simpleCfg a true false false).tagConfig x.name).matchPrefixRegex = false)
    (hnames : ∀ y ∈ a.targets, ∀ s ∈ y.subs, s.1 ≠ [] ∧ tagValue (some s.1) = some s.1)
    (sb sa : List (Str × TargetValue)) (name w : Str) (hsubs : x.subs = sb ++ (name, .one w) :: sa)
    (h : (Tool.reference segment includePrefix removeInvalid).run env a cfg passes root target failed = .ok (some (path, root'))) :
    ∃ d0 d', loadDoc { cfg with preserveTags := true } root = .ok d0 ∧
      annotateAll ((Tool.reference segment includePrefix removeInvalid).annotators env a)
        (beforeAnnotator ((Tool.reference segment includePrefix removeInvalid).annotateCfg a) d0) = .ok d' ∧ docRoot cfg root d' = .ok root' ∧
      let d := searchedReferences segment (beforeAnnotator ((Tool.reference segment includePrefix removeInvalid).annotateCfg a) d0)
      let lines := firstLines d a.lookahead
      let value := normaliseStr env.simple.lower v
      (OccursFor env.simple (simpleCfg a true false false) x v (seqsText (matchSeqEnv env.simple) d lines) →
        (∀ tokens, OccurrenceTokens env.simple d lines value tokens →
          OccursWithin (searchEnv env.simple (simpleCfg a true false false) 1) (env.simple.lower (matchText env.simple.cc d tokens)) (env.simple.lower w) ∧
          ∀ n w', (n, .one w') ∈ sb → NotTakenBy env.simple (simpleCfg a true false false) d tokens w' w) →
        ∃ tokens, OccurrenceTokens env.simple d lines value tokens ∧ (∃ (rg : List (Nat × Nat)) (q : Nat × Nat), MatchPlaces env.simple.cc d tokens rg ∧
          q.1 < q.2 ∧ q.2 ≤ (matchText env.simple.cc d tokens).length ∧
          noSpace (env.simple.lower (slice (matchText env.simple.cc d tokens) q.1 (q.2 - q.1))) = noSpace (env.simple.lower w) ∧
          (∀ u ∈ tokens.zip rg, overlaps q.1 q.2 u.2 = true → tagValue (d'.getSubTag u.1) = some (referenceLabel name) ∨
            name = c!"reference-etal" ∧ ∃ label ∈ [c!"reference-author", c!"reference-editor"], tagValue (d'.getSubTag u.1) = some label) ∧
          ∀ u rest, (tokens.zip rg).filter (fun x => overlaps q.1 q.2 x.2) = u :: rest → name ≠ c!"reference-etal" →
            referenceBegins includePrefix name = true → d'.getSubTag u.1 = some (c!"b-" ++ referenceLabel name)) ∧
          (segment = true → (∀ i, ProperTag (d.getTag i)) →
            (∀ y ∈ a.targets, y.name ≠ [] ∧ tagValue (some y.name) = some y.name) →
            ∀ i ∈ tokens, tagValue (d'.getTag i) = some x.name)) := by
  obtain ⟨d0, d', h0, h1, h2, _⟩ := run_steps h
  refine ⟨d0, d', h0, h1, h2, ?_⟩
  generalize (Tool.reference segment includePrefix removeInvalid).annotateCfg a = ac at h1 ⊢
  intro d lines value ho hsub
  have hname : name ≠ [] ∧ tagValue (some name) = some name :=
    hnames x (by rw [hx]; exact List.mem_cons_self) (name, .one w) (by rw [hsubs]; simp)
  cases hz : matchOrSubTags env (simpleCfg a true false false) a.targets segment (beforeAnnotator ac d0) with
  | error e =>
    simp only [Tool.annotators, List.cons_append, List.nil_append, annotateAll, hz] at h1
    cases h1
  | ok z =>
    simp only [Tool.annotators, List.cons_append, List.nil_append, annotateAll, hz] at h1
    cases hy : referenceAnnotate env.ref (referenceCfg includePrefix) z with
    | error e => simp only [hy] at h1; cases h1
    | ok y =>
      simp only [hy] at h1
      have hlast : (∀ i, d'.getTag i = y.getTag i) ∧ ∀ i, d'.getSubTag i = y.getSubTag i := by
        cases removeInvalid with
        | false => simp only [removeUntaggedIf, Bool.false_eq_true, if_false, annotateAll] at h1; cases h1; exact ⟨fun _ => rfl, fun _ => rfl⟩
        | true =>
          simp only [removeUntaggedIf, if_true, annotateAll, total] at h1
          cases h1
          exact ⟨fun _ => rfl, fun _ => rfl⟩
      obtain ⟨hsame, hcases⟩ := matchOrSub_sub env a segment _ z hz
      have hsame0 : SameBut d0 z := (Props.C14_aux_sameBut _ _).trans hsame
      have hready : RefReady env.ref z := by
        refine refReady_loadDoc (dc := { cfg with preserveTags := true }) h0 hsame0 hcc ?_
        intro i hi
        rcases hcases i with e | ⟨n, hn, c, k, e⟩
        · rw [hsame0.nonSpaceTokens] at hi
          have hm := loaded_nonSpace_mem h0 hi
          rw [e, before_sub_tag _ i hm (loaded_no_sub_tag h0 i hm)]
          intro s hs
          cases hs
        · rw [e]
          obtain ⟨t, ht, hnt⟩ := List.mem_flatMap.1 hn
          obtain ⟨s, hs, rfl⟩ := List.mem_map.1 hnt
          exact indexTag_proper c s.1 k (hnames t ht s hs)
      obtain ⟨tokens, k1, k2, k3⟩ := matchOrSub_placed_by false env a segment _ _ root d0 z h0 he f hlow x after v hx hre sb sa name w hsubs hname hz ho hsub
      have hns : ∀ i ∈ tokens, i ∈ z.nonSpaceTokens := by
        intro i hi
        have hm : i ∈ lines.flatten := occurrenceTokens_mem _ _ _ _ _ k1 i hi
        have hm2 : i ∈ d.nonSpaceTokens := by
          apply pendingOfDoc_subset d i
          have e : pendingOfDoc d = untaggedLines d := rfl
          rw [e]
          have : lines.flatten.Sublist (untaggedLines d).flatten := by
            show (firstLines d a.lookahead).flatten.Sublist _
            unfold firstLines
            split
            · exact List.Sublist.refl _
            · exact sublist_flatten (List.take_sublist _ _)
          exact this.subset hm
        rw [hsame.nonSpaceTokens]
        have hd := (searchedBy_sub false segment (beforeAnnotator ac d0)).1
        rw [← hd.nonSpaceTokens]
        exact hm2
      have hm := referenceMap_proper includePrefix
      refine ⟨tokens, k1, ?_, fun g1 g2 g3 i hi => ?_⟩
      · obtain ⟨rg, q, b1, b2, b3, b4, b5, b6⟩ := k2
        refine ⟨rg, q, b1, b2, b3, b4, fun u hu hov => ?_, fun u rest hu hetal hc => ?_⟩
        rotate_left
        · have hmf : u ∈ (tokens.zip rg).filter (fun x => overlaps q.1 q.2 x.2) := by rw [hu]; exact List.mem_cons_self
          obtain ⟨m1, m2⟩ := List.mem_filter.1 hmf
          obtain ⟨c1, c2, c3, c4⟩ := referenceBegins_spec includePrefix name hc
          rw [hlast.2, C33_kept hm hready hy u.1 (hns _ (List.of_mem_zip m1).1) name (b5 u m1 m2) c1 hetal c2 c3, c4]
          exact b6 u rest hu rfl
        rw [hlast.2]
        rcases C33_values_once hm hready (referenceMap_twice _) (by cases includePrefix <;> decide +kernel) hy u.1 (hns _ (List.of_mem_zip hu).1) name (b5 u hu hov) with e | ⟨e, hw⟩
        · exact .inl (by rw [e, referenceMap_label])
        · right
          rw [referenceMap_label] at e
          unfold referenceLabel at e
          split at e
          · exfalso
            revert e
            cases includePrefix <;> decide +kernel
          · exact ⟨e, hw⟩
      · rw [hlast.1, (C33_effect hm hready hy).2.1]
        exact k3 g1 g2 g3 i hi

/-- **C127.** The tool for references gives the sub label to the value of a sub annotation where it occurs literally in the
occurrence of the value of the first target annotation: each token of it has the sub label in the document which is written. The
labels of the first and of the last page are that of a page. Missing is "et al", which may become part of the
authors (`C127_etal_partial`). The label begins at the first token, unless it is one which is merged with the same label before it, or is
extended to the text before it (`referenceBegins`). -/
theorem C127_references_partial (env : ToolEnv) (a : ToolArgs) (segment includePrefix removeInvalid : Bool)
    (cfg : DocCfg) (hcc : env.ref.cc = cfg.cc) (passes : Doc → Except Err Bool) (root root' : Elem) (target path : Str) (failed : Option Str)
    (he : ExactEnv env.simple (simpleCfg a true false false)) (f : Char → Char) (hlow : ∀ s, env.simple.lower s = s.map f)
    (x : Target) (after : List Target) (v : Str) (hx : a.targets = x :: after)
    (hre : truthy ((simpleCfg a true false false).tagConfig x.name).matchPrefixRegex = false)
    (hnames : ∀ y ∈ a.targets, ∀ s ∈ y.subs, s.1 ≠ [] ∧ tagValue (some s.1) = some s.1)
    (sb sa : List (Str × TargetValue)) (name w : Str) (hsubs : x.subs = sb ++ (name, .one w) :: sa)
    (hetal : name ≠ c!"reference-etal")
    (h : (Tool.reference segment includePrefix removeInvalid).run env a cfg passes root target failed = .ok (some (path, root'))) :
    ∃ d0 d', loadDoc { cfg with preserveTags := true } root = .ok d0 ∧
      annotateAll ((Tool.reference segment includePrefix removeInvalid).annotators env a)
        (beforeAnnotator ((Tool.reference segment includePrefix removeInvalid).annotateCfg a) d0) = .ok d' ∧ docRoot cfg root d' = .ok root' ∧
      let d := searchedReferences segment (beforeAnnotator ((Tool.reference segment includePrefix removeInvalid).annotateCfg a) d0)
      let lines := firstLines d a.lookahead
      let value := normaliseStr env.simple.lower v
      (OccursFor env.simple (simpleCfg a true false false) x v (seqsText (matchSeqEnv env.simple) d lines) →
        (∀ tokens, OccurrenceTokens env.simple d lines value tokens →
          OccursWithin (searchEnv env.simple (simpleCfg a true false false) 1) (env.simple.lower (matchText env.simple.cc d tokens)) (env.simple.lower w) ∧
          ∀ n w', (n, .one w') ∈ sb → NotTakenBy env.simple (simpleCfg a true false false) d tokens w' w) →
        ∃ tokens, OccurrenceTokens env.simple d lines value tokens ∧ SubLabelledAt env.simple d d' tokens w (referenceLabel name) (referenceBegins includePrefix name) ∧
          (segment = true → (∀ i, ProperTag (d.getTag i)) →
            (∀ y ∈ a.targets, y.name ≠ [] ∧ tagValue (some y.name) = some y.name) →
            ∀ i ∈ tokens, tagValue (d'.getTag i) = some x.name)) := by
  obtain ⟨d0, d', h0, h1, h2, hp⟩ := references_placed env a segment includePrefix removeInvalid cfg hcc passes root root' target path failed
    he f hlow x after v hx hre hnames sb sa name w hsubs h
  refine ⟨d0, d', h0, h1, h2, ?_⟩
  intro d lines value ho hsub
  obtain ⟨tokens, k1, ⟨rg, q, b1, b2, b3, b4, b5, b6⟩, k3⟩ := hp ho hsub
  refine ⟨tokens, k1, ⟨rg, q, b1, b2, b3, b4, fun u hu hov => ?_, fun u rest hu hc => b6 u rest hu hetal hc⟩, k3⟩
  exact (b5 u hu hov).resolve_right fun e => hetal e.1

/-- **C127.** The tool for references gives a sub label to "et al" where it occurs literally in the occurrence of the value of the first
target annotation: that of "et al", or that of authors or editors, with which it is merged. -/
theorem C127_etal_partial (env : ToolEnv) (a : ToolArgs) (segment includePrefix removeInvalid : Bool)
    (cfg : DocCfg) (hcc : env.ref.cc = cfg.cc) (passes : Doc → Except Err Bool) (root root' : Elem) (target path : Str) (failed : Option Str)
    (he : ExactEnv env.simple (simpleCfg a true false false)) (f : Char → Char) (hlow : ∀ s, env.simple.lower s = s.map f)
    (x : Target) (after : List Target) (v : Str) (hx : a.targets = x :: after)
    (hre : truthy ((simpleCfg a true false false).tagConfig x.name).matchPrefixRegex = false)
    (hnames : ∀ y ∈ a.targets, ∀ s ∈ y.subs, s.1 ≠ [] ∧ tagValue (some s.1) = some s.1)
    (sb sa : List (Str × TargetValue)) (w : Str) (hsubs : x.subs = sb ++ (c!"reference-etal", .one w) :: sa)
    (h : (Tool.reference segment includePrefix removeInvalid).run env a cfg passes root target failed = .ok (some (path, root'))) :
    ∃ d0 d', loadDoc { cfg with preserveTags := true } root = .ok d0 ∧
      annotateAll ((Tool.reference segment includePrefix removeInvalid).annotators env a)
        (beforeAnnotator ((Tool.reference segment includePrefix removeInvalid).annotateCfg a) d0) = .ok d' ∧ docRoot cfg root d' = .ok root' ∧
      let d := searchedReferences segment (beforeAnnotator ((Tool.reference segment includePrefix removeInvalid).annotateCfg a) d0)
      let lines := firstLines d a.lookahead
      let value := normaliseStr env.simple.lower v
      (OccursFor env.simple (simpleCfg a true false false) x v (seqsText (matchSeqEnv env.simple) d lines) →
        (∀ tokens, OccurrenceTokens env.simple d lines value tokens →
          OccursWithin (searchEnv env.simple (simpleCfg a true false false) 1) (env.simple.lower (matchText env.simple.cc d tokens)) (env.simple.lower w) ∧
          ∀ n w', (n, .one w') ∈ sb → NotTakenBy env.simple (simpleCfg a true false false) d tokens w' w) →
        ∃ tokens, OccurrenceTokens env.simple d lines value tokens ∧ 
          SubLabelledAmong env.simple d d' tokens w [c!"reference-etal", c!"reference-author", c!"reference-editor"] ∧
          (segment = true → (∀ i, ProperTag (d.getTag i)) →
            (∀ y ∈ a.targets, y.name ≠ [] ∧ tagValue (some y.name) = some y.name) →
            ∀ i ∈ tokens, tagValue (d'.getTag i) = some x.name)) := by
  obtain ⟨d0, d', h0, h1, h2, hp⟩ := references_placed env a segment includePrefix removeInvalid cfg hcc passes root root' target path failed
    he f hlow x after v hx hre hnames sb sa _ w hsubs h
  refine ⟨d0, d', h0, h1, h2, ?_⟩
  intro d lines value ho hsub
  obtain ⟨tokens, k1, ⟨rg, q, b1, b2, b3, b4, b5, b6⟩, k3⟩ := hp ho hsub
  refine ⟨tokens, k1, ⟨rg, q, b1, b2, b3, b4, fun u hu hov => ?_⟩, k3⟩
  rcases b5 u hu hov with e | ⟨_, l, hl, e⟩
  · exact ⟨_, List.mem_cons_self, e⟩
  · exact ⟨l, List.mem_cons_of_mem _ hl, e⟩

/-! ### Examples -/

def exSubReference : Target :=
  ⟨c!"reference", .one c!"on some title", [(c!"reference-label", .one c!"on"), (c!"reference-fpage", .one c!"some"), (c!"reference-lpage", .one c!"title")]⟩

/-- The names and the environment meet the assumptions. -/
example : exToolEnv.ref.cc = exToolCfg.cc ∧ (∀ s ∈ exSubReference.subs, s.1 ≠ [] ∧ tagValue (some s.1) = some s.1) ∧
    ∀ s ∈ exSubReference.subs, s.1 ≠ c!"reference-etal" := ⟨rfl, by decide +kernel, by decide +kernel⟩

/-- The sub labels, with and without segmenting. The label of the last page does not begin there: it is merged with that of
the first page. -/
example : ∀ segment, ∃ d', loadAndAnnotate exToolEnv { targets := [exSubReference] } (.reference segment false false) exToolCfg exToolRoot = .ok d' ∧
    d'.nonSpaceTokens.map (fun i => d'.getSubTag i) =
      [some c!"b-reference-label", some c!"b-reference-page", some c!"i-reference-page", none, none, none] := by
  intro segment
  cases segment
  · exact exists_of_okAnd (by decide +kernel)
  · exact exists_of_okAnd (by decide +kernel)

/-- The label of the reference is not mapped, extended or merged, so that it stays as it is. -/
example : (referenceCfg false).subTagMap.get? c!"reference-label" = none ∧ c!"reference-label" ≠ c!"reference-etal" ∧
    referenceBegins false c!"reference-label" = true ∧ referenceBegins false c!"reference-fpage" = false := by decide +kernel

/-- "et al" (here `title`) behind an author is part of the authors; elsewhere it has its own label. -/
example : (∃ d', loadAndAnnotate exToolEnv { targets := [⟨c!"reference", .one c!"on some title",
      [(c!"reference-author", .one c!"some"), (c!"reference-etal", .one c!"title")]⟩] } (.reference true false false) exToolCfg exToolRoot = .ok d' ∧
    d'.nonSpaceTokens.map (fun i => d'.getSubTag i) = [none, some c!"b-reference-author", some c!"i-reference-author", none, none, none]) ∧
  ∃ d', loadAndAnnotate exToolEnv { targets := [⟨c!"reference", .one c!"on some title",
      [(c!"reference-etal", .one c!"title")]⟩] } (.reference true false false) exToolCfg exToolRoot = .ok d' ∧
    d'.nonSpaceTokens.map (fun i => d'.getSubTag i) = [none, none, some c!"b-reference-etal", none, none, none] :=
  ⟨exists_of_okAnd (by decide +kernel), exists_of_okAnd (by decide +kernel)⟩

end Verif
