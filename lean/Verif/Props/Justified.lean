/-
C100: labels are only given where the text of a target annotation is found.
-/
import Verif.Lemmas.Justified
import Verif.Props.Fulltext

namespace Verif
open Spec

namespace Spec

/-- The options of the command line used for searching. -/
def searchOptions (a : ToolArgs) : MatchCfg :=
  { threshold := a.threshold, tagConfigMap := a.tagConfigMap }

/-- Token `i` is where the target annotation is found. -/
def FoundAt (env : MatchEnv) (cfg : MatchCfg) (d : Doc) (t : Target) (i : Nat) : Prop :=
  ∃ seqs r, MatchAt env cfg d t seqs r ∧ TokenAt (matchSeqEnv env) d seqs r i

/-- Token `i` is where the sub annotation `s` is found within its target annotation `t`. -/
def SubFoundAt (env : MatchEnv) (cfg : MatchCfg) (d : Doc) (t : Target) (s : Str × TargetValue) (i : Nat) : Prop :=
  ∃ seqs r, MatchAt env cfg d t seqs r ∧ SubFound env cfg d seqs r s i

/-- The label with the given name, with or without prefix. -/
def LabelOfName (name : Str) (tag : Option Str) : Prop :=
  ∃ pre ∈ [none, some c!"b-", some c!"i-"], tag = addTagPrefix (some name) pre

end Spec

theorem labelOfName_indexTag (cfg : MatchCfg) (name : Str) (k : Nat) : LabelOfName name (indexTag cfg name k) := by
  refine ⟨indexPrefix cfg k, ?_, rfl⟩
  unfold indexPrefix
  split
  · split
    · exact List.mem_cons_of_mem _ List.mem_cons_self
    · exact List.mem_cons_of_mem _ (List.mem_cons_of_mem _ List.mem_cons_self)
  · exact List.mem_cons_self

/-- **C100** Without extension to whole lines, each new label is that of a target annotation whose value is found in
the text of tokens without a label, at a place overlapping the token; each new sub label is that of a sub annotation
found within a place where its target annotation is found. -/
theorem C100_found (env : MatchEnv) (cfg : MatchCfg) (targets : List Target) (d d' : Doc) (hx : cfg.extendToLineEnabled = false)
    (h : simpleAnnotate env cfg targets d = .ok d') (i : Nat) :
    (d'.getTag i = d.getTag i ∨
      (truthy (d.getTag i) = false ∧ ∃ t ∈ targets, FoundAt env cfg d t i ∧ LabelOfName t.name (d'.getTag i))) ∧
    (d'.getSubTag i = d.getSubTag i ∨
      (truthy (d.getSubTag i) = false ∧ ∃ t ∈ targets, ∃ s ∈ t.subs, SubFoundAt env cfg d t s i ∧ LabelOfName s.1 (d'.getSubTag i))) := by
  obtain ⟨d1, left, hl, rfl⟩ := C19_aux env cfg targets d d' h
  rw [hx, if_neg (by decide)]
  have hj := annotateLoop_justified _ (fun _ h => h) (Justified.refl env cfg targets d) hl
  constructor
  · rcases hj.tag i with e | ⟨e, t, ht, hf, k, hk⟩
    · exact .inl e
    · exact .inr ⟨e, t, ht, hf, by rw [hk]; exact labelOfName_indexTag cfg t.name k⟩
  · rcases hj.sub i with e | ⟨e, t, ht, s, hs, hf, k, hk⟩
    · exact .inl e
    · exact .inr ⟨e, t, ht, s, hs, hf, by rw [hk]; exact labelOfName_indexTag cfg s.1 k⟩

/-- With extension to whole lines, each label on a token which had none is found, or had been there before, on a token
of the same line. -/
theorem C100_extended (env : MatchEnv) (cfg : MatchCfg) (targets : List Target) (d d' : Doc)
    (hnd : d.nonSpaceTokens.Nodup) (hp : ∀ i, Spec.ProperTag (d.getTag i))
    (hn : ∀ t ∈ targets, t.name ≠ [] ∧ Spec.tagValue (some t.name) = some t.name)
    (h : simpleAnnotate env cfg targets d = .ok d') (i : Nat) (hi : i ∈ d.nonSpaceTokens) (v : Str)
    (hv : Spec.tagValue (d'.getTag i) = some v) :
    ∃ l ∈ d.lines, i ∈ l.nonSpace ∧ ∃ j ∈ l.nonSpace, Spec.tagValue (d.getTag j) = some v ∨
      ∃ t ∈ targets, t.name = v ∧ FoundAt env cfg d t j := by
  obtain ⟨d1, left, hl, rfl⟩ := C19_aux env cfg targets d d' h
  have hj := annotateLoop_justified _ (fun _ h => h) (Justified.refl env cfg targets d) hl
  have g := (annotateLoop_grows env cfg _ d d1 targets left hl).1
  have hnp : ∀ n ∈ targetNames targets, Spec.ProperTag (some n) := by
    intro n hm
    obtain ⟨t, ht, rfl⟩ := List.mem_map.1 hm
    intro s hs
    cases hs
    exact ⟨(hn t ht).1, by rw [(hn t ht).2]; simpa using (hn t ht).1⟩
  have hp1 := g.proper hnp hp
  have h3 : ∀ j v, Spec.tagValue (d1.getTag j) = some v → Spec.tagValue (d.getTag j) = some v ∨
      ∃ t ∈ targets, t.name = v ∧ FoundAt env cfg d t j := by
    intro j v hv
    rcases hj.tag j with e | ⟨_, t, ht, hf, k, e⟩
    · rw [e] at hv; exact .inl hv
    · refine .inr ⟨t, ht, ?_, hf⟩
      rw [e, ← stripTagPrefix_eq_tagValue, indexTag_strip cfg t.name k (hn t ht).1 (hn t ht).2] at hv
      exact Option.some.inj hv
  obtain ⟨l, hl', hil⟩ := List.mem_flatMap.1 hi
  refine ⟨l, hl', hil, ?_⟩
  split at hv
  · have hns := g.same.nonSpaceTokens
    obtain ⟨_, _, c3, c4⟩ := C22_document cfg d1 (by rw [hns]; exact hnd) hp1
    have hpt : ∀ t ∈ l.nonSpace.map (fun i => d1.getTag i), Spec.ProperTag t := by
      intro t ht
      obtain ⟨j, _, rfl⟩ := List.mem_map.1 ht
      exact hp1 j
    obtain ⟨t, ht, hv2⟩ := C22_from_line (extendCfg cfg) _ hpt ((extendDoc cfg d1).getTag i)
      (by rw [← c4 l (by rw [g.same.lines]; exact hl')]; exact List.mem_map.2 ⟨i, hil, rfl⟩) v hv
    obtain ⟨j, hj, rfl⟩ := List.mem_map.1 ht
    exact ⟨j, hj, h3 j v hv2⟩
  · exact ⟨i, hil, h3 i v hv⟩

theorem matchingRanges_options {env : MatchEnv} {cfg cfg' : MatchCfg} (h1 : cfg.threshold = cfg'.threshold)
    (h2 : cfg.minTokenLength = cfg'.minTokenLength) (h3 : cfg.exactWordMatchThreshold = cfg'.exactWordMatchThreshold)
    (h4 : cfg.tagConfigMap = cfg'.tagConfigMap) (text : Str) (t : Target) :
    matchingRanges env cfg text t = matchingRanges env cfg' text t ∧
    ∀ r, applyPrefixRegex env cfg text r t = applyPrefixRegex env cfg' text r t := by
  have hs : ∀ n, searchEnv env cfg n = searchEnv env cfg' n := by
    intro n; unfold searchEnv; rw [h1, h3]
  have hc : ∀ n h v, findChunks env cfg n h v = findChunks env cfg' n h v := by
    intro n h v; unfold findChunks; rw [hs, h2, h3]
  have hf : ∀ n h vs, findFirst env cfg n h vs = findFirst env cfg' n h vs := by
    intro n h vs
    induction vs with
    | nil => rfl
    | cons v vs ih => unfold findFirst; rw [hc, ih]
  have ha : ∀ n alt h v, findWithAlternatives env cfg n alt h v = findWithAlternatives env cfg' n alt h v := by
    intro n alt h v; unfold findWithAlternatives; rw [hf]
  have hm : ∀ alt h vs, findMany env cfg alt h vs = findMany env cfg' alt h vs := by
    intro alt h vs
    induction vs with
    | nil => rfl
    | cons v vs ih => unfold findMany; rw [ha, ih]
  have ht : cfg.tagConfig t.name = cfg'.tagConfig t.name := by unfold MatchCfg.tagConfig; rw [h4]
  constructor
  · unfold matchingRanges
    simp only [ha, hm, ht]
  · intro r
    unfold applyPrefixRegex
    simp only [ht]

theorem foundAt_options {env : MatchEnv} {a : ToolArgs} {useSub preserveSub extend : Bool} {d : Doc} {t : Target} {i : Nat}
    (h : FoundAt env (simpleCfg a useSub preserveSub extend) d t i) : FoundAt env (searchOptions a) d t i := by
  obtain ⟨seqs, r, ⟨h1, h2, rs, x, h3, h4, h5⟩, h6⟩ := h
  have e := matchingRanges_options (env := env) (cfg := simpleCfg a useSub preserveSub extend) (cfg' := searchOptions a) rfl rfl rfl rfl
    (seqsText (matchSeqEnv env) d seqs) t
  exact ⟨seqs, r, ⟨h1, h2, rs, x, by rw [← e.1]; exact h3, h4, by rw [← e.2]; exact h5⟩, h6⟩

/-- The tools which segment a document without extending labels to lines: each label is kept from the file, or that of
a target annotation found there with the options given. -/
theorem C100_segmenting_tools (env : ToolEnv) (a : ToolArgs) (tool : Tool)
    (ht : tool = .figure true ∨ tool = .table true ∨ (∃ p, tool = .reference true p false) ∨ tool = .affiliation true false)
    (d d' : Doc) (ha : annotateAll (tool.annotators env a) d = .ok d') (i : Nat) :
    d'.getTag i = d.getTag i ∨
      (truthy (d.getTag i) = false ∧ ∃ t ∈ a.targets, FoundAt env.simple (searchOptions a) d t i ∧ LabelOfName t.name (d'.getTag i)) := by
  have hone : ∀ (g : Doc → Except Err Doc) (x y : Doc) rest, annotateAll (g :: rest) x = .ok y →
      ∃ z, g x = .ok z ∧ annotateAll rest z = .ok y := by
    intro g x y rest h
    unfold annotateAll at h
    split at h
    · cases h
    · next z hz => exact ⟨z, hz, h⟩
  have hmatch : ∀ (p : Bool) (z : Doc), simpleAnnotate env.simple (simpleCfg a true p false) a.targets d = .ok z →
      z.getTag i = d.getTag i ∨
      (truthy (d.getTag i) = false ∧ ∃ t ∈ a.targets, FoundAt env.simple (searchOptions a) d t i ∧ LabelOfName t.name (z.getTag i)) := by
    intro p z hz
    rcases (C100_found env.simple _ a.targets d z rfl hz i).1 with e | ⟨e, t, h1, h2, h3⟩
    · exact .inl e
    · exact .inr ⟨e, t, h1, foundAt_options h2, h3⟩
  rcases ht with rfl | rfl | ⟨p, rfl⟩ | rfl
  · obtain ⟨z, hz, h⟩ := hone _ _ _ _ ha
    obtain rfl := Except.ok.inj h
    exact hmatch _ _ hz
  · obtain ⟨z, hz, h⟩ := hone _ _ _ _ ha
    obtain rfl := Except.ok.inj h
    exact hmatch _ _ hz
  · obtain ⟨z, hz, h⟩ := hone _ _ _ _ ha
    obtain ⟨w, hw, h⟩ := hone _ _ _ _ h
    obtain rfl := Except.ok.inj h
    rw [(subOnly_referenceAnnotate _ _ _ _ hw).getTag]
    exact hmatch _ _ hz
  · obtain ⟨z, hz, h⟩ := hone _ _ _ _ ha
    obtain ⟨w, hw, h⟩ := hone _ _ _ _ h
    obtain rfl := Except.ok.inj h
    obtain rfl := Except.ok.inj hw
    rw [(subOnly_mergeGroupTags _ _).getTag]
    exact hmatch _ _ hz

theorem getTag_replaceTags_none (repl : Dict (Option Str)) (hr : ∀ v new, repl.get? v = some new → new = none) (d : Doc) (i : Nat) :
    (replaceTags repl d).getTag i = d.getTag i ∨ (replaceTags repl d).getTag i = none := by
  unfold replaceTags
  generalize d.nonSpaceTokens = ids
  induction ids generalizing d with
  | nil => exact .inl rfl
  | cons j ids ih =>
    rw [List.foldl_cons]
    have hs : (replaceTagsStep repl d j).getTag i = d.getTag i ∨ (replaceTagsStep repl d j).getTag i = none := by
      rcases replaceTagsStep_none repl hr d j with ⟨_, _, _, e⟩ | ⟨_, e⟩
      · rw [e, getTag_setTag]
        split
        · exact .inr rfl
        · exact .inl rfl
      · rw [e]; exact .inl rfl
    rcases ih (replaceTagsStep repl d j) with e | e
    · rw [e]; exact hs
    · exact .inr e

theorem getTag_updated {d d' : Doc} {j : Nat} {new : Option Str} (h : Updated d d' c!"tag" j new) :
    d'.getTag j = d.getTag j ∨ (new.isSome ∧ d'.getTag j = new) := by
  have e : d'.getTag j = d'.getAttr j c!"tag" := rfl
  rw [e, h]
  split
  · next hc => exact .inr ⟨hc.2, rfl⟩
  · exact .inl rfl

/-- The tool for full texts without extension to lines: each label is kept from the file, that of a target annotation
found there with the options given, that of the list around items, or that of an expanded figure or table. -/
theorem C100_fulltext (env : ToolEnv) (a : ToolArgs) (previous following : Bool) (d d' : Doc)
    (hnd : d.nonSpaceTokens.Nodup)
    (ha : annotateAll ((Tool.fulltext true previous following).annotators env a) d = .ok d') (i : Nat) (v : Str)
    (hv : d'.getTag i = some v) :
    d.getTag i = some v ∨
      (truthy (d.getTag i) = false ∧ ∃ t ∈ a.targets, FoundAt env.simple (searchOptions a) d t i ∧ LabelOfName t.name (some v)) ∨
      v = c!"i-list" ∨
      ((previous = true ∨ following = true) ∧ v ∈ [c!"b-figure", c!"i-figure", c!"b-table", c!"i-table"]) := by
  have hone : ∀ (g : Doc → Except Err Doc) (x y : Doc) rest, annotateAll (g :: rest) x = .ok y →
      ∃ z, g x = .ok z ∧ annotateAll rest z = .ok y := by
    intro g x y rest h
    unfold annotateAll at h
    split at h
    · cases h
    · next z hz => exact ⟨z, hz, h⟩
  obtain ⟨z1, hz1, h⟩ := hone _ _ _ _ ha
  obtain ⟨z2, hz2, h⟩ := hone _ _ _ _ h
  obtain ⟨z3, hz3, h⟩ := hone _ _ _ _ h
  have hz2 := Except.ok.inj hz2
  have hz3 := Except.ok.inj hz3
  let Ok : Option Str → Prop := fun x => ∀ v, x = some v → d.getTag i = some v ∨
      (truthy (d.getTag i) = false ∧ ∃ t ∈ a.targets, FoundAt env.simple (searchOptions a) d t i ∧ LabelOfName t.name (some v)) ∨
      v = c!"i-list" ∨
      ((previous = true ∨ following = true) ∧ v ∈ [c!"b-figure", c!"i-figure", c!"b-table", c!"i-table"])
  have o1 : Ok (z1.getTag i) := by
    intro v hv
    rcases (C100_found env.simple _ a.targets d z1 rfl hz1 i).1 with e | ⟨e, t, h1, h2, h3⟩
    · rw [e] at hv; exact .inl hv
    · rw [hv] at h3; exact .inr (.inl ⟨e, t, h1, foundAt_options h2, h3⟩)
  have o2 : Ok (z2.getTag i) := by
    rcases getTag_replaceTags_none fulltextReplaced (fun v new h => by
        have := mem_of_get? h
        simp only [fulltextReplaced, List.mem_cons, Prod.mk.injEq, List.not_mem_nil, or_false] at this
        rcases this with h | h <;> exact h.2) z1 i with e | e
    · rw [hz2] at e; rw [e]; exact o1
    · rw [hz2] at e; rw [e]; intro v hv; cases hv
  have s1 : SameBut d z1 := keeps_simpleAnnotate _ _ _ _ _ hz1
  have s2 : SameBut d z2 := s1.trans (by rw [← hz2]; exact keeps_replaceTags _ _)
  have s3 : SameBut d z3 := s2.trans (by rw [← hz3]; exact keeps_mergeGroupTags _ _ _)
  have hmem : ∀ (x y : Doc) (g : List Nat → Nat → List Nat → Option Str), (∀ j, j ∉ x.nonSpaceTokens → y.getAttr j = x.getAttr j) →
      (∀ pre j post, x.nonSpaceTokens = pre ++ j :: post → Updated x y c!"tag" j (g pre j post)) →
      (∀ pre j post, Ok (g pre j post)) → Ok (x.getTag i) → Ok (y.getTag i) := by
    intro x y g h1 h2 h3 hx
    by_cases hi : i ∈ x.nonSpaceTokens
    · obtain ⟨pre, post, e⟩ := List.append_of_mem hi
      rcases getTag_updated (h2 pre i post e) with e' | ⟨_, e'⟩
      · rw [e']; exact hx
      · rw [e']; exact h3 _ _ _
    · have : y.getTag i = x.getTag i := by
        show y.getAttr i c!"tag" = x.getAttr i c!"tag"
        rw [h1 i hi]
      rw [this]; exact hx
  have o3 : Ok (z3.getTag i) := by
    have heff := mergeGroup_effect fulltextGroup none z2 (by rw [s2.nonSpaceTokens]; exact hnd)
    rw [show mergeGroupTags fulltextGroup none z2 = z3 from hz3] at heff
    refine hmem z2 z3 (fun pre j post => if considered z2 none j then
          Spec.groupTag (Spec.valueOf z2 none) fulltextGroup (pre.filter (considered z2 none)) j else none) heff.2.1 heff.2.2 ?_ o2
    intro pre j post v hv
    right; right; left
    split at hv
    · unfold groupTag at hv
      split at hv
      · split at hv
        · next hg =>
          unfold fulltextGroup at hv hg
          split at hv
          · exact (Option.some.inj hv).symm
          · next hne => rw [if_neg hne] at hg; cases hg
        · cases hv
      · cases hv
    · cases hv
  have hexp : ∀ v : Str, v ∈ fulltextExpanded → c!"b-" ++ v ∈ [c!"b-figure", c!"i-figure", c!"b-table", c!"i-table"] ∧
      c!"i-" ++ v ∈ [c!"b-figure", c!"i-figure", c!"b-table", c!"i-table"] := by
    intro v hv
    simp only [fulltextExpanded, List.mem_cons, List.not_mem_nil, or_false] at hv
    rcases hv with rfl | rfl <;> decide
  have step4 : ∃ z4, SameBut d z4 ∧ annotateAll (if following then [total (expandFollowing fulltextExpanded)] else []) z4 = .ok d' ∧
      Ok (z4.getTag i) := by
    cases hpv : previous with
    | false => rw [hpv] at h; exact ⟨z3, s3, h, o3⟩
    | true =>
      rw [hpv] at h
      obtain ⟨z4, hz4, h⟩ := hone _ _ _ _ h
      have hz4 := Except.ok.inj hz4
      refine ⟨z4, s3.trans (by rw [← hz4]; exact keeps_expandPrevious _ _), h, ?_⟩
      have heff := Props.C23_previous fulltextExpanded z3 (by rw [s3.nonSpaceTokens]; exact hnd)
      rw [hz4] at heff
      refine hmem z3 z4 (fun pre j post => expandPreviousTag (valueOf z3 none) fulltextExpanded pre j post) heff.2.1 ?_ ?_ o3
      · intro pre j post hs m
        rw [(heff.2.2 pre j post hs).1 m]
        cases expandPreviousTag (valueOf z3 none) fulltextExpanded pre j post <;> simp
      · intro pre j post v hv
        right; right; right
        refine ⟨.inl hpv, ?_⟩
        unfold expandPreviousTag at hv
        split at hv
        · split at hv
          · next w _ =>
            split at hv
            · next hw =>
              rw [← Option.some.inj hv]
              split
              · exact (hexp w hw).1
              · exact (hexp w hw).2
            · cases hv
          · cases hv
        · next w _ =>
          split at hv
          · next hw =>
            rw [← Option.some.inj hv]
            exact (hexp w hw.1).2
          · cases hv
  obtain ⟨z4, s4, h, o4⟩ := step4
  refine (?_ : Ok (d'.getTag i)) v hv
  rcases Bool.eq_false_or_eq_true following with hfv | hfv
  rotate_left
  · rw [hfv] at h
    obtain rfl := Except.ok.inj h
    exact o4
  · rw [hfv] at h
    obtain ⟨z5, hz5, h⟩ := hone _ _ _ _ h
    obtain rfl := Except.ok.inj h
    have hz5 := Except.ok.inj hz5
    have heff := expandFollowing_effect fulltextExpanded z4 (by rw [s4.nonSpaceTokens]; exact hnd)
    rw [hz5] at heff
    refine hmem z4 z5 (fun pre j _ => expandFollowingTag (valueOf z4 none) fulltextExpanded pre j) heff.2.1 heff.2.2 ?_ o4
    intro pre j post v hv
    right; right; right
    refine ⟨.inr hfv, ?_⟩
    unfold expandFollowingTag at hv
    split at hv
    · next w _ _ =>
      split at hv
      · next hw =>
        rw [← Option.some.inj hv]
        exact (hexp _ hw).2
      · cases hv
    · cases hv

/-- The figure tool labels the words found only, while the header tool completes the line. -/
example : (∃ d', loadAndAnnotate exToolEnv { targets := exTargets } (.figure true) exFigureCfg
      (.mk c!"tei" [] none [.mk c!"text" [] (some c!"some title x") [] none] none) = .ok d' ∧
      d'.nonSpaceTokens.map (fun i => d'.getTag i) = [some c!"b-title", some c!"i-title", none]) ∧
    (∃ d', loadAndAnnotate exToolEnv { targets := exTargets } .header exFigureCfg
      (.mk c!"tei" [] none [.mk c!"text" [] (some c!"some title x") [] none] none) = .ok d' ∧
      d'.nonSpaceTokens.map (fun i => d'.getTag i) = [some c!"b-title", some c!"i-title", some c!"i-title"]) ∧
    (∃ d', loadAndAnnotate exToolEnv { targets := exTargets } (.fulltext true false false) exFigureCfg
      (.mk c!"tei" [] none [.mk c!"text" [] (some c!"some title x") [] none] none) = .ok d' ∧
      d'.nonSpaceTokens.map (fun i => d'.getTag i) = [some c!"b-title", some c!"i-title", none]) ∧
    (∃ d', loadAndAnnotate exToolEnv { targets := exTargets } (.fulltext false false false) exFigureCfg
      (.mk c!"tei" [] none [.mk c!"text" [] (some c!"some title x") [] none] none) = .ok d' ∧
      d'.nonSpaceTokens.map (fun i => d'.getTag i) = [some c!"b-title", some c!"i-title", some c!"i-title"]) :=
  ⟨exists_of_okAnd (by decide +kernel), exists_of_okAnd (by decide +kernel), exists_of_okAnd (by decide +kernel),
   exists_of_okAnd (by decide +kernel)⟩

/-- A title with a sub annotation: both are found, the sub annotation within the title only. -/
example : ∃ d', simpleAnnotate exMatchEnv { extendToLineEnabled := false, useSubAnnotations := true }
      [⟨c!"title", .one c!"some title", [(c!"word", .one c!"title")]⟩]
      (Doc.ofLines [[⟨c!"title", false, [], none⟩, ⟨c!"x", false, [], none⟩],
        [⟨c!"some", false, [], none⟩, ⟨c!"title", false, [], none⟩, ⟨c!"x", false, [], none⟩]]) = .ok d' ∧
      d'.nonSpaceTokens.map (fun i => (d'.getTag i, d'.getSubTag i)) =
        [(none, none), (none, none), (some c!"b-title", none), (some c!"i-title", some c!"b-word"), (none, none)] :=
  exists_of_okAnd (by decide +kernel)

/-- The option for the lookahead: after the title on the second line a value is first looked for behind it, if
the title was not within the lookahead. -/
example : (∃ d', loadAndAnnotate exToolEnv
      { targets := [⟨c!"title", .one c!"some title", []⟩, ⟨c!"name", .one c!"abcdef", []⟩], lookahead := 1 } (.figure true) exFigureCfg
      (.mk c!"tei" [] none [.mk c!"text" [] (some c!"abcdef x")
        [.mk c!"lb" [] none [] (some c!"some title"), .mk c!"lb" [] none [] (some c!"abcdef y")] none] none) = .ok d' ∧
      d'.nonSpaceTokens.map (fun i => d'.getTag i) =
        [none, none, some c!"b-title", some c!"i-title", some c!"b-name", none]) ∧
    ∃ d', loadAndAnnotate exToolEnv
      { targets := [⟨c!"title", .one c!"some title", []⟩, ⟨c!"name", .one c!"abcdef", []⟩] } (.figure true) exFigureCfg
      (.mk c!"tei" [] none [.mk c!"text" [] (some c!"abcdef x")
        [.mk c!"lb" [] none [] (some c!"some title"), .mk c!"lb" [] none [] (some c!"abcdef y")] none] none) = .ok d' ∧
      d'.nonSpaceTokens.map (fun i => d'.getTag i) =
        [some c!"b-name", none, some c!"b-title", some c!"i-title", none, none] :=
  ⟨exists_of_okAnd (by decide +kernel), exists_of_okAnd (by decide +kernel)⟩

end Verif
