/-
C142: the segments of the values can be read back from the file written by the segmentation.
-/
import Verif.Spec.SegmentsBack
import Verif.Props.AllPlaces
import Verif.Props.Segmentation
import Verif.Props.ShippedConfig

namespace Verif
open Spec

/-! ### Majorities -/

theorem count_add_le {α : Type} [DecidableEq α] {x m : α} (h : x ≠ m) (l : List α) : l.count x + l.count m ≤ l.length := by
  induction l with
  | nil => exact Nat.le_refl _
  | cons y l ih =>
    rw [List.count_cons, List.count_cons, List.length_cons]
    by_cases h1 : y = x
    · subst h1
      have : (y == m) = false := by simpa using h
      simp only [this, beq_self_eq_true]
      simp only [if_true, Bool.false_eq_true, if_false]
      omega
    · have : (y == x) = false := by simpa using h1
      simp only [this, Bool.false_eq_true, if_false]
      split <;> omega

/-- What is there more often than all else together is the most frequent value. -/
theorem isMajority_of_half {α : Type} [DecidableEq α] {l : List α} {m : α} (h : l.length < 2 * l.count m) : IsMajority l m := by
  have hm : m ∈ l := List.count_pos_iff.1 (by omega)
  obtain ⟨a, b, e, hn⟩ := List.eq_append_cons_of_mem hm
  refine ⟨a, b, e, fun x => ?_, fun x hx => ?_⟩
  · by_cases hx : x = m
    · rw [hx]; exact Nat.le_refl _
    · have := count_add_le hx l; omega
  · have hx : x ≠ m := fun e => hn (e ▸ hx)
    have := count_add_le hx l; omega

theorem count_map_ge {β : Type} [DecidableEq β] {f : Nat → β} {v : β} {place : List Nat} (l : List Nat) (h : ∀ i ∈ l, i ∈ place → f i = v) :
    (l.filter (fun i => decide (i ∈ place))).length ≤ (l.map f).count v := by
  induction l with
  | nil => exact Nat.le_refl _
  | cons i l ih =>
    have ih := ih (fun j hj => h j (List.mem_cons_of_mem _ hj))
    rw [List.filter_cons, List.map_cons, List.count_cons]
    by_cases hi : i ∈ place
    · rw [if_pos (by simpa using hi), h i List.mem_cons_self hi]
      simp only [List.length_cons, beq_self_eq_true, if_true]
      omega
    · rw [if_neg (by simpa using hi)]
      omega

/-! ### Lines -/

theorem segLines_sameBut {d d' : Doc} (h : SameBut d d') : segLines d' = segLines d := by
  unfold segLines
  rw [h.lines]
  refine List.map_congr_left fun p _ => ?_
  simp only [h.text]

theorem allTokens_segLines (d : Doc) : d.allTokens = (segLines d).flatMap (fun l => l.line.tokens) := by
  unfold Doc.allTokens segLines
  rw [List.flatMap_map]
  have : ∀ (ls : List Line) (k : Nat), (ls.zipIdx k).flatMap (fun p => p.1.tokens) = ls.flatMap (fun l => l.tokens) := by
    intro ls
    induction ls with
    | nil => intro k; rfl
    | cons l ls ih => intro k; rw [List.zipIdx_cons, List.flatMap_cons, List.flatMap_cons, ih]
  exact (this d.lines 0).symm

/-! ### The labels of the lines -/

/-- If all names of labels have a segment, all tokens of each line get one label, which is fixed or configured for one of
these names. -/
theorem segment_labels (env : SegEnv) (henv : env.isDigit '\n' = false) (cfg : SegConfig)
    (dc : DocCfg) (root : Elem) (d0 d : Doc) (hl : loadDoc dc root = .ok d0) (hs : SameBut d0 d) (names : List Str)
    (hmap : AllMapped cfg names) (hv : ∀ i n, i ∈ d.nonSpaceTokens → d.getTagValue i = some n → n ∈ names) :
    ∀ l ∈ segLines d, ∃ s, s ≠ [] ∧ SegmentLabel cfg names s ∧ ∀ i ∈ l.line.tokens, (segment env cfg false d).getTag i = some s := by
  obtain ⟨_, _, kept, t1, t2, t3, t4, t5, t6, hst, hk, _, h⟩ := C29_labels env henv cfg false dc root d0 d hl hs
  have hval : ∀ l ∈ segLines d, ∀ n, some n ∈ l.line.nonSpace.map (fun i => d.getTagValue i) → n ∈ names := by
    intro l hl n hn
    obtain ⟨i, hi, e⟩ := List.mem_map.1 hn
    exact hv i n (List.mem_flatMap.2 ⟨l.line, List.mem_of_getElem? (mem_segLines hl).1, hi⟩) e
  have hmaj : ∀ l ∈ segLines d, ∀ n, IsMajority (l.line.nonSpace.map (fun i => d.getTagValue i)) (some n) → n ∈ names := by
    rintro l hl n ⟨a, b, e, _⟩
    exact hval l hl n (by rw [e]; exact List.mem_append_right _ List.mem_cons_self)
  let Q : Option Str → Prop := fun t => t = none ∨ ∃ s, t = some s ∧ s ≠ [] ∧ SegmentLabel cfg names s
  have hfix : ∀ s ∈ [c!"front", c!"page", c!"headnote", c!"body", c!"reference", c!"annex"], s ≠ [] → Q (some s) :=
    fun s hs hne => .inr ⟨s, rfl, hne, .inl hs⟩
  have q1 : ∀ l ∈ segLines d, Q (t1 l.index) := by
    intro l hl
    have := hst.first l hl
    generalize t1 l.index = x at this
    cases this with
    | empty _ => exact .inl rfl
    | @mapped n s h1 h2 h3 => exact .inr ⟨s, rfl, h3, .inr ⟨n, hmaj l hl n h1, h2⟩⟩
    | @tag x h1 h2 =>
      cases x with
      | none => exact .inl rfl
      | some n =>
        obtain ⟨s, e1, e2, _⟩ := hmap n (hmaj l hl n h1)
        exact absurd (h2 n s rfl e1) e2
  have q2 : ∀ l ∈ segLines d, Q (t2 l.index) := by
    intro l hl
    obtain ⟨a, b, e⟩ := List.append_of_mem hl
    by_cases h1 : cfg.frontMaxStartLineIndex = 0
    · rw [hst.notLate a l b e (.inl h1)]; exact q1 l hl
    · by_cases h2 : LateFront cfg.frontMaxStartLineIndex t1 a l
      · exact .inl (hst.late a l b e h1 h2)
      · rw [hst.notLate a l b e (.inr h2)]; exact q1 l hl
  have q3 : ∀ l ∈ segLines d, Q (t3 l.index) := by
    intro l hl
    rw [hst.notPreserved l hl (.inr (fun x => nomatch (hk l hl x).1))]
    exact q2 l hl
  have q4 : ∀ l ∈ segLines d, Q (t4 l.index) := by
    intro l hl
    obtain ⟨a, b, e⟩ := List.append_of_mem hl
    by_cases h1 : FoundPage env t3 a l b
    · rw [hst.page a l b e h1]; exact hfix _ (by decide) (by decide)
    · rw [hst.notPage a l b e h1]; exact q3 l hl
  have q5 : ∀ l ∈ segLines d, Q (t5 l.index) := by
    intro l hl
    by_cases h1 : IsHeader env cfg.pageHeaderMaxFirstLineIndex (segLines d)
        (((segLines d).filter (fun l => !truthy (t4 l.index))).map SegLine.text) l.text
    · rw [hst.header l hl h1]; exact hfix _ (by decide) (by decide)
    · rw [hst.notHeader l hl h1]; exact q4 l hl
  have q6 : ∀ l ∈ segLines d, Q (t6 l.index) := by
    intro l hl
    obtain ⟨a, b, e⟩ := List.append_of_mem hl
    rw [hst.merged a l b e]
    generalize ([c!"front", c!"annex"] ++ if cfg.noMergeReferences then [] else [c!"reference"]) = enabled
    unfold mergedTag
    split
    · show Q (some (blockBefore (a.map fun l => t5 l.index)))
      unfold blockBefore
      cases hg : (blockTags (a.map fun l => t5 l.index)).getLast? with
      | none => exact hfix _ (by decide) (by decide)
      | some s =>
        have hm := List.mem_of_getLast? hg
        unfold blockTags at hm
        obtain ⟨x, hx, e2⟩ := List.mem_filterMap.1 hm
        obtain ⟨y, hy, rfl⟩ := List.mem_map.1 hx
        have hq := q5 y (by rw [e]; exact List.mem_append_left _ hy)
        split at e2
        · rw [e2] at hq; exact hq
        · cases e2
    · exact q5 l hl
  intro l hl
  have hfin : ∃ s, finalLabel false (t6 l.index) = some s ∧ s ≠ [] ∧ SegmentLabel cfg names s := by
    unfold finalLabel
    split
    · next ht =>
      rcases ht with ht | ht
      · cases ht
      · rcases q6 l hl with h1 | h1
        · rw [h1] at ht; cases ht
        · exact h1
    · exact ⟨_, rfl, by decide, .inl (by decide)⟩
  obtain ⟨s, e1, e2, e3⟩ := hfin
  rcases h l hl with ⟨x1, _⟩ | ⟨x1, x2, _⟩
  · exact ⟨s, e2, e3, x1.1 s e1⟩
  · exfalso
    rcases x1 with x1 | ⟨n, x1, x3⟩
    · have := hst.first l hl
      generalize ht : t1 l.index = x at this
      have : x = none := by
        cases this with
        | empty _ => rfl
        | mapped hm2 _ _ => obtain ⟨a, b, e, _⟩ := hm2; rw [x1] at e; simp at e
        | tag hm2 _ => obtain ⟨a, b, e, _⟩ := hm2; rw [x1] at e; simp at e
      rw [e1, ht, this] at x2
      cases x2
    · obtain ⟨s', m1, m2, m3⟩ := hmap n (hmaj l hl n x1)
      rcases x3 with x3 | ⟨x3, _, x4⟩
      · exact m2 (x3 s' m1)
      · rw [m1] at x3
        rcases m3 with m3 | m3
        · exact m3 (Option.some.inj x3)
        · rw [m3] at x4; cases x4

/-- A line most of whose tokens have a name with a segment gets its label, unless it belongs to the front and is behind the
threshold, or its text is there more than twice. -/
theorem segment_line (env : SegEnv) (henv : env.isDigit '\n' = false) (cfg : SegConfig)
    (dc : DocCfg) (root : Elem) (d0 d : Doc) (hl : loadDoc dc root = .ok d0) (hs : SameBut d0 d)
    (l : SegLine) (hm : l ∈ segLines d) (n s : Str) (hmaj : Spec.IsMajority (l.line.nonSpace.map (fun i => d.getTagValue i)) (some n))
    (hlab : Spec.labelOf cfg n = some s) (hs0 : s ≠ []) (hne : s ≠ n ∨ cfg.noMergeReferences = false)
    (hfront : s = c!"front" → cfg.frontMaxStartLineIndex = 0 ∨ (l.index : Int) ≤ cfg.frontMaxStartLineIndex)
    (hsel : SeldomText (segLines d) l) :
    ∀ i ∈ l.line.tokens, (segment env cfg false d).getTag i = some s := by
  obtain ⟨_, _, kept, t1, t2, t3, t4, t5, t6, hst, hk, _, h⟩ := C29_labels env henv cfg false dc root d0 d hl hs
  obtain ⟨a, b, e⟩ := List.append_of_mem hm
  have h1 : t1 l.index = some s := by
    have := hst.first l hm
    generalize ht : t1 l.index = x at this
    cases this with
    | empty hv => obtain ⟨a, b, e, _⟩ := hmaj; rw [hv] at e; simp at e
    | mapped hm2 hl2 _ =>
      have := Option.some.inj (majority_unique hm2 hmaj)
      subst this
      rw [hlab] at hl2
      exact hl2.symm
    | tag hm2 hl2 => exact absurd (hl2 n s (majority_unique hm2 hmaj) hlab) hs0
  have h2 : t2 l.index = some s := by
    rw [hst.notLate a l b e, h1]
    by_cases hf : s = c!"front"
    · rcases hfront hf with h0 | h0
      · exact .inl h0
      · right
        rintro ⟨a1, first, a2, e1, _, _, e4⟩
        have hfm : first ∈ a ++ [l] := by rw [e1]; exact List.mem_append_right _ List.mem_cons_self
        have hle : first.index ≤ l.index := by
          rcases List.mem_append.1 hfm with hfm | hfm
          · have hp := segLines_index d
            rw [e, List.pairwise_append] at hp
            exact Nat.le_of_lt (hp.2.2 first hfm l List.mem_cons_self)
          · rw [List.mem_singleton.1 hfm]; exact Nat.le_refl _
        omega
    · right
      rintro ⟨a1, first, a2, e1, e2, _⟩
      have hne : first :: a2 ≠ [] := by simp
      have e3 : (a ++ [l]).getLast? = (a1 ++ first :: a2).getLast? := by rw [e1]
      rw [List.getLast?_concat, List.getLast?_append, List.getLast?_eq_some_getLast hne, Option.some_or] at e3
      have := e2 l (by rw [Option.some.inj e3]; exact List.getLast_mem hne)
      rw [h1] at this
      exact hf (Option.some.inj this)
  have htr : truthy (some s) = true := truthy_some.2 hs0
  have h3 : t3 l.index = some s := by rw [hst.notPreserved l hm (.inl (by rw [h2]; exact htr)), h2]
  have h4 : t4 l.index = some s := by
    rw [hst.notPage a l b e, h3]
    rintro ⟨hx, _⟩
    rw [h3, htr] at hx
    cases hx
  have h5 : t5 l.index = some s := by
    rw [hst.notHeader l hm, h4]
    rintro ⟨⟨hrep, _⟩, _⟩
    have hsel : ((segLines d).map SegLine.text).count l.text ≤ 2 := hsel
    rw [e, List.map_append, List.map_cons, List.count_append, List.count_cons_self] at hsel
    rw [e, List.filter_append, List.filter_cons, if_neg (by rw [h4, htr]; decide), List.map_append, List.count_append] at hrep
    have c1 : ((a.filter (fun l => !truthy (t4 l.index))).map SegLine.text).count l.text ≤ (a.map SegLine.text).count l.text :=
      (List.filter_sublist.map _).count_le _
    have c2 : ((b.filter (fun l => !truthy (t4 l.index))).map SegLine.text).count l.text ≤ (b.map SegLine.text).count l.text :=
      (List.filter_sublist.map _).count_le _
    omega
  have h6 : t6 l.index = some s := by
    rw [hst.merged a l b e, mergedTag_truthy] <;> rw [h5]
    exact htr
  have h7 : Spec.finalLabel false (t6 l.index) = some s := by
    unfold Spec.finalLabel
    rw [h6, if_pos (.inr htr)]
  rcases h l hm with ⟨x1, _⟩ | ⟨x1, _, _⟩
  · exact x1.1 s h7
  · exfalso
    rcases x1 with x1 | ⟨n', x1, x2⟩
    · obtain ⟨a, b, e, _⟩ := hmaj
      rw [x1] at e
      simp at e
    · have := Option.some.inj (majority_unique x1 hmaj)
      subst this
      rcases x2 with x2 | ⟨x2, _, x3⟩
      · exact hs0 (x2 s hlab)
      · rw [hlab] at x2
        have := Option.some.inj x2
        rcases hne with y | y
        · exact y this
        · rw [x3] at y; cases y

/-! ### What is read back -/

/-- The annotators of the segmentation without line numbers: the labels of the values, then the segments. -/
theorem segmentation_steps {env : ToolEnv} {a : ToolArgs} {scfg : SegConfig} {np : List Str} {d d' : Doc}
    (hx : a.hasXml = true) (hsm : a.simpleMatcher = true) (hln : a.useLineNumbers = false) (hnp : a.noPreserveTags = true)
    (h : annotateAll ((Tool.segmentation scfg np).annotators env a) d = .ok d') :
    ∃ d1, simpleAnnotate env.simple (simpleCfg a false false true) a.targets d = .ok d1 ∧ d' = segment env.seg scfg false d1 := by
  simp only [Tool.annotators, defaultAnnotators, hx, hsm, hln, hnp, if_true, Bool.false_eq_true, if_false, List.nil_append,
    List.cons_append, Bool.not_true] at h
  rw [annotateAll] at h
  cases h1 : simpleAnnotate env.simple (simpleCfg a false false true) a.targets d with
  | error e => rw [h1] at h; cases h
  | ok d1 =>
    rw [h1] at h
    refine ⟨d1, rfl, ?_⟩
    exact (Except.ok.inj h).symm

theorem lineAs_labelled {cc : CharClass} {d d' : Doc} (hs : SameBut d d') {l : SegLine} (hm : l ∈ segLines d) {s : Str}
    (hs0 : s ≠ []) (hv : tagValue (some s) = some s) (h : ∀ i ∈ l.line.tokens, d'.getTag i = some s) :
    lineAs cc d l s <:+: labelledText cc d' := by
  have e : lineAs cc d l s = labelledChars cc (l.line.tokens.map d'.tok) := by
    unfold lineAs labelledChars
    rw [List.flatMap_map, List.map_flatMap]
    rw [List.flatMap_def, List.flatMap_def]
    congr 1
    refine List.map_congr_left fun i hi => ?_
    rw [mainValue_of_tag (t := d'.tok i) hs0 (by rw [← hv]; exact congrArg tagValue (h i hi)), hs.text]
  rw [e]
  unfold labelledText
  rw [lineToks_flatten]
  refine labelledChars_infix cc (List.IsInfix.map _ ?_)
  have : d'.allTokens = d.allTokens := by unfold Doc.allTokens; rw [hs.lines]
  rw [this, allTokens_segLines]
  obtain ⟨a, b, e⟩ := List.append_of_mem hm
  rw [e, List.flatMap_append, List.flatMap_cons]
  exact ⟨_, _, List.append_assoc _ _ _⟩

/-- **C142.** What is read back from a file written by the segmentation, keeping no labels, if all values are of fields
with a segment: each character other than white space has the label of a segment; and each line, most of which is at
the place of a value, has the label of the segment for this value, unless its text is there more than twice, or it
belongs to the front and is behind the threshold. -/
theorem C142_segments_back (env : ToolEnv) (a : ToolArgs) (scfg : SegConfig) (np : List Str) (cfg : DocCfg) (mains : List (Option Str))
    (passes : Doc → Except Err Bool) (root c root' : Elem) (target path : Str) (failed : Option Str)
    (he : ExactEnv env.simple (simpleCfg a false false true)) (henv : env.seg.isDigit '\n' = false)
    (hx : a.hasXml = true) (hsm : a.simpleMatcher = true) (hln : a.useLineNumbers = false) (hnp : a.noPreserveTags = true)
    (hn : ∀ y ∈ a.targets, y.name ≠ [] ∧ tagValue (some y.name) = some y.name)
    (hmap : AllMapped scfg (a.targets.map (·.name)))
    (hm : ReadableMapping cfg.mapping mains)
    (hread : ∀ s, SegmentLabel scfg (a.targets.map (·.name)) s → tagValue (some s) = some s ∧ some s ∈ mains)
    (hk : Spec.noneKept a (.segmentation scfg np) cfg root) (hc : findAll cfg.containerPath root = [c])
    (h : (Tool.segmentation scfg np).run env a cfg passes root target failed = .ok (some (path, root'))) :
    ∃ d0 d'', loadDoc { cfg with preserveTags := true } root = .ok d0 ∧
      loadDoc { cfg with preserveTags := true } root' = .ok d'' ∧
      (∀ x ∈ labelledText cfg.cc d'', ∃ s, x.2 = some s ∧ SegmentLabel scfg (a.targets.map (·.name)) s) ∧
      (labelledText cfg.cc d'').map Prod.fst = (labelledText cfg.cc d0).map Prod.fst ∧
      let d := beforeAnnotator ((Tool.segmentation scfg np).annotateCfg a) d0
      ∀ ps, a.targets = ps.map Prod.fst → PlacedInTurn env.simple (simpleCfg a false false true) d [] ps →
        ∀ p ∈ ps, ∀ s, labelOf scfg p.1.name = some s → ∀ l ∈ segLines d, MostlyIn l p.2 → SeldomText (segLines d) l →
          (s = c!"front" → scfg.frontMaxStartLineIndex = 0 ∨ (l.index : Int) ≤ scfg.frontMaxStartLineIndex) →
          lineAs cfg.cc d l s <:+: labelledText cfg.cc d'' := by
  obtain ⟨d0, d', h0, h1, h2, _⟩ := run_steps h
  have hs0 := Props.C14_aux_sameBut ((Tool.segmentation scfg np).annotateCfg a) d0
  have hbare : beforeAnnotator ((Tool.segmentation scfg np).annotateCfg a) d0 = Doc.ofLines ((tokenTexts d0).map (bareLine cfg.cc)) :=
    before_noneKept hk h0
  have hnd := (nodup_loadDoc h0 hs0).2
  have h1' := h1
  generalize hd : beforeAnnotator ((Tool.segmentation scfg np).annotateCfg a) d0 = d at h1 hs0 hbare hnd ⊢
  obtain ⟨d1, g1, rfl⟩ := segmentation_steps hx hsm hln hnp h1
  have hs1 : SameBut d d1 := (C19_text_and_sub_tags _ _ _ _ _ g1).1
  have htag : ∀ i, d.getTag i = none := fun i => by rw [hbare]; exact bare_getTag _ _ i
  have hprop : ∀ i, ProperTag (d.getTag i) := by rw [hbare]; exact bare_proper _ _
  have hval : ∀ i n, i ∈ d1.nonSpaceTokens → d1.getTagValue i = some n → n ∈ a.targets.map (·.name) := by
    intro i n _ hi
    have hi : stripTagPrefix (d1.getTag i) = some n := hi
    rw [stripTagPrefix_eq_tagValue] at hi
    rcases (C19_keeps_values env.simple _ a.targets d d1 hnd hprop hn g1 i).2.2 n (htag i) hi with ⟨t, ht, rfl⟩ | ⟨_, _, _, j, _, hj⟩
    · exact List.mem_map.2 ⟨t, ht, rfl⟩
    · rw [htag j] at hj; cases hj
  have hlab := segment_labels env.seg henv scfg _ root d0 d1 h0 (hs0.trans hs1) _ hmap hval
  have hs2 : SameBut d1 (segment env.seg scfg false d1) := (C29_labels env.seg henv scfg false _ root d0 d1 h0 (hs0.trans hs1)).1
  have hsd : SameBut d (segment env.seg scfg false d1) := hs1.trans hs2
  have hmain : ∀ u ∈ (segment env.seg scfg false d1).lineToks.flatten, ∃ s, mainValue u = some s ∧
      SegmentLabel scfg (a.targets.map (·.name)) s := by
    intro u hu
    rw [lineToks_flatten] at hu
    obtain ⟨i, hi, rfl⟩ := List.mem_map.1 hu
    have hi : i ∈ d1.allTokens := by
      unfold Doc.allTokens at hi ⊢
      rw [hs2.lines] at hi
      exact hi
    rw [allTokens_segLines] at hi
    obtain ⟨l, hl, hi⟩ := List.mem_flatMap.1 hi
    obtain ⟨s, e1, e2, e3⟩ := hlab l hl
    refine ⟨s, mainValue_of_tag e1 ?_, e2⟩
    rw [← (hread s e2).1]
    exact congrArg tagValue (e3 i hi)
  obtain ⟨d'', e1, e2⟩ := C135_labels { cfg with preserveTags := true } mains root c root' _ hm rfl hc h2 (by
    intro u hu _
    obtain ⟨s, x1, x2⟩ := hmain u hu
    refine ⟨by rw [x1]; exact (hread s x2).2, ?_⟩
    rw [lineToks_flatten] at hu
    obtain ⟨i, _, rfl⟩ := List.mem_map.1 hu
    have hw := writerTags_eq ((segment env.seg scfg false d1).tok i)
    unfold writerTags at hw
    rw [Prod.mk.injEq] at hw
    unfold subValue
    split
    · next c v hv =>
      rw [← hw.2] at hv
      rcases (C96_labels env a _ _ root d0 _ h0 h1' i _ (List.cons_ne_nil c v)).2 hv with ⟨n, hn, _⟩ | ⟨j, hj, hv, h⟩
      · simp only [toolSubLabels, hx, hsm, true_and, not_true_eq_false, if_false] at hn
        cases hn
      · exact absurd h ((hk d0 h0 j hj _).2 hv)
    · rintro _ ⟨⟩)
  have e2 : labelledText cfg.cc d'' = labelledText cfg.cc (segment env.seg scfg false d1) := e2
  refine ⟨d0, d'', h0, e1, ?_, ?_, ?_⟩
  · intro x hx
    rw [e2] at hx
    unfold labelledText labelledChars at hx
    obtain ⟨u, hu, hx⟩ := List.mem_flatMap.1 hx
    obtain ⟨ch, _, rfl⟩ := List.mem_map.1 hx
    exact hmain u hu
  · rw [e2]
    have : ∀ z : Doc, (labelledText cfg.cc z).map Prod.fst =
        z.allTokens.flatMap (fun i => (z.tok i).text.filter (fun c => !cfg.cc.isSpace c)) := by
      intro z
      unfold labelledText labelledChars
      rw [lineToks_flatten, List.map_flatMap, List.flatMap_map]
      simp only [List.map_map]
      rw [List.flatMap_def, List.flatMap_def]
      congr 1
      refine List.map_congr_left fun i _ => ?_
      exact List.map_id _
    rw [this, this]
    have hs3 := hs0.trans hsd
    unfold Doc.allTokens
    rw [hs3.lines]
    simp only [hs3.text]
  · intro d2
    have hd2 : d2 = d := hd
    clear_value d2
    subst hd2
    intro ps hps hv p hp s hs l hl hmost hsel hfr
    have hpn : ∀ p ∈ ps, p.1.name ∈ a.targets.map (·.name) := fun p hp => by
      rw [hps, List.map_map]; exact List.mem_map.2 ⟨p, hp, rfl⟩
    have hpt : ∀ p ∈ ps, p.1 ∈ a.targets := fun p hp => by
      rw [hps]; exact List.mem_map.2 ⟨p, hp, rfl⟩
    obtain ⟨s', m1, m2, m3⟩ := hmap _ (hpn p hp)
    rw [hs] at m1
    have := Option.some.inj m1
    subst this
    have hlv : ∀ i ∈ p.2, d1.getTagValue i = some p.1.name := by
      intro i hi
      show stripTagPrefix (d1.getTag i) = _
      rw [stripTagPrefix_eq_tagValue]
      rw [hps] at g1
      exact C141_all env.simple _ he rfl ps d2 d1 hnd hprop (fun p hp => hn p.1 (hpt p hp)) hv g1 p hp i hi
    have hseg : segLines d1 = segLines d2 := segLines_sameBut hs1
    rw [e2]
    refine lineAs_labelled hsd hl m2 (hread s (.inr ⟨_, hpn p hp, hs⟩)).1 ?_
    refine segment_line env.seg henv scfg _ root d0 d1 h0 (hs0.trans hs1) l (by rw [hseg]; exact hl) p.1.name s ?_ hs m2 m3 hfr
      (by rw [hseg]; exact hsel)
    refine isMajority_of_half ?_
    rw [List.length_map]
    have := count_map_ge (f := fun i => d1.getTagValue i) (v := some p.1.name) (place := p.2) l.line.nonSpace (fun i _ hi => hlv i hi)
    have hmost : l.line.nonSpace.length < 2 * (l.line.nonSpace.filter (fun i => decide (i ∈ p.2))).length := hmost
    omega

/-- **C142** for the shipped configuration of the segments, if references are merged: its conditions on the segments are
met by the default fields. -/
theorem C142_shipped (scfg : SegConfig) (hs : scfg.mapping = shippedSegments) (hnm : scfg.noMergeReferences = false)
    (names : List Str) (hf : ∀ n ∈ names, n ∈ segmentationDefaultFields) (fields : List Str) :
    AllMapped scfg names ∧ (∀ n ∈ names, n ≠ [] ∧ tagValue (some n) = some n) ∧
    ∀ mains, (segmentationMapping, mains) ∈ toolTags →
      ∀ s, SegmentLabel scfg names s → tagValue (some s) = some s ∧ some s ∈ mains ++ (newFields segmentationMapping fields).map some := by
  have key : ∀ n ∈ segmentationDefaultFields, ∃ s ∈ [c!"front", c!"body", c!"acknowledgment", c!"annex", c!"page", c!"line_no", c!"reference"],
      labelOf { mapping := shippedSegments } n = some s := by
    decide +kernel
  have hlab : ∀ n, labelOf scfg n = labelOf { mapping := shippedSegments } n := by
    intro n; unfold labelOf; rw [hs]
  refine ⟨fun n hn => ?_, fun n hn => ?_, fun mains hm s hsl => ?_⟩
  · obtain ⟨s, h1, h2⟩ := key n (hf n hn)
    refine ⟨s, by rw [hlab]; exact h2, ?_, .inr hnm⟩
    rintro rfl
    revert h1
    decide
  · exact (by decide +kernel : ∀ n ∈ segmentationDefaultFields, n ≠ [] ∧ tagValue (some n) = some n) n (hf n hn)
  · have hin : s ∈ [c!"front", c!"page", c!"headnote", c!"body", c!"reference", c!"annex", c!"acknowledgment", c!"line_no"] := by
      rcases hsl with h | ⟨n, hn, h⟩
      · exact List.mem_append_left [c!"acknowledgment", c!"line_no"] h
      · obtain ⟨s', h1, h2⟩ := key n (hf n hn)
        rw [hlab, h2] at h
        cases h
        clear h2
        revert s
        decide +kernel
    refine ⟨(by decide +kernel : ∀ s ∈ [c!"front", c!"page", c!"headnote", c!"body", c!"reference", c!"annex", c!"acknowledgment", c!"line_no"],
      tagValue (some s) = some s) s hin, List.mem_append_left _ ?_⟩
    have : ∀ x ∈ toolTags, x.1.map Prod.fst = segmentationMapping.map Prod.fst →
        ∀ s ∈ [c!"front", c!"page", c!"headnote", c!"body", c!"reference", c!"annex", c!"acknowledgment", c!"line_no"], some s ∈ x.2 := by
      decide +kernel
    exact this _ hm rfl s hin

/-! ### An example -/

/-- The segmentation with its shipped configuration. -/
def exSegDoc : DocCfg := ⟨asciiClass, segmentationMapping, fun _ _ => true, [c!"text"], true⟩

def exSegArgs : ToolArgs :=
  { targets := [⟨c!"title", .one c!"some title", []⟩, ⟨c!"reference", .one c!"author abc", []⟩], noPreserveTags := true }

/-- The conditions are met by the example file: the title and the reference have places of their own, and a line each. -/
example : ExactEnv exToolEnv.simple (simpleCfg exSegArgs false false true) ∧ exToolEnv.seg.isDigit '\n' = false ∧
    (∀ y ∈ exSegArgs.targets, y.name ∈ segmentationDefaultFields) ∧
    (∃ mains, (segmentationMapping, mains) ∈ toolTags ∧ ReadableMapping exSegDoc.mapping mains) ∧
    Spec.noneKept exSegArgs (.segmentation shippedSegmentation []) exSegDoc exToolRoot ∧
    (findAll exSegDoc.containerPath exToolRoot).length = 1 ∧
    (∃ r, (Tool.segmentation shippedSegmentation []).run exToolEnv exSegArgs exSegDoc (fun _ => .ok true) exToolRoot c!"out" none = .ok (some r)) ∧
    ∃ d0, loadDoc { exSegDoc with preserveTags := true } exToolRoot = .ok d0 ∧
      let d := beforeAnnotator ((Tool.segmentation shippedSegmentation []).annotateCfg exSegArgs) d0
      PlacedInTurn exToolEnv.simple (simpleCfg exSegArgs false false true) d []
        [(⟨c!"title", .one c!"some title", []⟩, [2, 4]), (⟨c!"reference", .one c!"author abc", []⟩, [7, 9])] ∧
      ∃ l1 l2, segLines d = [l1, l2] ∧ MostlyIn l1 [2, 4] ∧ MostlyIn l2 [7, 9] ∧
        SeldomText (segLines d) l1 ∧ SeldomText (segLines d) l2 := by
  refine ⟨exMatch_exact _ (by decide +kernel) (by decide +kernel), by decide, by decide +kernel,
    ⟨_, List.mem_cons_of_mem _ List.mem_cons_self, readable_own (List.mem_cons_of_mem _ List.mem_cons_self)⟩,
    keepsNothing_noneKept ⟨rfl, rfl, rfl, rfl⟩ _ _, rfl, ?_, ?_⟩
  · obtain ⟨r, hr, h⟩ := exists_of_okAnd
      (x := (Tool.segmentation shippedSegmentation []).run exToolEnv exSegArgs exSegDoc (fun _ => .ok true) exToolRoot c!"out" none)
      (p := fun r => r.isSome = true) (by decide +kernel)
    obtain ⟨r', rfl⟩ := Option.isSome_iff_exists.1 h
    exact ⟨r', hr⟩
  · have key : ∃ d0, loadDoc { exSegDoc with preserveTags := true } exToolRoot = .ok d0 ∧
        (let d := beforeAnnotator ((Tool.segmentation shippedSegmentation []).annotateCfg exSegArgs) d0
         (segLines d).map (fun l => (l.line.nonSpace, l.text)) = [([0, 2, 4], c!"on some title"), ([5, 7, 9], c!"by author abc")] ∧
         freeRuns d [] 200 = [[0, 2, 4], [5, 7, 9]] ∧ freeRuns d [2, 4] 200 = [[0], [5, 7, 9]] ∧
         seqsText (matchSeqEnv exToolEnv.simple) d [[0, 2, 4], [5, 7, 9]] = c!"on some title\nby author abc" ∧
         seqsText (matchSeqEnv exToolEnv.simple) d [[0], [5, 7, 9]] = c!"on\nby author abc" ∧
         (∀ x ∈ List.range 27, ∀ y ∈ List.range 28,
           noSpace (slice c!"on some title\nby author abc" x (y - x)) = c!"sometitle" →
           seqTokensBetween (matchSeqEnv exToolEnv.simple) d x y [[0, 2, 4], [5, 7, 9]] = [2, 4]) ∧
         (∀ x ∈ List.range 16, ∀ y ∈ List.range 17,
           noSpace (slice c!"on\nby author abc" x (y - x)) = c!"authorabc" →
           seqTokensBetween (matchSeqEnv exToolEnv.simple) d x y [[0], [5, 7, 9]] = [7, 9])) :=
      exists_of_okAnd (by decide +kernel)
    obtain ⟨d0, h0, h2, h3, h4, h5, h6, h7, h8⟩ := key
    refine ⟨d0, h0, ⟨?_, ?_, trivial⟩, ?_⟩
    · have e : freeRuns (beforeAnnotator ((Tool.segmentation shippedSegmentation []).annotateCfg exSegArgs) d0) []
        (simpleCfg exSegArgs false false true).lookahead = _ := h3
      refine valueAt_of_check (v := c!"some title") (by rw [e]; decide +kernel) rfl ?_ ?_
      · rw [e, h5]
        refine ⟨rfl, by decide, .inl (by decide), .inr ⟨by decide +kernel, by decide +kernel, by decide +kernel, by decide +kernel⟩, ?_⟩
        intro _
        exact onlyLiteral_short _ _ _ (by decide +kernel) (by decide +kernel)
      · rw [e, h5]
        rw [show noSpace (normaliseStr exToolEnv.simple.lower c!"some title") = c!"sometitle" by decide +kernel]
        exact h7
    · have e : freeRuns (beforeAnnotator ((Tool.segmentation shippedSegmentation []).annotateCfg exSegArgs) d0) ([] ++ [2, 4])
        (simpleCfg exSegArgs false false true).lookahead = _ := h4
      refine valueAt_of_check (v := c!"author abc") (by rw [e]; decide +kernel) rfl ?_ ?_
      · rw [e, h6]
        refine ⟨rfl, by decide, .inl (by decide), .inr ⟨by decide +kernel, by decide +kernel, by decide +kernel, by decide +kernel⟩, ?_⟩
        intro _
        exact onlyLiteral_short _ _ _ (by decide +kernel) (by decide +kernel)
      · rw [e, h6]
        rw [show noSpace (normaliseStr exToolEnv.simple.lower c!"author abc") = c!"authorabc" by decide +kernel]
        exact h8
    · generalize segLines (beforeAnnotator ((Tool.segmentation shippedSegmentation []).annotateCfg exSegArgs) d0) = ls at h2
      match ls, h2 with
      | [], h2 => cases h2
      | [_], h2 => simp at h2
      | _ :: _ :: _ :: _, h2 => simp at h2
      | [l1, l2], h2 =>
        simp only [List.map_cons, List.map_nil, List.cons.injEq, Prod.mk.injEq, and_true] at h2
        obtain ⟨⟨a1, a2⟩, b1, b2⟩ := h2
        refine ⟨l1, l2, rfl, ?_, ?_, ?_, ?_⟩
        · unfold MostlyIn; rw [a1]; decide
        · unfold MostlyIn; rw [b1]; decide
        · show List.count l1.text [l1.text, l2.text] ≤ 2; rw [a2, b2]; decide
        · show List.count l2.text [l1.text, l2.text] ≤ 2; rw [a2, b2]; decide

/-- What is read back from the file written. -/
def exSegBack : Except Err (List (Char × Option Str)) :=
  match (Tool.segmentation shippedSegmentation []).run exToolEnv exSegArgs exSegDoc (fun _ => .ok true) exToolRoot c!"out" none with
  | .ok (some (_, root')) => (loadDoc exSegDoc root').map (labelledText exSegDoc.cc)
  | _ => .error .exception

/-- The line of the title is read back as the front, that of the reference as a reference. -/
example : ∃ l, exSegBack = .ok l ∧ l = c!"onsometitle".map (·, some c!"front") ++ c!"byauthorabc".map (·, some c!"reference") :=
  exists_of_okAnd (by decide +kernel)

end Verif
