/-
Segmentation of documents into front, body, references, page numbers and so on
(`annotation/segmentation_annotator.py`): C29 (labels of lines), C30 (merging of blocks),
C31 (page numbers), C32 (page headers), C67 (threshold for the front).
-/
import Verif.Lemmas.SegLoad

namespace Verif

theorem shows_of_shown {d : Doc} {l : SegLine} {t : Option Str} (h : Shown d l t) : Spec.LineShows d l t := by
  constructor
  · rintro s rfl i hi
    rcases h i hi with e | ⟨e, _⟩
    · exact e
    · cases e
  · rintro rfl i hi
    rcases h i hi with e | ⟨_, e⟩
    · rw [e]; rfl
    · exact e

theorem segMergedTags_cases (cfg : SegConfig) : ∀ e ∈ segMergedTags cfg, e = segFront ∨ e = segAnnex ∨ e = segReference := by
  intro e he
  unfold segMergedTags at he
  · split at he <;> simp only [List.cons_append, List.nil_append, List.mem_cons, List.not_mem_nil, or_false, List.append_nil] at he
    · exact he.elim .inl (fun h => .inr (.inl h))
    · exact he

theorem segMergedTags_block (cfg : SegConfig) : ∀ e ∈ segMergedTags cfg, isBlockTag (some e) := by
  intro e he
  rcases segMergedTags_cases cfg e he with rfl | rfl | rfl <;> (unfold isBlockTag; decide)

/-- A change from one state to the next, by line. -/
def Steps (cfg : SegConfig) (ls : List SegLine) (st st' : SegState) : Prop :=
  ∀ l ∈ ls, SameLine st st' l ∨ (Shown st'.doc l (st'.tag l.index) ∧ NoneOrLabel cfg (st'.tag l.index))

theorem Steps.trans {cfg : SegConfig} {ls : List SegLine} {a b c : SegState} (h : Steps cfg ls a b) (h' : Steps cfg ls b c) :
    Steps cfg ls a c := by
  intro l hl
  rcases h' l hl with e | e
  · rcases h l hl with e' | e'
    · exact .inl (e'.trans e)
    · exact .inr ⟨e'.1.congr e, by rw [e.1]; exact e'.2⟩
  · exact .inr e

/-- A change to given labels only. -/
theorem steps_of {cfg : SegConfig} {ls : List SegLine} {st st' : SegState} (h : Relabels ls st st')
    (hc : ∀ l ∈ ls, SameLine st st' l ∨ NoneOrLabel cfg (st'.tag l.index)) : Steps cfg ls st st' := by
  intro l hl
  rcases h.line l hl with e | e
  · exact .inl e
  · rcases hc l hl with x | x
    · exact .inl x
    · exact .inr ⟨e, x⟩

theorem noneOrLabel_some {cfg : SegConfig} {s : Str} (h : Spec.IsLabel cfg s) : NoneOrLabel cfg (some s) :=
  fun _ e => by obtain rfl := Option.some.inj e; exact h

theorem noneOrLabel_none {cfg : SegConfig} : NoneOrLabel cfg none := fun _ e => by cases e

/-- **C29**, in full. Segmentation of a document (loaded, and possibly annotated) changes neither its text nor
its sub tags. There are labels of the lines as specified, such that all tokens of each line have the last
label of the line, which is configured or one of the fixed ones, or the tokens are as before: then this label is the first one of the line, and the tag
which most of its tokens have is not mapped to another one. -/
theorem C29_labels (env : SegEnv) (henv : env.isDigit '\n' = false) (cfg : SegConfig) (preserve : Bool)
    (dc : DocCfg) (root : Elem) (d0 d : Doc) (hl : loadDoc dc root = .ok d0) (hs : SameBut d0 d) :
    SameBut d (segment env cfg preserve d) ∧ (∀ j, (segment env cfg preserve d).getSubTag j = d.getSubTag j) ∧
    ∃ kept t1 t2 t3 t4 t5 t6,
      Spec.Stages env cfg (segLines d) (fun l => l.line.nonSpace.map (fun i => d.getTagValue i)) kept t1 t2 t3 t4 t5 t6 ∧
      (∀ l ∈ segLines d, kept l → preserve = true ∧
        ∃ i ∈ l.line.nonSpace, d.getPreservedTag i = some c!"page" ∨ d.getTag i = some c!"page") ∧
      (∀ l ∈ segLines d, preserve = true → (∀ i ∈ l.line.tokens, d.getTag i = none) →
        (∃ i ∈ l.line.nonSpace, d.getPreservedTag i = some c!"page") → kept l) ∧
      ∀ l ∈ segLines d,
        (Spec.LineShows (segment env cfg preserve d) l (Spec.finalLabel preserve (t6 l.index)) ∧
          ∀ s, Spec.finalLabel preserve (t6 l.index) = some s → Spec.IsLabel cfg s) ∨
        (Spec.KeepsTags cfg (l.line.nonSpace.map (fun i => d.getTagValue i)) ∧
          Spec.finalLabel preserve (t6 l.index) = t1 l.index ∧
          ∀ i ∈ l.line.tokens, ∀ m, (segment env cfg preserve d).getAttr i m = d.getAttr i m) := by
  have ho := ownLines_loadDoc hl hs
  generalize hls : segLines d = ls at ho
  -- the states
  obtain ⟨i1, i2, i3⟩ := segInit_effect cfg ho
  generalize hst1 : ls.foldl (segInitStep cfg) ⟨d, fun _ => none⟩ = st1 at i1 i2 i3
  have pl1 : PreservedLess d st1.doc := by rw [← hst1]; exact preservedLess_init cfg ls ⟨d, fun _ => none⟩
  have ho1 : OwnLines st1.doc ls := ho.congr i1
  have pl2 : PreservedLess st1.doc (clearFront cfg.frontMaxStartLineIndex ls st1).doc := preservedLess_front _ _ _
  have f0 : Relabels ls st1 (clearFront cfg.frontMaxStartLineIndex ls st1) := by
    by_cases hm : cfg.frontMaxStartLineIndex = 0
    · have : clearFront cfg.frontMaxStartLineIndex ls st1 = st1 := by unfold clearFront; rw [if_pos hm]
      rw [this]; exact .refl _ _
    · exact (clearFront_effect hm ho1).1
  have f1 : ∀ a l b, ls = a ++ l :: b → cfg.frontMaxStartLineIndex ≠ 0 → Spec.LateFront cfg.frontMaxStartLineIndex st1.tag a l →
      (clearFront cfg.frontMaxStartLineIndex ls st1).tag l.index = none ∧ Shown (clearFront cfg.frontMaxStartLineIndex ls st1).doc l none :=
    fun a l b e hm hL => ((clearFront_effect hm ho1).2 a l b e).1 hL
  have f2 : ∀ a l b, ls = a ++ l :: b → (cfg.frontMaxStartLineIndex = 0 ∨ ¬ Spec.LateFront cfg.frontMaxStartLineIndex st1.tag a l) →
      SameLine st1 (clearFront cfg.frontMaxStartLineIndex ls st1) l := by
    intro a l b e h
    by_cases hm : cfg.frontMaxStartLineIndex = 0
    · have : clearFront cfg.frontMaxStartLineIndex ls st1 = st1 := by unfold clearFront; rw [if_pos hm]
      rw [this]; exact ⟨rfl, fun _ _ => rfl⟩
    · exact ((clearFront_effect hm ho1).2 a l b e).2 (by rcases h with h | h; exact absurd h hm; exact h)
  generalize hst2 : clearFront cfg.frontMaxStartLineIndex ls st1 = st2 at f0 f1 f2 pl2
  have ho2 : OwnLines st2.doc ls := ho1.congr f0.same
  -- preserved page numbers
  generalize hst3 : (if preserve then applyPreservedPages ls st2 else st2) = st3
  have p0 : Relabels ls st2 st3 ∧ ∀ l ∈ ls,
      (truthy (st2.tag l.index) = false → keptPage preserve st2 l = true → st3.tag l.index = some segPage) ∧
      ((truthy (st2.tag l.index) = true ∨ ¬ keptPage preserve st2 l = true) → SameLine st2 st3 l) := by
    rw [← hst3]
    cases preserve with
    | false =>
      simp only [Bool.false_eq_true, if_false]
      refine ⟨.refl _ _, fun l _ => ⟨fun _ h => ?_, fun _ => ⟨rfl, fun _ _ => rfl⟩⟩⟩
      unfold keptPage at h
      simp at h
    | true =>
      simp only [if_true]
      have := tagUntagged_effect (ls := ls) (fun d l => decide (some segPage ∈ lineTagsOrPreserved d l.line)) (some segPage)
        (by intro a b l hl h; rw [lineTagsOrPreserved_congr h (ho.nonSpace l hl)]) ho2
      have e : applyPreservedPages ls st2 = ls.foldl (fun st l => if truthy (st.tag l.index) then st
          else if decide (some segPage ∈ lineTagsOrPreserved st.doc l.line) then st.set l (some segPage) else st) st2 := by
        unfold applyPreservedPages
        simp only [decide_eq_true_eq]
      rw [e]
      refine ⟨this.1, fun l hl => ⟨fun h1 h2 => ?_, fun h => ?_⟩⟩
      · exact ((this.2 l hl).1 ⟨h1, by unfold keptPage at h2; simpa using h2⟩).1
      · apply (this.2 l hl).2
        rintro ⟨x1, x2⟩
        rcases h with h | h
        · rw [x1] at h; cases h
        · apply h; unfold keptPage; simpa using x2
  have ho3 : OwnLines st3.doc ls := ho2.congr p0.1.same
  -- page numbers
  have g0 := findMissingPages_effect henv (env := env) ho3
  generalize hst4 : findMissingPages env ls st3 = st4 at g0
  have ho4 : OwnLines st4.doc ls := ho3.congr g0.1.same
  -- page headers
  have h0 := findPageHeaders_effect env cfg.pageHeaderMaxFirstLineIndex ho4
  generalize hst5 : findPageHeaders env cfg.pageHeaderMaxFirstLineIndex ls st4 = st5 at h0
  have ho5 : OwnLines st5.doc ls := ho4.congr h0.rel.same
  -- blocks
  have m0 := mergeLines_effect (preserve := preserve) (remaining := [segAnnex]) ho5 (segMergedTags_block cfg)
  generalize hst6 : mergeLines preserve (segMergedTags cfg) [segAnnex] ls st5 = st6 at m0
  obtain ⟨m1, m2, m3⟩ := m0
  have ho6 : OwnLines st6.doc ls := ho5.congr m1.same
  -- the rest
  generalize hst7 : (if preserve then st6 else tagRemaining ls st6) = st7
  have r0 : Relabels ls st6 st7 ∧ (∀ l ∈ ls, st7.tag l.index = Spec.finalLabel preserve (st6.tag l.index)) ∧
      ∀ l ∈ ls, SameLine st6 st7 l ∨ st7.tag l.index = some segBody := by
    rw [← hst7]
    unfold Spec.finalLabel
    cases preserve with
    | true => simp only [if_true, true_or]; exact ⟨.refl _ _, fun _ _ => trivial, fun _ _ => .inl ⟨rfl, fun _ _ => rfl⟩⟩
    | false =>
      simp only [Bool.false_eq_true, if_false, false_or]
      have := tagUntagged_effect (ls := ls) (fun _ _ => true) (some segBody) (by intros; rfl) ho6
      have e : tagRemaining ls st6 = ls.foldl (fun st l => if truthy (st.tag l.index) then st
          else if (true = true) then st.set l (some segBody) else st) st6 := by
        unfold tagRemaining
        simp only [if_true]
      rw [e]
      refine ⟨this.1, fun l hl => ?_, fun l hl => ?_⟩
      rotate_left
      · by_cases hx : truthy (st6.tag l.index) = true
        · exact .inl ((this.2 l hl).2 (by rintro ⟨h, _⟩; rw [hx] at h; cases h))
        · exact .inr ((this.2 l hl).1 ⟨by simpa using hx, rfl⟩).1
      by_cases hx : truthy (st6.tag l.index) = true
      · rw [if_pos hx]; exact ((this.2 l hl).2 (by rintro ⟨h, _⟩; rw [hx] at h; cases h)).1
      · rw [if_neg hx]; exact ((this.2 l hl).1 ⟨by simpa using hx, rfl⟩).1
  obtain ⟨r0, r2, r1⟩ := r0
  have hseg : segment env cfg preserve d = st7.doc := by
    unfold segment
    simp only [hls, hst1, hst2, hst3, hst4, hst5, hst6, hst7]
  rw [hseg]
  have hsame : SameBut d st7.doc :=
    i1.trans (f0.same.trans (p0.1.same.trans (g0.1.same.trans (h0.rel.same.trans (m1.same.trans r0.same)))))
  have hsub : ∀ j, st7.doc.getSubTag j = d.getSubTag j := by
    intro j
    rw [r0.sub, m1.sub, h0.rel.sub, g0.1.sub, p0.1.sub, f0.sub, i2]
  have hsplit : ∀ l ∈ ls, ∃ a b, ls = a ++ l :: b := fun l hl => List.append_of_mem hl
  -- what is shown at the second stage
  have hs12 : Steps cfg ls st1 st2 := by
    refine steps_of f0 (fun l hl => ?_)
    obtain ⟨a, b, e⟩ := hsplit l hl
    by_cases h : cfg.frontMaxStartLineIndex = 0 ∨ ¬ Spec.LateFront cfg.frontMaxStartLineIndex st1.tag a l
    · exact .inl (f2 a l b e h)
    · right
      rw [not_or, Classical.not_not] at h
      rw [(f1 a l b e h.1 h.2).1]; exact noneOrLabel_none
  have hshow2 : ∀ l ∈ ls, (Shown st2.doc l (st2.tag l.index) ∧ NoneOrLabel cfg (st2.tag l.index)) ∨
      (Spec.KeepsTags cfg (lineValues d l) ∧ SameLine st1 st2 l ∧ ∀ i ∈ l.line.tokens, st2.doc.getAttr i = d.getAttr i) := by
    intro l hl
    rcases hs12 l hl with e | e
    · rcases (i3 l hl).2 with x | ⟨x1, x2⟩
      · exact .inl ⟨x.1.congr e, by rw [e.1]; exact x.2⟩
      · exact .inr ⟨x1, e, fun i hi => by rw [e.2 i hi, x2 i hi]⟩
    · exact .inl e
  have hs23 : Steps cfg ls st2 st3 := by
    refine steps_of p0.1 (fun l hl => ?_)
    by_cases h : truthy (st2.tag l.index) = true ∨ ¬ keptPage preserve st2 l = true
    · exact .inl ((p0.2 l hl).2 h)
    · right
      rw [not_or, Classical.not_not] at h
      rw [(p0.2 l hl).1 (by simpa using h.1) h.2]
      exact noneOrLabel_some (.inl (by decide))
  have hs34 : Steps cfg ls st3 st4 := by
    refine steps_of g0.1 (fun l hl => ?_)
    obtain ⟨a, b, e⟩ := hsplit l hl
    by_cases h : Spec.FoundPage env st3.tag a l b
    · right
      rw [((g0.2 a l b e).1 h).1]
      exact noneOrLabel_some (.inl (by decide))
    · exact .inl ((g0.2 a l b e).2 h)
  have hs45 : Steps cfg ls st4 st5 := by
    refine steps_of h0.rel (fun l hl => ?_)
    by_cases h : Spec.IsHeader env cfg.pageHeaderMaxFirstLineIndex ls
        ((ls.filter (fun l => !truthy (st4.tag l.index))).map SegLine.text) l.text
    · right
      rw [(h0.pos l hl h).1]
      exact noneOrLabel_some (.inl (by decide))
    · exact .inl (h0.neg l hl h)
  have hs56 : Steps cfg ls st5 st6 := by
    refine steps_of m1 (fun l hl => ?_)
    obtain ⟨a, b, e⟩ := hsplit l hl
    have em := m2 a l b e
    unfold Spec.mergedTag at em
    split at em
    · next hc =>
      right
      rw [em]
      have : Spec.blockBefore (a.map (fun l => st5.tag l.index)) ∈ segMergedTags cfg := hc.2.2.1
      generalize Spec.blockBefore (a.map (fun l => st5.tag l.index)) = x at this
      apply noneOrLabel_some
      left
      rcases segMergedTags_cases cfg x this with rfl | rfl | rfl <;> decide
    · exact .inl (m3 l hl em)
  have hs67 : Steps cfg ls st6 st7 := by
    refine steps_of r0 (fun l hl => ?_)
    rcases r1 l hl with h | h
    · exact .inl h
    · right; rw [h]; exact noneOrLabel_some (.inl (by decide))
  have hsteps : Steps cfg ls st2 st7 := hs23.trans (hs34.trans (hs45.trans (hs56.trans hs67)))
  refine ⟨hsame, hsub, fun l => truthy (st2.tag l.index) = false ∧ keptPage preserve st2 l = true, st1.tag, st2.tag, st3.tag, st4.tag, st5.tag, st6.tag, ?_, ?_, ?_, ?_⟩
  · have hkn : ∀ l, (truthy (st2.tag l.index) = true ∨ ¬ (truthy (st2.tag l.index) = false ∧ keptPage preserve st2 l = true)) →
        truthy (st2.tag l.index) = true ∨ ¬ keptPage preserve st2 l = true := by
      intro l h
      cases hx : truthy (st2.tag l.index) with
      | true => exact .inl rfl
      | false =>
        rcases h with h | h
        · rw [hx] at h; cases h
        · exact .inr (fun hk => h ⟨hx, hk⟩)
    refine ⟨fun l hl => (i3 l hl).1, fun a l b e hm hL => (f1 a l b e hm hL).1, fun a l b e h => (f2 a l b e h).1,
      fun l hl h1 h2 => (p0.2 l hl).1 h1 h2.2, fun l hl h => ((p0.2 l hl).2 (hkn l h)).1, fun a l b e h => ((g0.2 a l b e).1 h).1,
      fun a l b e h => ((g0.2 a l b e).2 h).1, fun l hl h => (h0.pos l hl h).1, fun l hl h => (h0.neg l hl h).1, ?_⟩
    intro a l b e
    have hl : l ∈ ls := by rw [e]; simp
    rw [m2 a l b e]
    have hen : segMergedTags cfg = [c!"front", c!"annex"] ++ if cfg.noMergeReferences = true then [] else [c!"reference"] := rfl
    rw [hen]
    by_cases ht : truthy (st5.tag l.index) = true
    · rw [mergedTag_truthy ht, mergedTag_truthy ht]
    · -- a line without tag has no preserved page number
      have hk : keptPage preserve st5 l = false := by
        cases hp : preserve with
        | false => unfold keptPage; simp
        | true =>
          have ht' : truthy (st5.tag l.index) = false := by simpa using ht
          have s45 : SameLine st4 st5 l := by
            apply h0.neg l hl
            intro hx
            rw [(h0.pos l hl hx).1] at ht'
            cases ht'
          have s34 : SameLine st3 st4 l := by
            apply (g0.2 a l b e).2
            intro hx
            rw [s45.1, ((g0.2 a l b e).1 hx).1] at ht'
            cases ht'
          have hk2 : ¬ (truthy (st2.tag l.index) = false ∧ keptPage preserve st2 l = true) := by
            rintro ⟨x1, x2⟩
            rw [s45.1, s34.1, (p0.2 l hl).1 x1 x2] at ht'
            cases ht'
          have s23 : SameLine st2 st3 l := by
            apply (p0.2 l hl).2
            by_cases hx : truthy (st2.tag l.index) = true
            · exact .inl hx
            · exact .inr (fun hy => hk2 ⟨by simpa using hx, hy⟩)
          have s25 := (s23.trans s34).trans s45
          have ht2 : truthy (st2.tag l.index) = false := by rw [← s25.1]; exact ht'
          cases hk5 : keptPage true st5 l with
          | false => rfl
          | true =>
            exfalso
            apply hk2
            refine ⟨ht2, ?_⟩
            rw [hp]
            unfold keptPage at hk5 ⊢
            rw [lineTagsOrPreserved_congr s25 (ho.nonSpace l hl)] at hk5
            exact hk5
      rw [hk]
      rfl
  · rintro l hl ⟨hun, hk⟩
    unfold keptPage at hk
    rw [Bool.and_eq_true, decide_eq_true_eq] at hk
    refine ⟨hk.1, ?_⟩
    obtain ⟨i, hi, e⟩ := List.mem_map.1 hk.2
    refine ⟨i, hi, ?_⟩
    have hit := ho.nonSpace l hl i hi
    unfold Doc.getTagOrPreserved pyOr at e
    split at e
    · next htr =>
      -- the tag itself
      right
      rcases hshow2 l hl with x | ⟨_, _, x⟩
      · exfalso
        rcases x.1 i hit with y | ⟨_, y⟩
        · rw [y, hun] at htr; cases htr
        · rw [y] at htr; cases htr
      · have : st2.doc.getTag i = d.getTag i := by unfold Doc.getTag; rw [x i hit]
        rw [← this]; exact e
    · left
      rcases (pl1.trans pl2) i with x | x
      · rw [← x]; exact e
      · rw [x] at e; cases e
  · rintro l hl hp hnone ⟨i, hi, hpage⟩
    have hs1 : SameLine ⟨d, fun _ => none⟩ st1 l := by rw [← hst1]; exact segInit_untagged cfg ho hl hnone
    have ht1 : st1.tag l.index = none := hs1.1
    obtain ⟨a, b, e⟩ := hsplit l hl
    have hs2 : SameLine st1 st2 l := by
      apply f2 a l b e
      right
      rintro ⟨a1, first, a2, e1, e2, _⟩
      have hne : first :: a2 ≠ [] := by simp
      have e3 : (a ++ [l]).getLast? = (a1 ++ first :: a2).getLast? := by rw [e1]
      rw [List.getLast?_concat, List.getLast?_append, List.getLast?_eq_some_getLast hne, Option.some_or] at e3
      have := e2 l (by rw [Option.some.inj e3]; exact List.getLast_mem hne)
      rw [ht1] at this
      cases this
    refine ⟨by rw [hs2.1, ht1]; rfl, ?_⟩
    unfold keptPage
    rw [hp, Bool.true_and, decide_eq_true_eq]
    refine List.mem_map.2 ⟨i, hi, ?_⟩
    have hit := ho.nonSpace l hl i hi
    rw [getTagOrPreserved_congr ((hs1.trans hs2).2 i hit) none]
    show pyOr (d.getTag i) (d.getPreservedTag i) = _
    rw [hnone i hit, hpage]
    rfl
  · intro l hl
    have e7 : Spec.finalLabel preserve (st6.tag l.index) = st7.tag l.index := (r2 l hl).symm
    rw [e7]
    rcases hsteps l hl with x | x
    · rcases hshow2 l hl with y | ⟨y1, y2, y3⟩
      · exact .inl ⟨shows_of_shown (y.1.congr x), by rw [x.1]; exact y.2⟩
      · refine .inr ⟨y1, ?_, fun i hi m => ?_⟩
        · rw [x.1, y2.1]
        · rw [x.2 i hi, y3 i hi]
    · exact .inl ⟨shows_of_shown x.1, x.2⟩

/-- **C29.** Without preserved tags, after segmentation all tokens of each line have the same label, one of those
configured or one of the fixed ones; or the tokens of the line are as before, where the tag that most of
them have is not mapped to a label, or is its own label and references are not merged. -/
theorem C29_one_label (env : SegEnv) (henv : env.isDigit '\n' = false) (cfg : SegConfig)
    (dc : DocCfg) (root : Elem) (d0 d : Doc) (hl : loadDoc dc root = .ok d0) (hs : SameBut d0 d) :
    ∀ l ∈ segLines d,
      (∃ s, s ≠ [] ∧ Spec.IsLabel cfg s ∧ ∀ i ∈ l.line.tokens, (segment env cfg false d).getTag i = some s) ∨
      (∃ n, n ≠ [] ∧ Spec.IsMajority (l.line.nonSpace.map (fun i => d.getTagValue i)) (some n) ∧
        ((∀ s, Spec.labelOf cfg n = some s → s = []) ∨ (Spec.labelOf cfg n = some n ∧ cfg.noMergeReferences = true)) ∧
        ∀ i ∈ l.line.tokens, (segment env cfg false d).getTag i = d.getTag i) := by
  obtain ⟨_, _, kept, t1, t2, t3, t4, t5, t6, hst, _, _, h⟩ := C29_labels env henv cfg false dc root d0 d hl hs
  intro l hl
  have htr : truthy (Spec.finalLabel false (t6 l.index)) = true := by
    unfold Spec.finalLabel
    by_cases ht : truthy (t6 l.index) = true
    · rw [if_pos (.inr ht)]; exact ht
    · rw [if_neg (by simp [ht])]; rfl
  obtain ⟨s, hs1, hs2⟩ := truthy_iff.1 htr
  rcases h l hl with ⟨x1, x2⟩ | ⟨x1, x2, x3⟩
  · exact .inl ⟨s, hs2, x2 s hs1, x1.1 s hs1⟩
  · right
    have hf := hst.first l hl
    rw [← x2, hs1] at hf
    rcases x1 with x1 | ⟨n, x1, x4⟩
    · exfalso
      generalize hv : l.line.nonSpace.map (fun i => d.getTagValue i) = vs at hf x1
      rw [x1] at hf
      cases hf with
      | mapped hm _ _ => obtain ⟨a, b, e, _⟩ := hm; simp at e
      | tag hm _ => obtain ⟨a, b, e, _⟩ := hm; simp at e
    · have hn : n ≠ [] := by
        rintro rfl
        cases hf with
        | mapped hm hl2 hs3 =>
          have := Option.some.inj (majority_unique hm x1)
          subst this
          rcases x4 with x4 | x4
          · exact hs3 (x4 _ hl2)
          · exact x4.2.1 rfl
        | tag hm _ => exact hs2 (Option.some.inj (majority_unique hm x1))
      refine ⟨n, hn, x1, ?_, fun i hi => x3 i hi _⟩
      rcases x4 with x4 | x4
      · exact .inl x4
      · exact .inr ⟨x4.1, x4.2.2⟩

/-- **C29.** A line most of whose tokens have a tag that is mapped to another label gets this label, unless its
text is that of a page header, or it belongs to a front block behind the threshold. -/
theorem C29_mapped (env : SegEnv) (henv : env.isDigit '\n' = false) (cfg : SegConfig)
    (dc : DocCfg) (root : Elem) (d0 d : Doc) (hl : loadDoc dc root = .ok d0) (hs : SameBut d0 d)
    (l : SegLine) (hm : l ∈ segLines d) (n s : Str) (hmaj : Spec.IsMajority (l.line.nonSpace.map (fun i => d.getTagValue i)) (some n))
    (hlab : Spec.labelOf cfg n = some s) (hs0 : s ≠ []) (hne : s ≠ n ∨ cfg.noMergeReferences = false)
    (hfront : s = c!"front" → cfg.frontMaxStartLineIndex = 0) :
    (∀ i ∈ l.line.tokens, (segment env cfg false d).getTag i = some s) ∨
    (∀ i ∈ l.line.tokens, (segment env cfg false d).getTag i = some c!"headnote") := by
  obtain ⟨_, _, kept, t1, t2, t3, t4, t5, t6, hst, hk, _, h⟩ := C29_labels env henv cfg false dc root d0 d hl hs
  obtain ⟨a, b, e⟩ := List.append_of_mem hm
  have h1 : t1 l.index = some s := by
    have := hst.first l hm
    generalize ht : t1 l.index = x at this
    cases this with
    | empty hv => obtain ⟨a, b, e, _⟩ := hmaj; rw [hv] at e; simp at e
    | mapped hm2 hl2 _ =>
      have := Option.some.inj (majority_unique hm2 hmaj)
      subst this
      rw [hlab] at hl2
      exact hl2.symm
    | tag hm2 hl2 => exact absurd (hl2 n s (majority_unique hm2 hmaj) hlab) hs0
  have h2 : t2 l.index = some s := by
    rw [hst.notLate a l b e, h1]
    by_cases hf : s = c!"front"
    · exact .inl (hfront hf)
    · right
      rintro ⟨a1, first, a2, e1, e2, _⟩
      have hne : first :: a2 ≠ [] := by simp
      have e3 : (a ++ [l]).getLast? = (a1 ++ first :: a2).getLast? := by rw [e1]
      rw [List.getLast?_concat, List.getLast?_append, List.getLast?_eq_some_getLast hne, Option.some_or] at e3
      have := e2 l (by rw [Option.some.inj e3]; exact List.getLast_mem hne)
      rw [h1] at this
      exact hf (Option.some.inj this)
  have htr : truthy (some s) = true := truthy_some.2 hs0
  have h3 : t3 l.index = some s := by rw [hst.notPreserved l hm (.inl (by rw [h2]; exact htr)), h2]
  have h4 : t4 l.index = some s := by
    rw [hst.notPage a l b e, h3]
    rintro ⟨hx, _⟩
    rw [h3, htr] at hx
    cases hx
  have h5 : t5 l.index = some s ∨ t5 l.index = some c!"headnote" := by
    by_cases hh : Spec.IsHeader env cfg.pageHeaderMaxFirstLineIndex (segLines d)
        (((segLines d).filter (fun l => !truthy (t4 l.index))).map SegLine.text) l.text
    · exact .inr (hst.header l hm hh)
    · exact .inl (by rw [hst.notHeader l hm hh, h4])
  have h6 : t6 l.index = t5 l.index := by
    rw [hst.merged a l b e, mergedTag_truthy]
    rcases h5 with x | x <;> rw [x]
    · exact htr
    · rfl
  have htr5 : truthy (t5 l.index) = true := by
    rcases h5 with x | x <;> rw [x]
    · exact htr
    · rfl
  have h7 : Spec.finalLabel false (t6 l.index) = t5 l.index := by
    unfold Spec.finalLabel
    rw [h6, if_pos (.inr htr5)]
  rcases h l hm with ⟨x1, _⟩ | ⟨x1, _, _⟩
  · rw [h7] at x1
    rcases h5 with y | y
    · exact .inl (x1.1 s y)
    · exact .inr (x1.1 _ y)
  · exfalso
    rcases x1 with x1 | ⟨n', x1, x2⟩
    · obtain ⟨a, b, e, _⟩ := hmaj
      rw [x1] at e
      simp at e
    · have := Option.some.inj (majority_unique x1 hmaj)
      subst this
      rcases x2 with x2 | ⟨x2, _, x3⟩
      · exact hs0 (x2 s hlab)
      · rw [hlab] at x2
        have := Option.some.inj x2
        rcases hne with y | y
        · exact y this
        · rw [x3] at y; cases y

/-! ## C30 Merging of blocks -/

/-- **C30**, in full. Merging gives each line the tag as specified: the tags of lines change only for those
without tag in a gap of a block (or behind the last one, if that is the annex). Other lines stay as they
are, and all tokens of a line whose tag changes get this tag. Texts and sub tags stay. -/
theorem C30_merge (preserve : Bool) (cfg : SegConfig) (dc : DocCfg) (root : Elem) (d0 : Doc) (st : SegState)
    (hl : loadDoc dc root = .ok d0) (hs : SameBut d0 st.doc) :
    let ls := segLines st.doc
    let st' := mergeLines preserve (segMergedTags cfg) [segAnnex] ls st
    SameBut st.doc st'.doc ∧ (∀ j, st'.doc.getSubTag j = st.doc.getSubTag j) ∧
    ∀ a l b, ls = a ++ l :: b →
      (st'.tag l.index =
        Spec.mergedTag ([c!"front", c!"annex"] ++ if cfg.noMergeReferences then [] else [c!"reference"]) [c!"annex"]
          (preserve && decide (some c!"page" ∈ l.line.nonSpace.map (fun i => st.doc.getTagOrPreserved i)))
          (a.map (fun l => st.tag l.index)) (st.tag l.index) (b.map (fun l => st.tag l.index))) ∧
      (st'.tag l.index = st.tag l.index → ∀ i ∈ l.line.tokens, ∀ m, st'.doc.getAttr i m = st.doc.getAttr i m) ∧
      (st'.tag l.index ≠ st.tag l.index → ∀ i ∈ l.line.tokens, st'.doc.getTag i = st'.tag l.index) := by
  intro ls st'
  have ho := ownLines_loadDoc hl hs
  obtain ⟨m1, m2, m3⟩ := mergeLines_effect (preserve := preserve) (remaining := [segAnnex]) ho (segMergedTags_block cfg)
  refine ⟨m1.same, m1.sub, fun a l b e => ?_⟩
  have hlm : l ∈ ls := by rw [e]; simp
  refine ⟨m2 a l b e, fun h i hi m => by rw [(m3 l hlm h).2 i hi], fun h => ?_⟩
  rcases m1.line l hlm with x | x
  · exact absurd x.1 h
  · intro i hi
    rcases x i hi with y | ⟨y, _⟩
    · exact y
    · exfalso
      have em := m2 a l b e
      unfold Spec.mergedTag at em
      split at em
      · rw [y] at em; cases em
      · exact h em

/-- **C30.** A tagged line keeps its tags. -/
theorem C30_tagged_kept (preserve : Bool) (cfg : SegConfig) (dc : DocCfg) (root : Elem) (d0 : Doc) (st : SegState)
    (hl : loadDoc dc root = .ok d0) (hs : SameBut d0 st.doc) (l : SegLine) (hm : l ∈ segLines st.doc)
    (ht : truthy (st.tag l.index) = true) :
    let st' := mergeLines preserve (segMergedTags cfg) [segAnnex] (segLines st.doc) st
    st'.tag l.index = st.tag l.index ∧ ∀ i ∈ l.line.tokens, ∀ m, st'.doc.getAttr i m = st.doc.getAttr i m := by
  intro st'
  obtain ⟨a, b, e⟩ := List.append_of_mem hm
  obtain ⟨_, _, h⟩ := C30_merge preserve cfg dc root d0 st hl hs
  obtain ⟨h1, h2, _⟩ := h a l b e
  rw [mergedTag_truthy ht] at h1
  exact ⟨h1, h2 h1⟩

/-! ## C31 Page numbers -/

/-- **C31**, in full. Exactly the lines which are page numbers as specified are marked; other lines stay. -/
theorem C31_found (env : SegEnv) (henv : env.isDigit '\n' = false) (dc : DocCfg) (root : Elem) (d0 : Doc) (st : SegState)
    (hl : loadDoc dc root = .ok d0) (hs : SameBut d0 st.doc) :
    let ls := segLines st.doc
    let st' := findMissingPages env ls st
    ∀ a l b, ls = a ++ l :: b →
      (Spec.FoundPage env st.tag a l b → st'.tag l.index = some c!"page" ∧ ∀ i ∈ l.line.tokens, st'.doc.getTag i = some c!"page") ∧
      (¬ Spec.FoundPage env st.tag a l b → st'.tag l.index = st.tag l.index ∧
        ∀ i ∈ l.line.tokens, ∀ m, st'.doc.getAttr i m = st.doc.getAttr i m) := by
  intro ls st' a l b e
  obtain ⟨h1, h2⟩ := (findMissingPages_effect henv (ownLines_loadDoc hl hs)).2 a l b e
  exact ⟨fun h => ⟨(h1 h).1, (shows_of_shown (h1 h).2).1 _ rfl⟩, fun h => ⟨(h2 h).1, fun i hi m => by rw [(h2 h).2 i hi]⟩⟩

theorem expected_ge_last {env : SegEnv} {tag : Nat → Option Str} {hi : Int} {a : List SegLine} {n : Int}
    (h : Spec.Expected env tag hi a n) :
    (∀ p, (a.filter (fun x => tag x.index = some c!"page")).getLast? = some p → Spec.pageNumber env p.text ≤ n) ∧
    ((a.filter (fun x => tag x.index = some c!"page")) = [] → 1 ≤ n) := by
  induction h with
  | start => exact ⟨by simp, fun _ => Int.le_refl _⟩
  | @page a l n _ ht ih =>
    rw [List.filter_append, List.filter_cons, if_pos (by simpa using ht)]
    refine ⟨?_, by simp⟩
    intro p hp
    rw [List.filter_nil, List.getLast?_concat] at hp
    rw [Option.some.inj hp]
    exact Int.le_refl _
  | @found a l n _ ht _ _ _ ih =>
    have : ¬ tag l.index = some c!"page" := by intro h; rw [h] at ht; cases ht
    rw [List.filter_append, List.filter_cons, if_neg (by simpa using this), List.filter_nil, List.append_nil]
    exact ⟨fun p hp => by have := ih.1 p hp; omega, fun h => by have := ih.2 h; omega⟩
  | @other a l n _ ht _ ih =>
    rw [List.filter_append, List.filter_cons, if_neg (by simpa using ht), List.filter_nil, List.append_nil]
    exact ih

/-- **C31**, consistency with the numbers known before. A line marked as page number had no tag, its text is a
number, less than that of the next line marked before, and at least that of the previous line marked before,
if there is one, and at least 1 otherwise. -/
theorem C31_consistent_partial (env : SegEnv) (henv : env.isDigit '\n' = false) (dc : DocCfg) (root : Elem) (d0 : Doc) (st : SegState)
    (hl : loadDoc dc root = .ok d0) (hs : SameBut d0 st.doc) (a : List SegLine) (l : SegLine) (b : List SegLine)
    (e : segLines st.doc = a ++ l :: b)
    (hnew : (findMissingPages env (segLines st.doc) st).tag l.index ≠ st.tag l.index) :
    truthy (st.tag l.index) = false ∧ Spec.IsNumber env l.text ∧
    (∃ next, (b.filter (fun x => st.tag x.index = some c!"page")).head? = some next ∧
      Spec.pageNumber env l.text < Spec.pageNumber env next.text) ∧
    (∀ prev, (a.filter (fun x => st.tag x.index = some c!"page")).getLast? = some prev →
      Spec.pageNumber env prev.text ≤ Spec.pageNumber env l.text) ∧
    ((a.filter (fun x => st.tag x.index = some c!"page")) = [] → 1 ≤ Spec.pageNumber env l.text) := by
  obtain ⟨_, h2⟩ := C31_found env henv dc root d0 st hl hs a l b e
  by_cases hf : Spec.FoundPage env st.tag a l b
  · obtain ⟨h3, h4, next, n, h5, h6, h7, h8⟩ := hf
    refine ⟨h3, h4, ⟨next, h5, h8⟩, fun prev hp => ?_, fun hp => ?_⟩
    · have := (expected_ge_last h6).1 prev hp; omega
    · have := (expected_ge_last h6).2 hp; omega
  · exact absurd (h2 hf).1 hnew

theorem expected_le_increasing {env : SegEnv} {tag : Nat → Option Str} {hi : Int} {a : List SegLine} {n : Int}
    (h : Spec.Expected env tag hi a n) :
    ∀ x : Int, 1 ≤ x → (∀ p ∈ a, tag p.index = some c!"page" ∨ (truthy (tag p.index) = false ∧ Spec.IsNumber env p.text) →
      Spec.pageNumber env p.text < x) → n ≤ x := by
  induction h with
  | start => intro x h1 _; exact h1
  | @page a l n _ ht ih =>
    intro x _ hx
    have := hx l (by simp) (.inl ht)
    omega
  | @found a l n _ ht h2 h3 h4 ih =>
    intro x _ hx
    have := hx l (by simp) (.inr ⟨ht, h2⟩)
    omega
  | other _ _ _ ih =>
    intro x h1 hx
    exact ih x h1 (fun p hp => hx p (List.mem_append_left _ hp))

/-- **C31**, completeness. A line without tag whose text is a number, at least 1, greater than all numbers before it
(marked or without tag) and less than the next one marked before is found. -/
theorem C31_increasing_found (env : SegEnv) (henv : env.isDigit '\n' = false) (dc : DocCfg) (root : Elem) (d0 : Doc) (st : SegState)
    (hl : loadDoc dc root = .ok d0) (hs : SameBut d0 st.doc) (a : List SegLine) (l : SegLine) (b : List SegLine)
    (e : segLines st.doc = a ++ l :: b) (ht : truthy (st.tag l.index) = false) (hn : Spec.IsNumber env l.text)
    (h1 : 1 ≤ Spec.pageNumber env l.text)
    (hprev : ∀ p ∈ a, st.tag p.index = some c!"page" ∨ (truthy (st.tag p.index) = false ∧ Spec.IsNumber env p.text) →
      Spec.pageNumber env p.text < Spec.pageNumber env l.text)
    (next : SegLine) (hnext : (b.filter (fun x => st.tag x.index = some c!"page")).head? = some next)
    (hlt : Spec.pageNumber env l.text < Spec.pageNumber env next.text) :
    ∀ i ∈ l.line.tokens, (findMissingPages env (segLines st.doc) st).doc.getTag i = some c!"page" := by
  obtain ⟨n, hexp⟩ := expected_exists (env := env) st.tag (Spec.pageNumber env next.text) a
  exact ((C31_found env henv dc root d0 st hl hs a l b e).1
    ⟨ht, hn, next, n, hnext, hexp, expected_le_increasing hexp _ h1 hprev, hlt⟩).2

/-- **C31**, preserved page numbers: lines without tag with a token which is (or was) a page number are marked; other
lines stay. -/
theorem C31_preserved (dc : DocCfg) (root : Elem) (d0 : Doc) (st : SegState) (hl : loadDoc dc root = .ok d0) (hs : SameBut d0 st.doc) :
    let st' := applyPreservedPages (segLines st.doc) st
    ∀ l ∈ segLines st.doc,
      (truthy (st.tag l.index) = false ∧ (∃ i ∈ l.line.nonSpace, st.doc.getTagOrPreserved i = some c!"page") →
        st'.tag l.index = some c!"page" ∧ ∀ i ∈ l.line.tokens, st'.doc.getTag i = some c!"page") ∧
      (¬ (truthy (st.tag l.index) = false ∧ ∃ i ∈ l.line.nonSpace, st.doc.getTagOrPreserved i = some c!"page") →
        st'.tag l.index = st.tag l.index ∧ ∀ i ∈ l.line.tokens, ∀ m, st'.doc.getAttr i m = st.doc.getAttr i m) := by
  have ho := ownLines_loadDoc hl hs
  have := tagUntagged_effect (ls := segLines st.doc) (fun d l => decide (some segPage ∈ lineTagsOrPreserved d l.line)) (some segPage)
    (by intro a b l hl h; rw [lineTagsOrPreserved_congr h (ho.nonSpace l hl)]) ho
  have e : applyPreservedPages (segLines st.doc) st = (segLines st.doc).foldl (fun st l => if truthy (st.tag l.index) then st
      else if decide (some segPage ∈ lineTagsOrPreserved st.doc l.line) then st.set l (some segPage) else st) st := by
    unfold applyPreservedPages
    simp only [decide_eq_true_eq]
  intro st'
  have e' : st' = _ := e
  rw [e']
  intro l hl
  obtain ⟨h1, h2⟩ := this.2 l hl
  have hiff : decide (some segPage ∈ lineTagsOrPreserved st.doc l.line) = true ↔
      ∃ i ∈ l.line.nonSpace, st.doc.getTagOrPreserved i = some c!"page" := by
    rw [decide_eq_true_eq]
    unfold lineTagsOrPreserved
    rw [List.mem_map]
    rfl
  rw [hiff] at h1 h2
  exact ⟨fun h => ⟨(h1 h).1, (shows_of_shown (h1 h).2).1 _ rfl⟩, fun h => ⟨(h2 h).1, fun i hi m => by rw [(h2 h).2 i hi]⟩⟩

/-! ## C32 Page headers -/

/-- **C32**, in full. Exactly the lines with the text of a page header are marked as such; other lines stay. -/
theorem C32_headers (env : SegEnv) (maxFirst : Int) (dc : DocCfg) (root : Elem) (d0 : Doc) (st : SegState)
    (hl : loadDoc dc root = .ok d0) (hs : SameBut d0 st.doc) :
    let ls := segLines st.doc
    let st' := findPageHeaders env maxFirst ls st
    let untagged := (ls.filter (fun l => !truthy (st.tag l.index))).map SegLine.text
    ∀ l ∈ ls,
      (Spec.IsHeader env maxFirst ls untagged l.text → st'.tag l.index = some c!"headnote" ∧
        ∀ i ∈ l.line.tokens, st'.doc.getTag i = some c!"headnote") ∧
      (¬ Spec.IsHeader env maxFirst ls untagged l.text → st'.tag l.index = st.tag l.index ∧
        ∀ i ∈ l.line.tokens, ∀ m, st'.doc.getAttr i m = st.doc.getAttr i m) := by
  intro ls st' untagged l hlm
  have h := findPageHeaders_effect env maxFirst (ownLines_loadDoc hl hs)
  exact ⟨fun hh => ⟨(h.pos l hlm hh).1, (shows_of_shown (h.pos l hlm hh).2).1 _ rfl⟩,
    fun hh => ⟨(h.neg l hlm hh).1, fun i hi m => by rw [(h.neg l hlm hh).2 i hi]⟩⟩

/-! ## C67 The threshold for the front -/

/-- **C67.** With a threshold, exactly the lines of those front blocks that start behind it are cleared; other lines stay. -/
theorem C67_late_front (maxStart : Int) (hm : maxStart ≠ 0) (dc : DocCfg) (root : Elem) (d0 : Doc) (st : SegState)
    (hl : loadDoc dc root = .ok d0) (hs : SameBut d0 st.doc) :
    let ls := segLines st.doc
    let st' := clearFront maxStart ls st
    ∀ a l b, ls = a ++ l :: b →
      (Spec.LateFront maxStart st.tag a l → st'.tag l.index = none ∧ ∀ i ∈ l.line.tokens, truthy (st'.doc.getTag i) = false) ∧
      (¬ Spec.LateFront maxStart st.tag a l → st'.tag l.index = st.tag l.index ∧
        ∀ i ∈ l.line.tokens, ∀ m, st'.doc.getAttr i m = st.doc.getAttr i m) := by
  intro ls st' a l b e
  obtain ⟨h1, h2⟩ := (clearFront_effect hm (ownLines_loadDoc hl hs)).2 a l b e
  exact ⟨fun h => ⟨(h1 h).1, (shows_of_shown (h1 h).2).2 rfl⟩, fun h => ⟨(h2 h).1, fun i hi m => by rw [(h2 h).2 i hi]⟩⟩

/-- **C67.** Without threshold nothing is cleared. -/
theorem C67_no_threshold (ls : List SegLine) (st : SegState) : clearFront 0 ls st = st := rfl

/-! ## Examples -/

/-- ASCII digits and spaces, and decimal numbers. -/
def asciiSegEnv : SegEnv where
  isDigit := fun c => decide ('0' ≤ c ∧ c ≤ '9')
  isSpace := fun c => decide (c = ' ' ∨ c = '\n' ∨ c = '\t')
  parseInt := fun s => if s ≠ [] ∧ s.all (fun c => decide ('0' ≤ c ∧ c ≤ '9')) then
    some (s.foldl (fun n c => 10 * n + ((c.toNat : Int) - 48)) 0) else none

def exSegDocCfg : DocCfg := ⟨asciiClass, [], fun _ _ => true, [c!"text"], true⟩

/-- A document with the given lines. -/
def exSegRoot (first : Str) (rest : List Str) : Elem :=
  .mk c!"tei" [] none [.mk c!"text" [] (some first) (rest.map (fun s => .mk c!"lb" [] none [] (some s))) none] none

def exSegCfg : SegConfig := { mapping := [(c!"front", [c!"title", c!"abstract"]), (c!"reference", [c!"ref"])] }

/-- Loads, sets tags, and runs segmentation; the result is the tags of all tokens. -/
def exSegment (cfg : SegConfig) (preserve : Bool) (root : Elem) (tags : List (Nat × Str)) : Except Err (List (Option Str)) :=
  match loadDoc exSegDocCfg root with
  | .error e => .error e
  | .ok d =>
    let d1 := tags.foldl (fun d p => d.setTag p.1 (some p.2)) d
    .ok (d1.allTokens.map (fun i => (segment asciiSegEnv cfg preserve d1).getTag i))

/-- A title, a line between title and abstract, the abstract, and a line of the body. -/
example : ∃ r, exSegment exSegCfg false (exSegRoot c!"A" [c!"X", c!"B C", c!"D"]) [(0, c!"b-title"), (2, c!"b-abstract"), (4, c!"i-abstract")] = .ok r ∧
    r = [some c!"front", some c!"front", some c!"front", some c!"front", some c!"front", some c!"body"] :=
  exists_of_okAnd (by decide +kernel)

/-- Two lines of the same text which is not a number are page headers, with a page number in between. -/
example : ∃ r, exSegment exSegCfg false (exSegRoot c!"J V" [c!"1", c!"J V", c!"2", c!"x"]) [(7, c!"page")] = .ok r ∧
    r = [some c!"headnote", some c!"headnote", some c!"headnote", some c!"page", some c!"headnote", some c!"headnote",
      some c!"headnote", some c!"page", some c!"body"] :=
  exists_of_okAnd (by decide +kernel)

/-- A second front block behind the threshold belongs to the body. -/
example : ∃ r, exSegment { exSegCfg with frontMaxStartLineIndex := 1 } false (exSegRoot c!"A" [c!"X", c!"B", c!"C"])
      [(0, c!"title"), (2, c!"abstract"), (3, c!"abstract")] = .ok r ∧
    r = [some c!"front", some c!"body", some c!"body", some c!"body"] :=
  exists_of_okAnd (by decide +kernel)

/-- The lines behind the last line of the annex belong to it, those behind the references to the body. -/
example : ∃ r, exSegment exSegCfg false (exSegRoot c!"A" [c!"X", c!"B", c!"C"]) [(0, c!"ref"), (2, c!"annex")] = .ok r ∧
    r = [some c!"reference", some c!"body", some c!"annex", some c!"annex"] :=
  exists_of_okAnd (by decide +kernel)

/-- With preserved tags lines without label stay without tag. -/
example : ∃ r, exSegment exSegCfg true (exSegRoot c!"A" [c!"X", c!"B", c!"C"]) [(0, c!"title"), (2, c!"page")] = .ok r ∧
    r = [some c!"front", none, some c!"page", none] :=
  exists_of_okAnd (by decide +kernel)

/-- A document with a page number in its second line. -/
def exSegPageRoot : Elem :=
  .mk c!"tei" [] none [.mk c!"text" [] (some c!"a")
    [.mk c!"lb" [] none [] none, .mk c!"page" [] (some c!"7") [] none, .mk c!"lb" [] none [] (some c!"b")] none] none

/-- Preserved page numbers would be restored if they had no prefix. -/
example : ∃ d, loadDoc exSegDocCfg exSegPageRoot = .ok d ∧
    (d.getPreservedTag 1 = some c!"b-page" ∧
      (segment asciiSegEnv exSegCfg true (d.setPreservedTag 1 (some c!"page"))).getTag 1 = some c!"page") :=
  exists_of_okAnd (by decide +kernel)

/-- **C31**, disagreement: page numbers of the original document that are preserved have a prefix, and because of it
they are not recognised as page numbers: within the front they become part of it. -/
theorem C31_preserved_page_merged :
    ∃ r, exSegment exSegCfg true exSegPageRoot [(0, c!"title"), (2, c!"abstract")] = .ok r ∧
      r = [some c!"front", some c!"front", some c!"front"] :=
  exists_of_okAnd (by decide +kernel)

/-- **C29**, disagreement: a line most of whose tokens have a tag that is not mapped keeps its tags; its tokens do not
have one label. -/
theorem C29_unmapped_mixed :
    ∃ r, exSegment exSegCfg false (exSegRoot c!"A B C" []) [(0, c!"note"), (2, c!"note"), (4, c!"title")] = .ok r ∧
      r = [some c!"note", none, some c!"note", none, some c!"title"] :=
  exists_of_okAnd (by decide +kernel)

/-- **C31**, disagreement: the numbers marked are not increasing. -/
theorem C31_not_increasing :
    ∃ r, exSegment exSegCfg false (exSegRoot c!"5" [c!"3", c!"10"]) [(2, c!"page")] = .ok r ∧
      r = [some c!"page", some c!"page", some c!"page"] :=
  exists_of_okAnd (by decide +kernel)

/-- **C31**, disagreement: the number of the previous page is marked again. -/
theorem C31_repeated_number :
    ∃ r, exSegment exSegCfg false (exSegRoot c!"4" [c!"4", c!"6"]) [(0, c!"page"), (2, c!"page")] = .ok r ∧
      r = [some c!"page", some c!"page", some c!"page"] :=
  exists_of_okAnd (by decide +kernel)

/-- **C32**, disagreement: a line which has a label gets that of a page header if its text is that of one, although
only lines without label are counted. -/
theorem C32_labelled_line_overwritten :
    ∃ r, exSegment exSegCfg false (exSegRoot c!"J V" [c!"J V", c!"J V"]) [(0, c!"title"), (1, c!"title"), (2, c!"title")] = .ok r ∧
      r = List.replicate 9 (some c!"headnote") :=
  exists_of_okAnd (by decide +kernel)

/-- The hypotheses of the theorems for states are met: after loading, with labels of lines. -/
example : ∃ d, loadDoc exSegDocCfg (exSegRoot c!"5" [c!"7", c!"10"]) = .ok d ∧
    ((findMissingPages asciiSegEnv (segLines d) ⟨d, fun j => if j = 2 then some c!"page" else none⟩).doc.getTag 0 = some c!"page" ∧
     (findMissingPages asciiSegEnv (segLines d) ⟨d, fun j => if j = 2 then some c!"page" else none⟩).doc.getTag 1 = some c!"page" ∧
     (findMissingPages asciiSegEnv (segLines d) ⟨d, fun j => if j = 1 then some c!"page" else none⟩).doc.getTag 2 = none) :=
  exists_of_okAnd (by decide +kernel)

end Verif
