/-
Lines on which segmentation changes nothing.
-/
import Verif.Lemmas.SegLoad

namespace Verif

/-- The line `l` is as in `d`, or a token has a label. -/
structure LineStays (ls : List SegLine) (d : Doc) (l : SegLine) (st : SegState) : Prop where
  own : OwnLines st.doc ls
  stays : (∀ i ∈ l.line.tokens, st.doc.getAttr i = d.getAttr i) ∨ ∃ i ∈ l.line.tokens, truthy (st.doc.getTag i) = true

theorem LineStays.set {ls : List SegLine} {d : Doc} {l : SegLine} (hl : l ∈ ls) (hne : l.line.tokens ≠ []) {st : SegState} (h : LineStays ls d l st)
    {l' : SegLine} (hl' : l' ∈ ls) {t : Option Str} (ht : truthy t = true) : LineStays ls d l (st.set l' t) := by
  have ho := set_only h.own hl' t
  refine ⟨h.own.congr ho.same, ?_⟩
  by_cases e : l.index = l'.index
  · have := h.own.inj hl hl' e
    subst this
    obtain ⟨i, hi⟩ := List.exists_mem_of_ne_nil _ hne
    rcases set_shown st l t i hi with e | ⟨e, _⟩
    · exact .inr ⟨i, hi, by rw [e]; exact ht⟩
    · rw [e] at ht; cases ht
  · have hs := ho.other l hl e
    rcases h.stays with h1 | ⟨i, hi, h1⟩
    · exact .inl (fun i hi => (hs.2 i hi).trans (h1 i hi))
    · exact .inr ⟨i, hi, by rw [hs.getTag hi]; exact h1⟩

theorem foldl_keeps {σ β : Type} (inv : σ → Prop) (f : σ → β → σ) (l : List β) (hf : ∀ s, ∀ x ∈ l, inv s → inv (f s x)) :
    ∀ s, inv s → inv (l.foldl f s) := by
  induction l with
  | nil => exact fun s h => h
  | cons x l ih => exact fun s h => ih (fun s y hy => hf s y (List.mem_cons_of_mem _ hy)) _ (hf s x List.mem_cons_self h)

section
variable {ls : List SegLine} {d : Doc} {l : SegLine} (hl : l ∈ ls) (hne : l.line.tokens ≠ [])
include hl hne

theorem lineStays_pages {st : SegState} (h : LineStays ls d l st) : LineStays ls d l (applyPreservedPages ls st) := by
  refine foldl_keeps (LineStays ls d l) _ _ (fun st l' hl' h => ?_) st h
  split
  · exact h
  · split
    · exact h.set hl hne hl' rfl
    · exact h

theorem lineStays_missing (env : SegEnv) {st : SegState} (h : LineStays ls d l st) : LineStays ls d l (findMissingPages env ls st) := by
  unfold findMissingPages
  simp only
  refine foldl_keeps (fun p : PageState => LineStays ls d l p.st) _ _ (fun p e _ h => ?_) ⟨st, 0, 1⟩ h
  show LineStays ls d l (List.foldl _ p _).st
  refine foldl_keeps (fun p : PageState => LineStays ls d l p.st) _ _ (fun p c hc h => ?_) p h
  obtain ⟨l', hl', rfl⟩ := List.mem_map.1 hc
  unfold pageInnerStep
  repeat' split
  · exact h
  · exact h
  · exact h
  · exact h
  · exact h.set hl hne (List.mem_filter.1 hl').1 rfl

theorem lineStays_headers (env : SegEnv) (maxFirst : Int) {st : SegState} (h : LineStays ls d l st) :
    LineStays ls d l (findPageHeaders env maxFirst ls st) := by
  unfold findPageHeaders
  refine foldl_keeps (fun p : HeaderState => LineStays ls d l p.st) _ _ (fun p e _ h => ?_) ⟨st, none⟩ h
  unfold headerStep
  split
  · exact h
  · split
    · exact h
    · refine foldl_keeps (LineStays ls d l) _ _ (fun st l' hl' h => ?_) p.st h
      split
      · exact h.set hl hne hl' rfl
      · exact h

theorem lineStays_setAll (ms : List SegLine) (hm : ∀ m ∈ ms, m ∈ ls) {t : Option Str} (ht : truthy t = true) {st : SegState}
    (h : LineStays ls d l st) : LineStays ls d l (setAllLines st ms t) :=
  foldl_keeps (LineStays ls d l) _ _ (fun _ l' hl' h => h.set hl hne (hm l' hl') ht) st h

theorem lineStays_merge (preserve : Bool) (enabled remaining : List Str) (he : [] ∉ enabled) (hr : [] ∉ remaining) {st : SegState}
    (h : LineStays ls d l st) : LineStays ls d l (mergeLines preserve enabled remaining ls st) := by
  have htr : ∀ (names : List Str) (t : Option Str), [] ∉ names → t ∈ names.map some → truthy t = true := by
    intro names t hn ht
    obtain ⟨s, hs, rfl⟩ := List.mem_map.1 ht
    exact truthy_some.2 (fun e => hn (e ▸ hs))
  have key : (fun m : MergeState => LineStays ls d l m.st ∧ ∀ c ∈ m.cands, c ∈ ls)
      (ls.foldl (mergeStep preserve enabled) ⟨st, [], some segFront⟩) := by
    refine foldl_keeps (fun m : MergeState => LineStays ls d l m.st ∧ ∀ c ∈ m.cands, c ∈ ls) _ _ (fun m l' hl' hm => ?_) _
      ⟨h, fun _ hc => nomatch hc⟩
    unfold mergeStep
    simp only
    split
    · exact hm
    · generalize hm1 : (if truthy (m.st.tag l'.index) = true then
          (⟨m.st, if m.prev ≠ m.st.tag l'.index then [] else m.cands, m.st.tag l'.index⟩ : MergeState) else m) = m1
      have g : LineStays ls d l m1.st ∧ ∀ c ∈ m1.cands, c ∈ ls := by
        subst hm1
        split
        · refine ⟨hm.1, fun c hc => ?_⟩
          simp only at hc
          split at hc
          · cases hc
          · exact hm.2 c hc
        · exact hm
      split
      · next ht => exact ⟨lineStays_setAll hl hne _ g.2 (htr _ _ he ht) g.1, fun _ hc => nomatch hc⟩
      · split
        · exact ⟨g.1, fun _ hc => nomatch hc⟩
        · split
          · exact g
          · split
            · refine ⟨g.1, fun c hc => ?_⟩
              rcases List.mem_append.1 hc with hc | hc
              · exact g.2 c hc
              · rw [List.mem_singleton.1 hc]; exact hl'
            · exact g
  unfold mergeLines
  simp only
  split
  · next hp => exact lineStays_setAll hl hne _ key.2 (htr _ _ hr hp) key.1
  · exact key.1

theorem lineStays_remaining {st : SegState} (h : LineStays ls d l st) : LineStays ls d l (tagRemaining ls st) := by
  refine foldl_keeps (LineStays ls d l) _ _ (fun st l' hl' h => ?_) st h
  split
  · exact h
  · exact h.set hl hne hl' rfl

end

/-- A line on which no token has a label when segmentation starts is left as it is, or gets a label. -/
theorem segment_unlabelled_line (env : SegEnv) (cfg : SegConfig) (preserve : Bool) {d : Doc} (ho : OwnLines d (segLines d)) {l : SegLine}
    (hl : l ∈ segLines d) (hne : l.line.tokens ≠ []) (h : ∀ i ∈ l.line.tokens, d.getTag i = none) :
    (∀ i ∈ l.line.tokens, (segment env cfg preserve d).getAttr i = d.getAttr i) ∨
    ∃ i ∈ l.line.tokens, truthy ((segment env cfg preserve d).getTag i) = true := by
  have h1 := segInit_untagged cfg ho hl h
  have s1 : SameBut d ((segLines d).foldl (segInitStep cfg) ⟨d, fun _ => none⟩).doc :=
    (foldl_lines (ls := segLines d) (segInitStep cfg) (fun st l ho hl => segInitStep_only ho hl) ⟨d, fun _ => none⟩ ho).1
  unfold segment
  simp only
  generalize (segLines d).foldl (segInitStep cfg) ⟨d, fun _ => none⟩ = st1 at h1 s1
  have h2 : LineStays (segLines d) d l (clearFront cfg.frontMaxStartLineIndex (segLines d) st1) := by
    have ho1 := ho.congr s1
    by_cases hm : cfg.frontMaxStartLineIndex = 0
    · unfold clearFront
      rw [if_pos hm]
      exact ⟨ho1, .inl h1.2⟩
    · obtain ⟨hr, he⟩ := clearFront_effect hm ho1
      refine ⟨ho1.congr hr.same, .inl ?_⟩
      obtain ⟨a, b, e⟩ := List.append_of_mem hl
      refine (h1.trans ((he a l b e).2 ?_)).2
      rintro ⟨a1, first, a2, hsplit, hfr, _⟩
      have hmem : l ∈ first :: a2 := by
        have : (a ++ [l]).getLast? = (a1 ++ first :: a2).getLast? := by rw [hsplit]
        rw [List.getLast?_concat, List.getLast?_append, List.getLast?_cons] at this
        simp only [Option.some_or, Option.some.injEq] at this
        rw [this]
        cases hg : a2.getLast? with
        | none => simp
        | some y => exact List.mem_cons_of_mem _ (List.mem_of_getLast? hg)
      have := hfr l hmem
      rw [h1.1] at this
      cases this
  have h3 : LineStays (segLines d) d l (if preserve = true then applyPreservedPages (segLines d) (clearFront cfg.frontMaxStartLineIndex (segLines d) st1)
      else clearFront cfg.frontMaxStartLineIndex (segLines d) st1) := by
    split
    · exact lineStays_pages hl hne h2
    · exact h2
  have h6 := lineStays_merge hl hne preserve (segMergedTags cfg) [segAnnex] (by unfold segMergedTags; split <;> decide) (by decide)
    (lineStays_headers hl hne env cfg.pageHeaderMaxFirstLineIndex (lineStays_missing hl hne env h3))
  cases preserve with
  | true => exact h6.stays
  | false => exact (lineStays_remaining hl hne h6).stays

end Verif
