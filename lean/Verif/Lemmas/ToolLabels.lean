/-
Lemmas about the labels set by the annotators of the tools.
-/
import Verif.Lemmas.Labels
import Verif.Lemmas.RefExtend
import Verif.Lemmas.RefDoc

namespace Verif

variable {P Q : Str → Prop}

/-- A name may be used as a label, with or without a prefix. -/
def OkName (P : Str → Prop) (n : Str) : Prop := (n ≠ [] → P n) ∧ OkTag P (some n)

theorem OkName.value {n : Str} (h : OkName P n) : ∀ v, some n = some v → v ≠ [] → P v := by
  intro v e hne
  cases e
  exact h.1 hne

theorem OkName.prefixed {n : Str} (h : OkName P n) (cfg : MatchCfg) (k : Nat) : OkTag P (addTagPrefix (some n) (indexPrefix cfg k)) := by
  unfold indexPrefix
  split
  · split
    · exact okTag_addB h.value
    · exact okTag_addI h.value
  · exact h.2

theorem OkName.corePrefixed {n : Str} (h : OkName P n) (cfg : CoreCfg) (b : Bool) : OkTag P (addTagPrefix (some n) (corePrefix cfg b)) := by
  unfold corePrefix
  split
  · split
    · exact okTag_addB h.value
    · exact okTag_addI h.value
  · exact h.2

/-- What an annotator does to labels. -/
def Labels (P Q : Str → Prop) (f : Doc → Except Err Doc) : Prop := ∀ d d', f d = .ok d' → LabelsIn P Q d → LabelsIn P Q d'

theorem labels_total {f : Doc → Doc} (h : ∀ d, LabelsIn P Q d → LabelsIn P Q (f d)) : Labels P Q (total f) := by
  intro d d' e
  obtain rfl := Except.ok.inj e
  exact h d

/-! ### Segmentation -/

theorem labelsIn_set {st : SegState} (h : LabelsIn P Q st.doc) (l : SegLine) {t : Option Str} (ht : OkTag P t) :
    LabelsIn P Q (st.set l t).doc :=
  labelsIn_foldl _ _ (fun _ _ _ hd => labelsIn_setTag hd _ ht) _ h

theorem labelsIn_clear {st : SegState} (h : LabelsIn P Q st.doc) (l : SegLine) : LabelsIn P Q (st.clear l).doc := by
  refine labelsIn_foldl _ _ (fun d i _ hd => ?_) _ h
  split
  · exact labelsIn_setTag hd _ (okTag_none P)
  · exact hd

theorem segTagByName_mem {cfg : SegConfig} {n v : Str} (h : (segTagByName cfg).get? n = some v) : ∃ p ∈ cfg.mapping, p.1 = v := by
  have : ∀ (l : List (Str × Str)) (acc : Dict Str), (l.foldl (fun d p => d.set p.1 p.2) acc).get? n = some v →
      acc.get? n = some v ∨ ∃ p ∈ l, p.2 = v := by
    intro l
    induction l with
    | nil => exact fun acc h => .inl h
    | cons p l ih =>
      intro acc h
      rcases ih _ h with h | ⟨q, hq, e⟩
      · by_cases hn : n = p.1
        · subst hn
          rw [Dict.get?_set_self] at h
          exact .inr ⟨p, List.mem_cons_self, Option.some.inj h⟩
        · rw [Dict.get?_set_ne _ _ (by exact hn)] at h
          exact .inl h
      · exact .inr ⟨q, List.mem_cons_of_mem _ hq, e⟩
  rcases this _ [] h with h | ⟨p, hp, e⟩
  · cases h
  · obtain ⟨q, hq, hp⟩ := List.mem_flatMap.1 hp
    obtain ⟨m, _, rfl⟩ := List.mem_map.1 hp
    exact ⟨q, hq, e⟩

theorem labelsIn_segInitStep (cfg : SegConfig) (hc : ∀ p ∈ cfg.mapping, OkTag P (some p.1)) (st : SegState) (l : SegLine)
    (h : LabelsIn P Q st.doc) : LabelsIn P Q (segInitStep cfg st l).doc := by
  unfold segInitStep
  split
  · exact h
  · next majority _ _ =>
    have hs : OkTag P (majority.bind (segTagByName cfg).get?) := by
      cases majority with
      | none => exact okTag_none P
      | some m =>
        show OkTag P ((segTagByName cfg).get? m)
        cases hm : (segTagByName cfg).get? m with
        | none => exact okTag_none P
        | some v =>
          obtain ⟨p, hp, rfl⟩ := segTagByName_mem hm
          exact hc p hp
    simp only [SegState.put]
    split
    · split
      · exact labelsIn_set h _ hs
      · exact h
    · split
      · exact labelsIn_set h _ hs
      · split
        · exact labelsIn_clear h _
        · exact h

theorem labelsIn_clearFront (m : Int) (ls : List SegLine) (st : SegState) (h : LabelsIn P Q st.doc) :
    LabelsIn P Q (clearFront m ls st).doc := by
  unfold clearFront
  split
  · exact h
  · refine labelsIn_loop (fun f : FrontState => LabelsIn P Q f.st.doc) _ ls (fun f l _ hf => ?_) ⟨st, none, 0⟩ h
    unfold clearFrontStep
    simp only
    split <;> split
    · exact labelsIn_clear hf _
    · exact hf
    · exact labelsIn_clear hf _
    · exact hf

theorem labelsIn_applyPreservedPages (hp : OkTag P (some segPage)) (ls : List SegLine) (st : SegState) (h : LabelsIn P Q st.doc) :
    LabelsIn P Q (applyPreservedPages ls st).doc := by
  refine labelsIn_loop (fun s : SegState => LabelsIn P Q s.doc) _ ls (fun s l _ hs => ?_) st h
  split
  · exact hs
  · split
    · exact labelsIn_set hs _ hp
    · exact hs

theorem labelsIn_findMissingPages (hp : OkTag P (some segPage)) (env : SegEnv) (ls : List SegLine) (st : SegState)
    (h : LabelsIn P Q st.doc) : LabelsIn P Q (findMissingPages env ls st).doc := by
  unfold findMissingPages
  simp only
  refine labelsIn_loop (fun p : PageState => LabelsIn P Q p.st.doc) _ _ (fun p e _ hs => ?_) ⟨st, 0, 1⟩ h
  unfold pageOuterStep
  simp only
  refine labelsIn_loop (fun p : PageState => LabelsIn P Q p.st.doc) _ _ (fun p c _ hs => ?_) p hs
  unfold pageInnerStep
  split
  · exact hs
  · split
    · exact hs
    · split
      · exact hs
      · split
        · exact hs
        · exact labelsIn_set hs _ hp

theorem labelsIn_findPageHeaders (hp : OkTag P (some segHeadnote)) (env : SegEnv) (m : Int) (ls : List SegLine) (st : SegState)
    (h : LabelsIn P Q st.doc) : LabelsIn P Q (findPageHeaders env m ls st).doc := by
  unfold findPageHeaders
  refine labelsIn_loop (fun h : HeaderState => LabelsIn P Q h.st.doc) _ _ (fun hs p _ hh => ?_) ⟨st, none⟩ h
  unfold headerStep
  split
  · exact hh
  · split
    · exact hh
    · refine labelsIn_loop (fun s : SegState => LabelsIn P Q s.doc) _ ls (fun s l _ hs => ?_) hs.st hh
      split
      · exact labelsIn_set hs _ hp
      · exact hs

theorem labelsIn_setAllLines {st : SegState} (h : LabelsIn P Q st.doc) (ls : List SegLine) {t : Option Str} (ht : OkTag P t) :
    LabelsIn P Q (setAllLines st ls t).doc :=
  labelsIn_loop (fun s : SegState => LabelsIn P Q s.doc) _ ls (fun _ _ _ hs => labelsIn_set hs _ ht) st h

theorem labelsIn_mergeLines (preserve : Bool) (enabled remaining : List Str) (he : ∀ t ∈ enabled, OkTag P (some t))
    (hr : ∀ t ∈ remaining, OkTag P (some t)) (ls : List SegLine) (st : SegState) (h : LabelsIn P Q st.doc) :
    LabelsIn P Q (mergeLines preserve enabled remaining ls st).doc := by
  unfold mergeLines
  simp only
  have h1 := labelsIn_loop (fun m : MergeState => LabelsIn P Q m.st.doc) (mergeStep preserve enabled) ls (fun m l _ hm => by
    unfold mergeStep
    simp only
    have h1 : ∀ c p, (if truthy (m.st.tag l.index) = true then (⟨m.st, c, p⟩ : MergeState) else m).st = m.st := by
      intro c p; split <;> rfl
    split
    · exact hm
    · split
      · next hmem =>
        simp only [h1]
        obtain ⟨t, ht, e⟩ := List.mem_map.1 hmem
        rw [← e]
        exact labelsIn_setAllLines hm _ (he t ht)
      · split
        · exact hm
        · split
          · exact hm
          · split
            · exact hm
            · exact hm) ⟨st, [], some segFront⟩ h
  split
  · next hmem =>
    obtain ⟨t, ht, e⟩ := List.mem_map.1 hmem
    rw [← e]
    exact labelsIn_setAllLines h1 _ (hr t ht)
  · exact h1

theorem labelsIn_tagRemaining (hp : OkTag P (some segBody)) (ls : List SegLine) (st : SegState) (h : LabelsIn P Q st.doc) :
    LabelsIn P Q (tagRemaining ls st).doc := by
  refine labelsIn_loop (fun s : SegState => LabelsIn P Q s.doc) _ ls (fun s l _ hs => ?_) st h
  split
  · exact hs
  · exact labelsIn_set hs _ hp

theorem labelsIn_segment (env : SegEnv) (cfg : SegConfig) (preserve : Bool) (hc : ∀ p ∈ cfg.mapping, OkTag P (some p.1))
    (hf : ∀ t ∈ [segPage, segHeadnote, segAnnex, segFront], OkTag P (some t))
    (hr : cfg.noMergeReferences = false → OkTag P (some segReference)) (hb : preserve = false → OkTag P (some segBody))
    (d : Doc) (h : LabelsIn P Q d) : LabelsIn P Q (segment env cfg preserve d) := by
  have hpage := hf segPage (by simp)
  unfold segment
  simp only
  have h1 : LabelsIn P Q ((segLines d).foldl (segInitStep cfg) ⟨d, fun _ => none⟩).doc :=
    labelsIn_loop (fun s : SegState => LabelsIn P Q s.doc) _ _ (fun s l _ hs => labelsIn_segInitStep cfg hc s l hs) ⟨d, fun _ => none⟩ h
  have h2 := labelsIn_clearFront cfg.frontMaxStartLineIndex (segLines d) _ h1
  generalize clearFront cfg.frontMaxStartLineIndex (segLines d) _ = st2 at h2
  have h3 : LabelsIn P Q (if preserve = true then applyPreservedPages (segLines d) st2 else st2).doc := by
    split
    · exact labelsIn_applyPreservedPages hpage _ _ h2
    · exact h2
  generalize (if preserve = true then applyPreservedPages (segLines d) st2 else st2) = st3 at h3
  have h4 := labelsIn_findMissingPages hpage env (segLines d) st3 h3
  have h5 := labelsIn_findPageHeaders (hf segHeadnote (by simp)) env cfg.pageHeaderMaxFirstLineIndex (segLines d) _ h4
  have h6 := labelsIn_mergeLines preserve (segMergedTags cfg) [segAnnex] (by
    intro t ht
    unfold segMergedTags at ht
    rcases List.mem_append.1 ht with ht | ht
    · exact hf t (by simp at ht ⊢; rcases ht with rfl | rfl <;> simp)
    · split at ht
      · cases ht
      · next hn => rw [List.mem_singleton] at ht; subst ht; exact hr (by simpa using hn))
    (by intro t ht; rw [List.mem_singleton] at ht; subst ht; exact hf _ (by simp)) (segLines d) _ h5
  cases preserve with
  | true => exact h6
  | false => exact labelsIn_tagRemaining (hb rfl) _ _ h6

/-! ### References -/

theorem okTag_mapRef {m : Dict Str} (hm : ∀ k v, m.get? k = some v → OkName Q v) {t : Option Str} (ht : OkTag Q t) :
    OkTag Q (mapRefTag m t) := by
  have hname : ∀ v, OkName Q v → OkName Q (m.getD v v) := by
    intro v hv
    unfold Dict.getD
    cases h : m.get? v with
    | none => exact hv
    | some w => exact hm v w h
  have hval : ∀ v, (v ≠ [] → Q v) → ∀ w, some (m.getD v v) = some w → w ≠ [] → Q w := by
    intro v hv w e hne
    cases e
    revert hne
    unfold Dict.getD
    cases h : m.get? v with
    | none => exact hv
    | some w => exact (hm v w h).1
  unfold mapRefTag
  have hstrip : ∀ v, (splitTagPrefix t).2 = some v → v ≠ [] → Q v := ht
  rcases splitTagPrefix_cases t with ⟨v, rfl, h'⟩ | ⟨v, rfl, h'⟩ | ⟨h1, h2, h'⟩
  · rw [h'] at hstrip ⊢
    simp only at hstrip ⊢
    split
    · exact okTag_addB (hval v (hstrip v rfl))
    · exact okTag_addB hstrip
  · rw [h'] at hstrip ⊢
    simp only at hstrip ⊢
    split
    · exact okTag_addI (hval v (hstrip v rfl))
    · exact okTag_addI hstrip
  · rw [h'] at hstrip ⊢
    simp only at hstrip ⊢
    split
    · cases t with
      | none => exact okTag_none Q
      | some v => exact (hname v ⟨hstrip v rfl, ht⟩).2
    · exact ht

theorem okTag_insideHead (l : List (Option Str)) (h : ∀ t ∈ l, OkTag Q t) : ∀ t ∈ insideHead l, OkTag Q t := by
  intro t ht
  cases l with
  | nil => cases ht
  | cons a l =>
    rcases List.mem_cons.1 ht with rfl | ht
    · exact okTag_inside (h a List.mem_cons_self)
    · exact h t (List.mem_cons_of_mem _ ht)

theorem okTag_firstRef {g : Option (List RefTok)} (h : ∀ x ∈ g, ∀ y ∈ x, OkTag Q y.1) : OkTag Q (firstRefTag g) := by
  unfold firstRefTag
  cases g with
  | none => exact okTag_none Q
  | some g =>
    cases g with
    | nil => exact okTag_none Q
    | cons y g => exact h _ rfl y List.mem_cons_self

theorem okTag_prefixLoop (env : RefEnv) (regex : Dict Str) (enabled : List Str) (gs : List (List RefTok)) :
    ∀ (changed : Bool) (r : List (Option Str)), (∀ g ∈ gs, ∀ y ∈ g, OkTag Q y.1) → prefixLoop env regex enabled changed gs = .ok r →
      ∀ t ∈ r, OkTag Q t := by
  induction gs with
  | nil => intro c r _ h; cases h; intro t ht; cases ht
  | cons g gs ih =>
    intro c r hg h
    have hgs : ∀ g' ∈ gs, ∀ y ∈ g', OkTag Q y.1 := fun g' hg' => hg g' (List.mem_cons_of_mem _ hg')
    have htags : ∀ t ∈ (if c = true then insideHead (g.map (·.1)) else g.map (·.1)), OkTag Q t := by
      have h0 : ∀ t ∈ g.map (fun x : RefTok => x.1), OkTag Q t := by
        intro t ht
        obtain ⟨y, hy, rfl⟩ := List.mem_map.1 ht
        exact hg g List.mem_cons_self y hy
      split
      · exact okTag_insideHead _ h0
      · exact h0
    have hnext : OkTag Q (firstRefTag gs.head?) := okTag_firstRef (by
      intro x hx
      exact hgs x (List.mem_of_mem_head? hx))
    unfold prefixLoop at h
    simp only at h
    generalize (if c = true then insideHead (g.map (·.1)) else g.map (·.1)) = tags at h htags
    have keep : ∀ r, Except.map (tags ++ ·) (prefixLoop env regex enabled false gs) = .ok r → ∀ t ∈ r, OkTag Q t := by
      intro r h
      cases hp : prefixLoop env regex enabled false gs with
      | error e => rw [hp] at h; cases h
      | ok r' =>
        rw [hp] at h
        cases h
        intro t ht
        rcases List.mem_append.1 ht with ht | ht
        · exact htags t ht
        · exact ih false r' hgs hp t ht
    split at h
    · exact keep r h
    · split at h
      · exact keep r h
      · split at h
        · exact keep r h
        · split at h
          · cases h
          · split at h
            · exact keep r h
            · split at h
              · exact keep r h
              · cases hp : prefixLoop env regex enabled true gs with
                | error e => rw [hp] at h; cases h
                | ok r' =>
                  rw [hp] at h
                  cases h
                  intro t ht
                  rcases List.mem_append.1 ht with ht | ht
                  · rcases List.mem_append.1 ht with ht | ht
                    · rw [(List.mem_replicate.1 ht).2]; exact okTag_none Q
                    · rcases List.mem_cons.1 ht with rfl | ht
                      · exact hnext
                      · rw [(List.mem_replicate.1 ht).2]; exact okTag_inside hnext
                  · exact ih true r' hgs hp t ht

theorem okTag_suffixLoop (enabled : List Str) (gs : List (List RefTok)) :
    ∀ (prev : Option (List RefTok)), (∀ g ∈ gs, ∀ y ∈ g, OkTag Q y.1) → (∀ x ∈ prev, ∀ y ∈ x, OkTag Q y.1) →
      ∀ t ∈ suffixLoop enabled prev gs, OkTag Q t := by
  induction gs with
  | nil => intro prev _ _ t ht; cases ht
  | cons g gs ih =>
    intro prev hg hprev t ht
    have hrec : ∀ t ∈ suffixLoop enabled (some g) gs, OkTag Q t :=
      ih (some g) (fun g' hg' => hg g' (List.mem_cons_of_mem _ hg')) (by intro x hx; cases hx; exact hg g List.mem_cons_self)
    have keep : t ∈ g.map (fun x : RefTok => x.1) ++ suffixLoop enabled (some g) gs → OkTag Q t := by
      intro ht
      rcases List.mem_append.1 ht with ht | ht
      · obtain ⟨y, hy, rfl⟩ := List.mem_map.1 ht
        exact hg g List.mem_cons_self y hy
      · exact hrec t ht
    unfold suffixLoop at ht
    simp only at ht
    split at ht
    · exact keep ht
    · split at ht
      · exact keep ht
      · split at ht
        · exact keep ht
        · split at ht
          · exact keep ht
          · split at ht
            · exact keep ht
            · rcases List.mem_append.1 ht with ht | ht
              · rcases List.mem_append.1 ht with ht | ht
                · rw [(List.mem_replicate.1 ht).2]; exact okTag_inside (okTag_firstRef hprev)
                · rw [(List.mem_replicate.1 ht).2]; exact okTag_none Q
              · exact hrec t ht

theorem okTag_etalLoop (etal : Str) (merge : List Str) (gs : List (List (Option Str))) :
    ∀ (prev : Option Str), (∀ g ∈ gs, ∀ t ∈ g, OkTag Q t) → OkTag Q prev → ∀ t ∈ etalLoop etal merge prev gs, OkTag Q t := by
  induction gs with
  | nil => intro prev _ _ t ht; cases ht
  | cons g gs ih =>
    intro prev hg hprev t ht
    have hgs : ∀ g' ∈ gs, ∀ t ∈ g', OkTag Q t := fun g' hg' => hg g' (List.mem_cons_of_mem _ hg')
    have htag : OkTag Q g.head?.join := by
      cases g with
      | nil => exact okTag_none Q
      | cons a g => exact hg _ List.mem_cons_self a List.mem_cons_self
    unfold etalLoop at ht
    simp only at ht
    split at ht
    · rcases List.mem_append.1 ht with ht | ht
      · exact hg g List.mem_cons_self t ht
      · refine ih _ hgs ?_ t ht
        split
        · exact htag
        · split
          · exact okTag_none Q
          · exact hprev
    · rcases List.mem_append.1 ht with ht | ht
      · rcases List.mem_cons.1 ht with rfl | ht
        · exact hprev
        · rw [(List.mem_replicate.1 ht).2]; exact okTag_inside hprev
      · exact ih prev hgs hprev t ht

theorem labelsIn_setRefTags {d : Doc} (h : LabelsIn P Q d) (l : List Nat) (ts : List (Option Str)) (ht : ∀ t ∈ ts, OkTag Q t) :
    LabelsIn P Q (setRefTags d (l.zip ts)) := by
  refine labelsIn_foldl _ _ (fun d x hx hd => ?_) _ h
  split
  · exact labelsIn_setSubTag hd _ (ht _ (List.of_mem_zip hx).2)
  · exact hd

theorem labels_foldlM {β : Type} (f : Doc → β → Except Err Doc) (hf : ∀ x, Labels P Q (fun d => f d x)) (l : List β) :
    Labels P Q (fun d => l.foldlM f d) := by
  induction l with
  | nil => intro d d' h; obtain rfl := Except.ok.inj h; exact id
  | cons x l ih =>
    intro d d' h hd
    simp only [List.foldlM_cons] at h
    cases hx : f d x with
    | error e => rw [hx] at h; cases h
    | ok d1 =>
      rw [hx] at h
      exact ih d1 d' h (hf x d d1 hx hd)

theorem labels_reference (env : RefEnv) (cfg : RefConfig) (hm : ∀ k v, cfg.subTagMap.get? k = some v → OkName Q v) :
    Labels P Q (referenceAnnotate env cfg) := by
  intro d d' h
  refine labels_foldlM _ (fun e => ?_) (refEntities d d.nonSpaceTokens) d d' h
  intro d d' h hd
  have hsub : ∀ {d : Doc}, LabelsIn P Q d → ∀ t ∈ refSubTags cfg d e.2, OkTag Q t := by
    intro d hd t ht
    obtain ⟨i, _, rfl⟩ := List.mem_map.1 ht
    exact okTag_mapRef hm (hd.sub i).1
  have htoks : ∀ {d : Doc}, LabelsIn P Q d → ∀ g ∈ (groupBy (fun t : RefTok => stripTagPrefix t.1) (refToks env cfg d e.2)).map (·.2),
      ∀ y ∈ g, OkTag Q y.1 := by
    intro d hd g hg y hy
    obtain ⟨i, _, rfl⟩ := List.mem_map.1 (mem_groups hg hy)
    exact okTag_mapRef hm (hd.sub i).1
  simp only [refEntity] at h
  have h1 : LabelsIn P Q (mapEtal cfg d e.2) := by
    refine labelsIn_setRefTags hd _ _ (okTag_etalLoop _ _ _ _ ?_ (okTag_none Q))
    intro g hg t ht
    have hmem := List.mem_flatten.2 ⟨g, hg, ht⟩
    rw [groupBy_flatten] at hmem
    exact hsub hd t hmem
  have h2 : LabelsIn P Q (addNameSuffix env cfg (mapEtal cfg d e.2) e.2) :=
    labelsIn_setRefTags h1 _ _ (okTag_suffixLoop _ _ _ (htoks h1) (by intro x hx; cases hx))
  generalize addNameSuffix env cfg (mapEtal cfg d e.2) e.2 = d1 at h h2
  unfold addIdnoPrefix at h
  cases hp : prefixExtended env cfg.prefixRegex cfg.prefixTags (refToks env cfg d1 e.2) with
  | error e => rw [hp] at h; cases h
  | ok tags =>
    rw [hp] at h
    obtain rfl := Except.ok.inj h
    have h3 := labelsIn_setRefTags (P := P) h2 e.2 tags (okTag_prefixLoop _ _ _ _ _ _ (htoks h2) hp)
    exact labelsIn_setRefTags h3 _ _ (okTag_extended _ _ (hsub h3))

/-! ### Line numbers -/

theorem labels_lineNumbers (env : ToolEnv) (a : LineNumberArgs) (hp : OkTag P (some c!"line_no")) : Labels P Q (lineNumberAnnotator env a) := by
  intro d d' h hd
  unfold lineNumberAnnotator at h
  split at h
  · unfold annotateLineNumbers at h
    split at h
    · cases h
    · obtain rfl := Except.ok.inj h
      exact labelsIn_foldl _ _ (fun _ _ _ hd => labelsIn_setTag hd _ hp) _ hd
  · simp only at h
    split at h
    · obtain rfl := Except.ok.inj h; exact hd
    · split at h <;> cases h

/-! ### Matching of values anywhere -/

/-- The names of a target may be used. -/
def OkTarget (P Q : Str → Prop) (cfg : MatchCfg) (t : Target) : Prop :=
  (cfg.mainTags = true → OkName P t.name) ∧ (cfg.useSubAnnotations = true → ∀ s ∈ t.subs, OkName Q s.1)

theorem labelsIn_tagTokens (cfg : MatchCfg) {name : Str} (hn : OkName P name) (is : List Nat) : ∀ (d : Doc) (k : Nat),
    LabelsIn P Q d → LabelsIn P Q (tagTokens cfg name d k is) := by
  induction is with
  | nil => exact fun d k h => h
  | cons i is ih =>
    intro d k h
    unfold tagTokens
    simp only
    refine ih _ _ ?_
    split
    · exact labelsIn_setTagOnly h _ (hn.prefixed cfg k)
    · exact labelsIn_setTag h _ (hn.prefixed cfg k)

theorem labelsIn_updateRange (senv : SeqEnv) (cfg : MatchCfg) (seqs : List (List Nat)) (r : Nat × Nat) {name : Str}
    (hn : cfg.mainTags = true → OkName P name) {d : Doc} (h : LabelsIn P Q d) : LabelsIn P Q (updateRange senv cfg seqs r name d) := by
  unfold updateRange
  split
  · next hm => exact labelsIn_tagTokens cfg (hn hm) _ _ _ h
  · exact h

theorem labelsIn_subTagTokens (cfg : MatchCfg) {name : Str} (hn : OkName Q name) (is : List Nat) : ∀ (d : Doc) (k : Nat),
    LabelsIn P Q d → LabelsIn P Q (subTagTokens cfg name d k is) := by
  induction is with
  | nil => exact fun d k h => h
  | cons i is ih => exact fun d k h => ih _ _ (labelsIn_setSubTag h _ (hn.prefixed cfg k))

theorem labels_subRanges (senv : SeqEnv) (cfg : MatchCfg) (tokens : List Nat) {name : Str} (hn : OkName Q name) (d d' : Doc) (err : Option Err)
    (rs : List (Nat × Nat)) (h : subRanges senv cfg tokens name d err rs = .ok d') (hd : LabelsIn P Q d) : LabelsIn P Q d' := by
  induction rs with
  | nil =>
    unfold subRanges at h
    cases err with
    | none => cases h; exact hd
    | some e => cases h
  | cons r rs ih =>
    unfold subRanges at h
    simp only [] at h
    split at h
    · exact ih h
    · cases h; exact labelsIn_subTagTokens cfg hn _ _ _ hd

theorem labels_subAnnotations (env : MatchEnv) (cfg : MatchCfg) (tokens : List Nat) (text : Str) (subs : List (Str × TargetValue))
    (hs : ∀ s ∈ subs, OkName Q s.1) : ∀ (d d' : Doc), subAnnotations env cfg tokens text d subs = .ok d' → LabelsIn P Q d →
      LabelsIn P Q d' := by
  induction subs with
  | nil => intro d d' h; cases h; exact id
  | cons s subs ih =>
    intro d d' h hd
    obtain ⟨name, v⟩ := s
    cases v with
    | many vs => cases h
    | one v =>
      unfold subAnnotations at h
      simp only [] at h
      split at h
      · cases h
      · next d1 h1 =>
        exact ih (fun s hs' => hs s (List.mem_cons_of_mem _ hs')) d1 d' h
          (labels_subRanges _ _ _ (hs (name, _) List.mem_cons_self) _ _ _ _ h1 hd)

theorem labels_applyRanges (env : MatchEnv) (senv : SeqEnv) (cfg : MatchCfg) (seqs : List (List Nat)) (target : Target)
    (ht : OkTarget P Q cfg target) (rs : List (Nat × Nat)) : ∀ (d d' : Doc), applyRanges env senv cfg seqs target d rs = .ok d' →
      LabelsIn P Q d → LabelsIn P Q d' := by
  induction rs with
  | nil => intro d d' h; cases h; exact id
  | cons r rs ih =>
    intro d d' h hd
    unfold applyRanges at h
    split at h
    · cases h
    · next r' _ =>
      simp only [] at h
      have g1 := labelsIn_updateRange senv cfg seqs r' ht.1 hd
      split at h
      · cases h
      · next d2 h2 =>
        refine ih d2 d' h ?_
        split at h2
        · next hu =>
          unfold processSub at h2
          split at h2
          · cases h2; exact g1
          · exact labels_subAnnotations _ _ _ _ _ (ht.2 hu) _ _ h2 g1
        · cases h2; exact g1

theorem labels_processTarget (env : MatchEnv) (cfg : MatchCfg) (pending : List (List Nat)) (st st' : MatchState) (target : Target)
    (ht : OkTarget P Q cfg target) (h : processTarget env cfg pending st target = .ok st') (hd : LabelsIn P Q st.doc) :
    LabelsIn P Q st'.doc := by
  unfold processTarget at h
  simp only [] at h
  split at h
  · cases h
  · split at h
    · cases h
    · next d hd' => cases h; exact labels_applyRanges _ _ _ _ _ ht _ _ _ hd' hd
  · split at h
    · cases h; exact hd
    · split at h
      · cases h
      · cases h; exact hd
      · split at h
        · cases h
        · split at h
          · cases h
          · next d hd' => cases h; exact labels_applyRanges _ _ _ _ _ ht _ _ _ hd' hd

theorem labels_processTargets (env : MatchEnv) (cfg : MatchCfg) (pending : List (List Nat)) (targets : List Target)
    (ht : ∀ t ∈ targets, OkTarget P Q cfg t) : ∀ (st st' : MatchState), processTargets env cfg pending st targets = .ok st' →
      LabelsIn P Q st.doc → LabelsIn P Q st'.doc := by
  induction targets with
  | nil => intro st st' h; cases h; exact id
  | cons t ts ih =>
    intro st st' h hd
    unfold processTargets at h
    split at h
    · cases h
    · next st1 h1 =>
      exact ih (fun t ht' => ht t (List.mem_cons_of_mem _ ht')) st1 st' h
        (labels_processTarget _ _ _ _ _ _ (ht t List.mem_cons_self) h1 hd)

theorem labels_annotateLoop (env : MatchEnv) (cfg : MatchCfg) (n : Nat) :
    ∀ (d : Doc) (targets : List Target) (r : Doc × List Target), (∀ t ∈ targets, OkTarget P Q cfg t) →
      annotateLoop env cfg n d targets = .ok (some r) → LabelsIn P Q d → LabelsIn P Q r.1 := by
  induction n with
  | zero =>
    intro d ts r _ h
    cases ts with
    | nil => cases h; exact id
    | cons t ts => cases h
  | succ n ih =>
    intro d ts r ht h hd
    cases ts with
    | nil => cases h; exact hd
    | cons t ts =>
      unfold annotateLoop at h
      split at h
      · cases h
      · next d1 rem h1 =>
        have hsub := (processTargetAnnotations_grows env cfg _ _ _ _ h1).2
        have g : LabelsIn P Q d1 := by
          unfold processTargetAnnotations at h1
          simp only at h1
          split at h1
          · cases h1
          · next st hst =>
            cases h1
            exact labels_processTargets env cfg _ _ ht _ _ hst hd
        split at h
        · cases h; exact g
        · exact ih _ _ _ (fun t h' => ht t (hsub.subset h')) h g

theorem labelsIn_extendDoc (cfg : MatchCfg) {d : Doc} (h : LabelsIn P Q d) : LabelsIn P Q (extendDoc cfg d) := by
  refine labelsIn_foldl _ _ (fun d l _ hd => ?_) _ h
  unfold extendLine
  have hok : ∀ t ∈ extendedLineTags (extendCfg cfg) (l.nonSpace.map (fun i => d.getTag i)), OkTag P t := by
    refine okTag_extended _ _ ?_
    intro t ht
    obtain ⟨i, _, rfl⟩ := List.mem_map.1 ht
    exact (hd.main i).1
  refine labelsIn_foldl _ _ (fun d x hx hd => ?_) _ hd
  split
  · exact labelsIn_setTag hd _ (hok _ (List.of_mem_zip hx).2)
  · exact hd

theorem labels_simple (env : MatchEnv) (cfg : MatchCfg) (targets : List Target) (ht : ∀ t ∈ targets, OkTarget P Q cfg t) :
    Labels P Q (simpleAnnotate env cfg targets) := by
  intro d d' h hd
  obtain ⟨d1, left, hl, rfl⟩ := C19_aux env cfg targets d d' h
  have h1 := labels_annotateLoop env cfg _ _ _ _ ht hl hd
  split
  · exact labelsIn_extendDoc cfg h1
  · exact h1

theorem labels_subTagOnly (p : Bool) {inner : Doc → Except Err Doc} (hi : Labels P Q inner) : Labels P Q (subTagOnlyAnnotate p inner) := by
  intro d d' h hd
  unfold subTagOnlyAnnotate at h
  simp only at h
  split at h
  · cases h
  · next d2 hd2 =>
    obtain rfl := Except.ok.inj h
    refine labelsIn_foldl _ _ (fun d i _ hd => labelsIn_setTagOnly hd _ (hd.orPreserved i)) _ (hi _ _ hd2 ?_)
    refine labelsIn_foldl _ _ (fun d i _ hd => ?_) _ hd
    split
    · exact labelsIn_setTagOnly hd _ (okTag_none P)
    · exact labelsIn_setNone (labelsIn_setTagOnly hd _ (okTag_none P)) _ _

theorem labels_matchOrSubTags (env : ToolEnv) (cfg : MatchCfg) (targets : List Target) (seg : Bool)
    (ht : ∀ t ∈ targets, (seg = true → OkName P t.name) ∧ (cfg.useSubAnnotations = true → ∀ s ∈ t.subs, OkName Q s.1)) :
    Labels P Q (matchOrSubTags env cfg targets seg) := by
  unfold matchOrSubTags
  cases seg with
  | true => exact labels_simple _ _ _ (fun t h => ⟨fun _ => (ht t h).1 rfl, (ht t h).2⟩)
  | false => exact labels_subTagOnly _ (labels_simple _ _ _ (fun t h => ⟨fun e => (by cases e), (ht t h).2⟩))

/-! ### Matching of lines -/

/-- The names of a target may be used. -/
def OkCore (P Q : Str → Prop) (t : CoreTarget) : Prop := OkName P t.name ∧ ∀ s ∈ t.subs, OkName Q s.name

theorem labelsIn_subTagLoop (cfg : CoreCfg) {name : Str} (hn : OkName Q name) (l : List Nat) : ∀ (d : Doc) (b : Bool),
    LabelsIn P Q d → LabelsIn P Q (subTagLoop cfg name d b l) := by
  induction l with
  | nil => exact fun d b h => h
  | cons i l ih => exact fun d b h => ih _ _ (labelsIn_setSubTag h _ (hn.corePrefixed cfg b))

theorem labels_applySubs (env : CoreEnv) (cfg : CoreCfg) (seq : CoreSeq) (ss : List CoreSub) (hs : ∀ s ∈ ss, OkName Q s.name) :
    ∀ (d : Doc) (m : List Nat) (d' : Doc), applySubs env cfg seq d m ss = .ok d' → LabelsIn P Q d → LabelsIn P Q d' := by
  induction ss with
  | nil => intro d m d' h; obtain rfl := Except.ok.inj h; exact id
  | cons s ss ih =>
    intro d m d' h hd
    unfold applySubs at h
    split at h
    · cases h
    · exact ih (fun s h => hs s (List.mem_cons_of_mem _ h)) _ _ _ h (labelsIn_subTagLoop cfg (hs s List.mem_cons_self) _ _ _ hd)

theorem labelsIn_tagLoop (cfg : CoreCfg) {name : Str} (hn : OkName P name) (l : List Nat) :
    ∀ st : Doc × List Nat, LabelsIn P Q st.1 → LabelsIn P Q (tagLoop cfg name st l).1 := by
  induction l with
  | nil => exact fun st h => by unfold tagLoop; exact h
  | cons i l ih =>
    rintro ⟨d, all⟩ h
    unfold tagLoop
    split
    · exact ih (d, all) h
    · exact ih (_, _) (labelsIn_setTag h i (hn.corePrefixed cfg _))

theorem labels_applyMatches (env : CoreEnv) (cfg : CoreCfg) (t : CoreTarget) (ht : OkCore P Q t) (ms : List SeqMatch) :
    ∀ (st : Doc × List Nat) (d' : Doc), applyMatches env cfg t st ms = .ok d' → LabelsIn P Q st.1 → LabelsIn P Q d' := by
  induction ms with
  | nil => intro st d' h; unfold applyMatches at h; obtain rfl := Except.ok.inj h; exact id
  | cons m ms ih =>
    rintro ⟨d, all⟩ d' h hd
    unfold applyMatches at h
    simp only at h
    have h1 := labelsIn_tagLoop cfg ht.1 (coreTokensBetween env (coreNormalise env) d m.range2 m.seq) (d, all) hd
    split at h
    · exact ih _ _ h h1
    · split at h
      · cases h
      · next d1 hd1 => exact ih (d1, _) _ h (labels_applySubs _ _ _ _ ht.2 _ _ _ hd1 h1)

/-- The target annotation waiting for the next match. -/
def OkCond (P Q : Str → Prop) (c : Conditional) : Prop := ∀ x ∈ c, OkCore P Q x.1

theorem labels_applyConditional (env : CoreEnv) (cfg : CoreCfg) (c : Conditional) (hc : OkCond P Q c) (ms : List SeqMatch) :
    Labels P Q (applyConditional env cfg c ms) := by
  intro d d' h hd
  unfold applyConditional at h
  split at h
  · obtain rfl := Except.ok.inj h; exact hd
  · split at h
    · exact labels_applyMatches _ _ _ (hc _ rfl) _ (_, _) _ h hd
    · obtain rfl := Except.ok.inj h; exact hd

theorem labels_annotateItems (env : CoreEnv) (cfg : CoreCfg) (t : CoreTarget) (ht : OkCore P Q t) (n : Nat) :
    ∀ (d : Doc) (c : Conditional) (m : List Nat) (ch : Choices) (r : Doc × Conditional × List Nat),
      annotateItems env cfg t n d c m ch = .ok (some r) → OkCond P Q c → LabelsIn P Q d → LabelsIn P Q r.1 ∧ OkCond P Q r.2.1 := by
  induction n with
  | zero => intro d c m ch r h; unfold annotateItems at h; cases h
  | succ n ih =>
    intro d c m ch r h hc hd
    unfold annotateItems at h
    split at h
    · cases h
    · next found matched' used _ =>
      simp only at h
      split at h
      · cases h; exact ⟨hd, by intro x hx; cases hx⟩
      · split at h
        · cases h
        · next d1 hd1 =>
          have h1 := labels_applyConditional _ _ _ hc _ _ _ hd1 hd
          split at h
          · cases h
          · next d2 hd2 =>
            have h2 : LabelsIn P Q d2 := by
              split at hd2
              · obtain rfl := Except.ok.inj hd2; exact h1
              · exact labels_applyMatches _ _ _ ht _ (_, _) _ hd2 h1
            have hc' : OkCond P Q (if t.requireNext = true then some (t, sortBy matchLe found) else c) := by
              split
              · intro x hx; cases hx; exact ht
              · exact hc
            split at h
            · exact ih _ _ _ _ _ h hc' h2
            · cases h; exact ⟨h2, hc'⟩

theorem labels_annotateTargets (env : CoreEnv) (cfg : CoreCfg) (fuel : Nat) (pending : List CoreSeq) (ts : List CoreTarget)
    (ht : ∀ t ∈ ts, OkCore P Q t) :
    ∀ (st st' : CoreState), annotateTargets env cfg fuel pending st ts = .ok (some st') → OkCond P Q st.cond →
      LabelsIn P Q st.doc → LabelsIn P Q st'.doc := by
  induction ts with
  | nil => intro st st' h; unfold annotateTargets at h; cases h; exact fun _ => id
  | cons t ts ih =>
    intro st st' h hc hd
    unfold annotateTargets at h
    simp only at h
    split at h
    · cases h
    · cases h
    · next d c m hdd =>
      obtain ⟨h1, h2⟩ := labels_annotateItems _ _ _ (ht t List.mem_cons_self) _ _ _ _ _ _ hdd hc hd
      exact ih (fun t h => ht t (List.mem_cons_of_mem _ h)) _ _ h h2 h1

theorem labels_core (env : CoreEnv) (cfg : CoreCfg) (ts : List CoreTarget) (ht : ∀ t ∈ ts, OkCore P Q t) :
    Labels P Q (coreAnnotate env cfg ts) := by
  intro d d' h hd
  unfold coreAnnotate at h
  simp only at h
  split at h
  · cases h
  · cases h
  · next st hst =>
    obtain rfl := Except.ok.inj h
    exact labels_annotateTargets _ _ _ _ _ ht _ _ hst (by intro x hx; cases hx) hd

theorem labels_annotateAll (as : List (Doc → Except Err Doc)) (h : ∀ a ∈ as, Labels P Q a) : Labels P Q (annotateAll as) := by
  induction as with
  | nil => intro d d' e; obtain rfl := Except.ok.inj e; exact id
  | cons a as ih =>
    intro d d' e hd
    unfold annotateAll at e
    split at e
    · cases e
    · next d1 hd1 => exact ih (fun x hx => h x (List.mem_cons_of_mem _ hx)) d1 d' e (h a List.mem_cons_self d d1 hd1 hd)

end Verif
