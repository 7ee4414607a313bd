/-
Lemmas about the labels which the tool for full texts does not remove.
-/
import Verif.Lemmas.MainExact
import Verif.Lemmas.Labels
import Verif.Lemmas.TargetAnnotations

namespace Verif

/-- Labels of notes are removed by the tool for full texts. -/
def NotNote (v : Str) : Prop := fulltextReplaced.get? v = none

/-- From `b` to `d` preserved tags are only removed on lines on which a token with the same one has got a tag, except
those of notes; `ext` says that this happens. -/
structure LineKept (ext : Prop) (b d : Doc) : Prop where
  line : d.lineOf = b.lineOf
  space : ∀ j, (d.tok j).isSpace = (b.tok j).isSpace
  removed : ∀ k, d.getAttr k keptMainAttr = b.getAttr k keptMainAttr ∨ d.getAttr k keptMainAttr = none
  tags : ∀ j, OkTag NotNote (d.getTag j)
  kept : ∀ k v, stripTagPrefix (b.getAttr k keptMainAttr) = some v → v ≠ [] → NotNote v →
    (ext ∧ ∃ j, k ∈ b.lineOf j ∧ (b.tok j).isSpace = false ∧ stripTagPrefix (b.getAttr j keptMainAttr) = some v ∧ truthy (d.getTag j) = true) ∨
    d.getAttr k keptMainAttr = b.getAttr k keptMainAttr

theorem truthy_addPrefix {v : Option Str} (h : truthy v = true) (p : Option Str) : truthy (addTagPrefix v p) = true := by
  cases v with
  | none => cases h
  | some v =>
    cases v with
    | nil => cases h
    | cons c v =>
      cases p with
      | none => rfl
      | some p => cases p <;> rfl

theorem LineKept.setTagOnly {ext : Prop} {b d : Doc} (h : LineKept ext b d) (i : Nat) {t : Option Str} (ht : truthy t = true) (hok : OkTag NotNote t) :
    LineKept ext b (d.setTagOnly i t) := by
  have hs := sameBut_setTagOnly d i t none none
  have hkeep : ∀ j, (d.setTagOnly i t).getAttr j keptMainAttr = d.getAttr j keptMainAttr := by
    intro j
    show (d.setAttr i _ t).getAttr j _ = _
    rw [getAttr_setAttr, if_neg (fun e => absurd e.2 (by decide))]
  refine ⟨hs.lineOf.trans h.line, fun j => (hs.isSpace j).trans (h.space j), fun k => by rw [hkeep]; exact h.removed k, fun j => ?_,
    fun k v hv hv0 hn => ?_⟩
  · rw [getTag_setMainOnly]
    split
    · exact hok
    · exact h.tags j
  · rw [hkeep]
    rcases h.kept k v hv hv0 hn with ⟨hx, j, h1, h2, h3, h4⟩ | hk
    · refine .inl ⟨hx, j, h1, h2, h3, ?_⟩
      rw [getTag_setMainOnly]
      split
      · exact ht
      · exact h4
    · exact .inr hk

/-- What setting a tag removes. -/
theorem getKept_setTag (d : Doc) (i : Nat) (t : Option Str) (k : Nat) :
    (d.setTag i t).getAttr k keptMainAttr = d.getAttr k keptMainAttr ∨
    ((d.tok i).isSpace = false ∧ k ∈ d.lineOf i ∧ (d.setTag i t).getAttr k keptMainAttr = none ∧
      truthy (stripTagPrefix (d.getAttr i keptMainAttr)) = true ∧
      stripTagPrefix (d.getAttr k keptMainAttr) = stripTagPrefix (d.getAttr i keptMainAttr)) := by
  have hkeep : ∀ j, (d.setTagOnly i t).getAttr j keptMainAttr = d.getAttr j keptMainAttr := by
    intro j
    show (d.setAttr i _ t).getAttr j _ = _
    rw [getAttr_setAttr, if_neg (fun e => absurd e.2 (by decide))]
  unfold Doc.setTag
  simp only
  split
  · exact .inl (hkeep k)
  · next hsp =>
    split
    · rw [if_pos trivial, getAttr_clearSamePreserved, if_neg (fun e => absurd e.2.1 (by decide)), getAttr_clearSamePreserved, hkeep, hkeep]
      split
      · next hc => exact .inr ⟨by simpa using hsp, hc.1, rfl, hc.2.2⟩
      · exact .inl rfl
    · exact .inl (hkeep k)

theorem LineKept.setTag {ext : Prop} {b d : Doc} (h : LineKept ext b d) (i : Nat) {t : Option Str} (hok : OkTag NotNote t)
    (hc : (ext ∧ truthy t = true) ∨ (truthy (d.getTag i) = false ∧
      ∀ v, stripTagPrefix (d.getAttr i keptMainAttr) = some v → v ≠ [] → ¬ NotNote v)) :
    LineKept ext b (d.setTag i t) := by
  have hs := sameBut_setTag d i t none none
  refine ⟨hs.lineOf.trans h.line, fun j => (hs.isSpace j).trans (h.space j), fun k => ?_, fun j => ?_, fun k v hv hv0 hn => ?_⟩
  · rcases getKept_setTag d i t k with e | ⟨_, _, e, _⟩
    · rw [e]; exact h.removed k
    · exact .inr e
  · rw [getTag_setTag]
    split
    · exact hok
    · exact h.tags j
  · rcases h.kept k v hv hv0 hn with ⟨hx, j, h1, h2, h3, h4⟩ | hk
    · refine .inl ⟨hx, j, h1, h2, h3, ?_⟩
      rw [getTag_setTag]
      split
      · next e =>
        subst e
        rcases hc with ht | ⟨hf, _⟩
        · exact ht.2
        · rw [hf] at h4; cases h4
      · exact h4
    · rcases getKept_setTag d i t k with e | ⟨hsp, hki, _, htr, he⟩
      · exact .inr (e.trans hk)
      · rw [hk, hv] at he
        have hbi : stripTagPrefix (b.getAttr i keptMainAttr) = some v := by
          rcases h.removed i with e | e
          · rw [← e]; exact he.symm
          · rw [e] at he; cases he
        rcases hc with ht | ⟨_, hno⟩
        · refine .inl ⟨ht.1, i, by rw [← h.line]; exact hki, by rw [← h.space]; exact hsp, hbi, ?_⟩
          rw [getTag_setTag, if_pos rfl]
          exact ht.2
        · exact absurd hn (hno v he.symm hv0)

theorem LineKept.subOnly {ext : Prop} {b d d' : Doc} (h : LineKept ext b d) (hs : SubOnly d d') : LineKept ext b d' := by
  have e1 : ∀ i, d'.getAttr i keptMainAttr = d.getAttr i keptMainAttr := fun i => hs.attrs i _ (by decide) (by decide)
  have e2 : ∀ i, d'.getTag i = d.getTag i := fun i => hs.attrs i _ (by decide) (by decide)
  refine ⟨hs.same.lineOf.trans h.line, fun j => (hs.same.isSpace j).trans (h.space j), fun k => by rw [e1]; exact h.removed k,
    fun j => by rw [e2]; exact h.tags j, fun k v hv hv0 hn => ?_⟩
  rw [e1]
  rcases h.kept k v hv hv0 hn with ⟨hx, j, h1, h2, h3, h4⟩ | hk
  · exact .inl ⟨hx, j, h1, h2, h3, by rw [e2]; exact h4⟩
  · exact .inr hk

theorem lineKept_setTags {ext : Prop} (hx : ext) {b : Doc} : ∀ (ps : List (Nat × Option Str)) (d : Doc), (∀ p ∈ ps, OkTag NotNote p.2) →
    LineKept ext b d → LineKept ext b (setTags d ps) := by
  intro ps
  induction ps with
  | nil => exact fun d _ h => h
  | cons p ps ih =>
    intro d hall h
    have e : setTags d (p :: ps) = setTags (if truthy p.2 then d.setTag p.1 p.2 else d) ps := rfl
    rw [e]
    refine ih _ (fun q hq => hall q (List.mem_cons_of_mem _ hq)) ?_
    split
    · next ht => exact h.setTag p.1 (hall p List.mem_cons_self) (.inl ⟨hx, ht⟩)
    · exact h

theorem okTag_index (cfg : MatchCfg) {name : Str} (hn : ∀ v, Spec.tagValue (some name) = some v → v ≠ [] → NotNote v) (hn' : NotNote name)
    (k : Nat) : OkTag NotNote (addTagPrefix (some name) (indexPrefix cfg k)) := by
  unfold indexPrefix
  split
  · split
    · exact okTag_addB (fun v e _ => by cases e; exact hn')
    · exact okTag_addI (fun v e _ => by cases e; exact hn')
  · intro v hv hv0
    have e : addTagPrefix (some name) none = some name := by cases name <;> rfl
    rw [e, stripTagPrefix_eq_tagValue] at hv
    exact hn v hv hv0

theorem lineKept_annotate {ext : Prop} (env : MatchEnv) (cfg : MatchCfg) (targets : List Target)
    (hext : cfg.preserveSubAnnotations = false ∨ cfg.extendToLineEnabled = true → ext)
    (hn : ∀ t ∈ targets, t.name ≠ [] ∧ NotNote t.name ∧ ∀ v, Spec.tagValue (some t.name) = some v → v ≠ [] → NotNote v) {b d d' : Doc}
    (h : simpleAnnotate env cfg targets d = .ok d') (hd : LineKept ext b d) : LineKept ext b d' := by
  obtain ⟨d1, left, hl, rfl⟩ := C19_aux env cfg targets d d' h
  have h1 : LineKept ext b d1 := by
    refine invariant_annotateLoop (cfg := cfg) (I := fun d => LineKept ext b d) env _ _ _ _ (fun t ht => ?_) hl hd
    obtain ⟨n1, n2, n3⟩ := hn t ht
    refine ⟨fun _ d is _ hd => tagTokens_each (I := fun d => LineKept ext b d) (fun d i k hd => ?_) is d 0 hd,
      fun _ s hs d is _ hd => hd.subOnly (subOnly_subTagTokens cfg s.1 is d 0)⟩
    split
    · exact hd.setTagOnly i (truthy_prefixed cfg n1 k) (okTag_index cfg n3 n2 k)
    · next hp => exact hd.setTag i (okTag_index cfg n3 n2 k) (.inl ⟨hext (.inl (by simpa using hp)), truthy_prefixed cfg n1 k⟩)
  split
  · next he =>
    refine labelsIn_loop (LineKept ext b) _ _ (fun d l _ hd => ?_) d1 h1
    rw [extendLine_eq]
    refine lineKept_setTags (hext (.inr he)) _ d (fun p hp => ?_) hd
    refine okTag_extended _ _ (fun t ht => ?_) p.2 (List.of_mem_zip hp).2
    obtain ⟨i, _, rfl⟩ := List.mem_map.1 ht
    exact hd.tags i
  · exact h1

theorem lineKept_replaceTags {ext : Prop} {b d : Doc} (hd : LineKept ext b d) : LineKept ext b (replaceTags fulltextReplaced d) := by
  refine labelsIn_loop (LineKept ext b) _ _ (fun d i _ hd => ?_) d hd
  unfold replaceTagsStep
  have hstrip : (splitTagPrefix (d.getTagOrPreserved i)).2 = stripTagPrefix (d.getTagOrPreserved i) := rfl
  generalize splitTagPrefix (d.getTagOrPreserved i) = p at hstrip
  obtain ⟨pre, value⟩ := p
  simp only at hstrip ⊢
  split
  · exact hd
  · next hv =>
    split
    · exact hd
    · next new hget =>
      cases value with
      | none => simp [truthy] at hv
      | some w =>
        have hw : w ≠ [] := by rintro rfl; simp [truthy] at hv
        have hget' : fulltextReplaced.get? w = some new := hget
        have hnew : new = none := by
          have := mem_of_get? hget'
          simp only [fulltextReplaced, List.mem_cons, Prod.mk.injEq, List.not_mem_nil, or_false] at this
          rcases this with h | h <;> exact h.2
        subst hnew
        rw [addTagPrefix_none_left]
        have hbad : ¬ NotNote w := fun e => by rw [NotNote, hget'] at e; cases e
        have hfal : truthy (d.getTag i) = false := by
          cases ht : truthy (d.getTag i) with
          | false => rfl
          | true =>
            have : d.getTagOrPreserved i = d.getTag i := by
              unfold Doc.getTagOrPreserved pyOr
              rw [ht]; rfl
            rw [this] at hstrip
            exact absurd (hd.tags i w hstrip.symm hw) hbad
        refine hd.setTag i (okTag_none _) (.inr ⟨hfal, fun v e _ => ?_⟩)
        have : d.getTagOrPreserved i = d.getAttr i keptMainAttr := by
          unfold Doc.getTagOrPreserved pyOr
          rw [hfal]; rfl
        rw [this, e] at hstrip
        cases hstrip
        exact hbad

theorem lineKept_mergeGroup {ext : Prop} {b d : Doc} (hd : LineKept ext b d) : LineKept ext b (mergeGroupTags fulltextGroup none d) := by
  refine (labelsIn_loop (fun st : Option Str × Doc => LineKept ext b st.2 ∧ ∀ v, st.1 = some v → v ≠ [] → NotNote v) _ _
    (fun st i _ hd => ?_) (none, d) ⟨hd, fun _ e => nomatch e⟩).1
  unfold mergeGroupStep
  split
  · exact hd
  · simp only
    split
    · refine ⟨hd.1, fun v e _ => ?_⟩
      simp only [fulltextGroup] at e
      split at e
      · cases e; unfold NotNote; decide
      · cases e
    · split
      · exact hd
      · next ht =>
        exact ⟨hd.1.setTagOnly i (truthy_addPrefix (by simpa using ht) _) (okTag_addI hd.2), hd.2⟩

theorem notNote_expanded {v : Str} (h : fulltextExpanded.contains v = true) : NotNote v := by
  simp only [fulltextExpanded, List.contains_eq_mem, List.mem_cons, List.not_mem_nil, or_false, decide_eq_true_eq] at h
  rcases h with rfl | rfl <;> (unfold NotNote; decide)

theorem lineKept_expandFollowing {ext : Prop} {b d : Doc} (hd : LineKept ext b d) : LineKept ext b (expandFollowing fulltextExpanded d) := by
  refine (labelsIn_loop (fun st : Option Str × Doc => LineKept ext b st.2 ∧ ∀ v, st.1 = some v → v ≠ [] → NotNote v) _ _
    (fun st i _ hd => ?_) (none, d) ⟨hd, fun _ e => nomatch e⟩).1
  unfold expandFollowingStep
  simp only
  split
  · refine ⟨hd.1, fun v e _ => ?_⟩
    split at e
    · next hc =>
      have e : st.2.getTagOrPreservedValue i = some v := e
      rw [e] at hc
      exact notNote_expanded hc
    · cases e
  · split
    · exact hd
    · next ht =>
      exact ⟨hd.1.setTagOnly i (truthy_addPrefix (by simpa using ht) _) (okTag_addI hd.2), hd.2⟩

theorem lineKept_expandPrevious {ext : Prop} {b d : Doc} (hd : LineKept ext b d) : LineKept ext b (expandPrevious fulltextExpanded d) := by
  refine labelsIn_loop (fun st : PrevState => LineKept ext b st.doc) _ _ (fun st i _ hd => ?_) ⟨d, []⟩ hd
  unfold expandPreviousStep
  simp only
  split
  · exact hd
  · next hv =>
    split
    · exact hd
    · split
      · exact hd
      · next hc =>
        simp only [Bool.not_eq_true', Bool.not_eq_false] at hv hc
        have hn := notNote_expanded hc
        cases hval : st.doc.getTagOrPreservedValue i with
        | none => rw [hval] at hv; cases hv
        | some w =>
          rw [hval] at hv hn
          have hpend : ∀ is, LineKept ext b (tagPending st.doc w is) := by
            intro is
            cases is with
            | nil => exact hd
            | cons k ks =>
              refine labelsIn_loop (LineKept ext b) _ _ (fun d m _ hd => ?_) _ ?_
              · exact hd.setTagOnly m (truthy_addPrefix hv _) (okTag_addI (fun v e _ => by cases e; exact hn))
              · exact hd.setTagOnly k (truthy_addPrefix hv _) (okTag_addB (fun v e _ => by cases e; exact hn))
          exact (hpend _).setTagOnly i (truthy_addPrefix hv _) (okTag_addI (fun v e _ => by cases e; exact hn))

end Verif
