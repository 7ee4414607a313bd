/-
Saving a document that was saved and loaded: the tokens of the loaded document give the same events.
-/
import Verif.Lemmas.LoadMarked
import Verif.Lemmas.ReloadSub

namespace Verif
open Spec

/-! ### The loaded tokens -/

/-- A loaded sub tag without value is no sub tag. -/
theorem unsub_renamed (m : Dict Str) (t u : Tok)
    (h1 : t.attrib.get? c!"level2_tag" = none)
    (h2 : t.attrib.get? c!"level2_preserved_tag" = (u.attrib.get? c!"level2_tag").map (renameTag (tagOfPath m)))
    (h3 : u.attrib.get? c!"level2_tag" = none ∨ ∃ p, u.attrib.get? c!"level2_tag" = some (c!"b-" ++ p) ∨
      u.attrib.get? c!"level2_tag" = some (c!"i-" ++ p))
    (h : subValue t = none) : Unsub t := by
  have hv := subValue_renamed m t u h1 h2 h3
  rw [h] at hv
  have hf : fullSubTag t = (u.attrib.get? c!"level2_tag").map (renameTag (tagOfPath m)) := by
    unfold fullSubTag
    rw [h1, h2]; rfl
  have hnm : ∀ p, none = subName m p → tagOfPath m p = [] := by
    intro p hp
    unfold subName at hp
    split at hp
    · next h => exact h
    · cases hp
  unfold Unsub
  rw [hf]
  rcases h3 with h3 | ⟨p, h3 | h3⟩
  · rw [h3]; exact .inl rfl
  · rw [h3, show stripTagPrefix (some (c!"b-" ++ p)) = some p from stripTagPrefix_b p] at hv
    rw [h3]
    refine .inr ?_
    show some (withPrefix c!"b-" (tagOfPath m p)) = some []
    rw [hnm p hv]; rfl
  · rw [h3, show stripTagPrefix (some (c!"i-" ++ p)) = some p from stripTagPrefix_i p] at hv
    rw [h3]
    refine .inr ?_
    show some (withPrefix c!"i-" (tagOfPath m p)) = some []
    rw [hnm p hv]; rfl

/-- What is known about the tokens of any loaded document: a begin prefix belongs to a tag, and a sub tag has a value. -/
theorem loaded_tokens (cfg : DocCfg) (root c root' : Elem) (d d' : Doc)
    (hp : cfg.preserveTags = true)
    (hc : findAll cfg.containerPath root = [c])
    (hs : docRoot cfg root d = .ok root')
    (hd' : loadDoc cfg root' = .ok d') :
    (∀ t ∈ d'.lineToks.flatten, subValue t = none → Unsub t) ∧
    (∀ t ∈ d'.lineToks.flatten, beginsEntity t = true → mainValue t ≠ none) := by
  unfold docRoot updatedTei at hs
  rw [hc] at hs
  simp only at hs
  split at hs
  · cases hs
  · next f hf =>
    obtain ⟨r, h1, h2, _⟩ := findAll_replaceFirst f.close cfg.containerPath root c [] hc (by
      exact (linesToTei_head _ _ _ _ hf).1)
    rw [h1] at hs
    simp only [Except.ok.injEq] at hs
    subst hs
    have hn := linesToTei_below parsed_named (by decide) _ _ _ _ _ hf
    obtain ⟨lines', g1, _, g3, g4⟩ := Props.C11_preserved cfg r d' hd'
    rw [h2] at g1
    have hget : ∀ t ∈ d'.lineToks.flatten, ∃ i u, t = d'.tok i ∧ lines'.flatten[i]? = some u := by
      intro t ht
      rw [lineToks_flatten, g3] at ht
      obtain ⟨i, hi, rfl⟩ := List.mem_map.1 ht
      exact ⟨i, _, rfl, List.getElem?_eq_getElem (List.mem_range.1 hi)⟩
    constructor
    · intro t ht hv
      obtain ⟨i, u, rfl, hiu⟩ := hget t ht
      obtain ⟨_, _, k3, _, k5⟩ := g4 i u hiu
      rw [hp, if_pos rfl] at k5
      have hform := loaded_sub_form cfg.cc _ f.close lines' hn g1 u (List.mem_of_getElem? hiu)
      exact unsub_renamed cfg.mapping (d'.tok i) u k3 k5 hform hv
    · intro t ht hB
      obtain ⟨i, u, rfl, hiu⟩ := hget t ht
      obtain ⟨_, k2, _, k4, _⟩ := g4 i u hiu
      rw [hp, if_pos rfl] at k4
      have hform := loaded_tag_form cfg.cc _ f.close lines' hn g1 u (List.mem_of_getElem? hiu)
      rw [hasBegin_renamed cfg.mapping (d'.tok i) u k2 k4 hform, Bool.and_eq_true] at hB
      rw [mainValue_renamed cfg.mapping (d'.tok i) u k2 k4 hform]
      have := hB.2
      unfold pathValue at this
      intro h
      rw [h] at this
      cases this

/-! ### Sub tags with elements of their own -/

theorem hasSub_of_longer {mapping : Dict Str} {t : Tok} (h : (mainPath mapping t).length < (tokenPath mapping t).length) :
    hasSub mapping t := Classical.byContradiction fun hh => by
  have : tokenPath mapping t = mainPath mapping t := if_neg hh
  rw [this] at h
  omega

theorem Spec.SubOwn.named {mapping : Dict Str} {t : Tok} (h : SubOwn mapping t) : SubNamed mapping t := by
  rcases h with h | h
  · refine .inl ⟨?_, tokenPath_unsub h⟩
    unfold subValue
    rcases h with h | h <;> (rw [h]; rfl)
  · exact .inr h.2

theorem Spec.SubOwn.below {mapping : Dict Str} {t : Tok} (h : SubOwn mapping t) : SubBelow mapping t := by
  rintro ⟨v, hv⟩
  rcases h with h | h
  · exfalso
    rcases h with h | h
    · rw [h] at hv; cases hv
    · rw [h] at hv; simp at hv
  · have hh := hasSub_of_longer h.2.1
    refine ⟨hh, ?_⟩
    have : tokenPath mapping t = subPath mapping t := if_pos hh
    rw [← this]
    exact h.2.1

/-! ### The marks of the sub tags -/

/-- The characters of the tokens that are not white space with their sub tags, marked where a new element below the main
element starts. -/
def expectedMarks (cc : CharClass) (mapping : Dict Str) (path : List Str) (begun : List (Option Str)) :
    List Tok → List (Char × Option Str × Bool)
  | [] => []
  | t :: ts =>
    if blank cc t then
      expectedMarks cc mapping path (if beginsEntity t then tagValue (fullTag t) :: begun else begun) ts
    else
      (entityLabels (subValue t) (decide ((mainPath mapping t).length < (tokenPath mapping t).length ∧
          startsElement mapping path begun t) && (subValue t).isSome) t.text).filter (fun x => !cc.isSpace x.1) ++
        expectedMarks cc mapping (tokenPath mapping t) [] ts

theorem readBack_marks (cc : CharClass) (mapping : Dict Str) (toks : List Tok)
    (hd : ∀ t ∈ toks, blank cc t = false → Distinct cc mapping toks t) (seq : List (Option Tok)) (prev : List Str)
    (sub : Option Str) (broken : Bool) (begun : List (Option Str)) (m : List Str) (ho : Owned cc mapping toks m prev)
    (hsub : broken = false → m.length < prev.length → sub = some (joinWith c!"/" prev))
    (ht : ∀ t, some t ∈ seq → t ∈ toks) (hnm : ∀ t ∈ toks, blank cc t = false → SubNamed mapping t)
    (h : SubsMarked cc mapping prev broken begun seq) :
    (subMarksReadBack cc mapping prev sub begun seq).map
      (fun x => (x.1, x.2.1.bind (subName mapping), x.2.2 && (x.2.1.bind (subName mapping)).isSome)) =
      expectedMarks cc mapping prev begun (seqToks seq) := by
  induction seq generalizing prev sub broken begun m with
  | nil => rfl
  | cons o r ih =>
    have ht' : ∀ t, some t ∈ r → t ∈ toks := fun t h => ht t (by simp [h])
    cases o with
    | none =>
      rw [subMarksReadBack, seqToks]
      exact ih prev none true begun m ho (fun h => by cases h) ht' h
    | some t =>
      rw [seqToks, expectedMarks]
      cases hb : blank cc t with
      | true =>
        rw [subMarksReadBack, if_pos hb, if_pos rfl]
        rw [SubsMarked, if_pos hb] at h
        exact ih prev sub broken _ m ho hsub ht' h
      | false =>
        have htm := ht t (by simp)
        rw [subMarksReadBack, if_neg (by simp [hb]), if_neg (show ¬ false = true by simp)]
        rw [SubsMarked, if_neg (by simp [hb])] at h
        obtain ⟨h1, h2⟩ := h
        have hro : Owned cc mapping toks (mainPath mapping t) (tokenPath mapping t) := .inr ⟨t, htm, hb, rfl, rfl⟩
        have key := readPath_kept cc mapping toks hd prev sub broken begun m ho hsub t htm hb (hnm t htm hb) h1
        show List.map _ ((entityLabels (readPath mapping prev sub begun t) _ _).filter _ ++
          subMarksReadBack cc mapping (tokenPath mapping t) (readPath mapping prev sub begun t) [] r) = _
        rw [List.map_append, ih (tokenPath mapping t) _ false [] _ hro (fun _ hlt => by
          rw [key.1, if_neg (by omega)]) ht' h2, filter_labels_map cc (fun v => v.bind (subName mapping)), key.2]

/-! ### The same events -/

/-- The path of a token depends on the values of its tags. -/
theorem tokenPath_values {mapping : Dict Str} {t u : Tok} (ht : SubOwn mapping t) (hu : subValue u = none → Unsub u)
    (hm : mainValue u = mainValue t) (hs : subValue u = subValue t) : tokenPath mapping u = tokenPath mapping t := by
  have hmp : mainPath mapping u = mainPath mapping t := by rw [mainPath_value, hm, ← mainPath_value]
  have hsp : ∀ t : Tok, subPath mapping t = tagRequiredPath mapping (subValue t) := by
    intro t
    rw [subValue_eq, tagRequiredPath_norm]; rfl
  rcases ht with h | ⟨h1, h2, _⟩
  · have h0 : subValue t = none := by
      unfold subValue
      rcases h with h | h <;> (rw [h]; rfl)
    rw [tokenPath_unsub h, tokenPath_unsub (hu (hs.trans h0)), hmp]
  · have hh : hasSub mapping t := hasSub_of_longer h2
    have hne : fullSubTag u ≠ none ∧ fullSubTag u ≠ some [] := by
      constructor <;>
      · intro h
        apply h1
        rw [← hs]
        unfold subValue
        rw [h]; rfl
    have hhu : hasSub mapping u := ⟨hne.1, hne.2, by rw [hsp, hs, ← hsp, hmp]; exact hh.2.2⟩
    unfold tokenPath
    rw [if_pos hh, if_pos hhu, hsp, hs, ← hsp]

theorem tagValue_of_value {t : Tok} (h : mainValue t ≠ none) : tagValue (fullTag t) = mainValue t := by
  rw [← stripTagPrefix_eq_tagValue]
  exact mainValue_strip h

theorem events_same (cc : CharClass) (mapping : Dict Str) (a b : List Tok)
    (hfirst : ∀ t ∈ a, blank cc t = false → ∀ x s, t.text = x :: s → cc.isSpace x = false)
    (hown : ∀ t ∈ a, blank cc t = false → SubOwn mapping t)
    (hB : ∀ t ∈ a, beginsEntity t = true → mainValue t ≠ none)
    (hun : ∀ t ∈ b, subValue t = none → Unsub t)
    (prev prev' : Option Str) (begun begun' : List (Option Str)) (path : List Str)
    (hproper : ∀ v ∈ begun, v ≠ none ∧ v ≠ some [])
    (ht : a.map (·.text) = b.map (·.text)) (he : entityChars cc prev begun a = entityChars cc prev' begun' b)
    (hm : subMarkChars cc b = expectedMarks cc mapping path begun a) :
    events cc mapping (prev, path, begun) a = events cc mapping (prev', path, begun') b ∧
    ∀ u ∈ b, blank cc u = false →
      (beginsSub u = true → (mainPath mapping u).length < (tokenPath mapping u).length) ∧
      ∃ t ∈ a, blank cc t = false ∧ mainValue t = mainValue u ∧ tokenPath mapping t = tokenPath mapping u := by
  induction a generalizing b prev prev' begun begun' path with
  | nil =>
    cases b with
    | nil => exact ⟨rfl, fun u hu => by cases hu⟩
    | cons u b => simp at ht
  | cons t a ih =>
    cases b with
    | nil => simp at ht
    | cons u b =>
      have ih' := ih b (fun t h => hfirst t (by simp [h])) (fun t h => hown t (by simp [h])) (fun t h => hB t (by simp [h]))
        (fun t h => hun t (by simp [h]))
      simp only [List.map_cons, List.cons.injEq] at ht
      have hb : blank cc t = blank cc u := by unfold blank; rw [ht.1]
      have hext : (∀ u' ∈ b, blank cc u' = false →
          (beginsSub u' = true → (mainPath mapping u').length < (tokenPath mapping u').length) ∧
          ∃ t' ∈ a, blank cc t' = false ∧ mainValue t' = mainValue u' ∧ tokenPath mapping t' = tokenPath mapping u') →
          (blank cc u = false → (beginsSub u = true → (mainPath mapping u).length < (tokenPath mapping u).length) ∧
            mainValue t = mainValue u ∧ tokenPath mapping t = tokenPath mapping u) →
          ∀ u' ∈ u :: b, blank cc u' = false →
          (beginsSub u' = true → (mainPath mapping u').length < (tokenPath mapping u').length) ∧
          ∃ t' ∈ t :: a, blank cc t' = false ∧ mainValue t' = mainValue u' ∧ tokenPath mapping t' = tokenPath mapping u' := by
        intro h1 h2 u' hu' hbu'
        rcases List.mem_cons.1 hu' with rfl | hu'
        · exact ⟨(h2 hbu').1, t, by simp, hb.trans hbu', (h2 hbu').2⟩
        · obtain ⟨g1, t', g2, g3⟩ := h1 u' hu' hbu'
          exact ⟨g1, t', by simp [g2], g3⟩
      rw [entityChars, entityChars, ← hb] at he
      rw [expectedMarks] at hm
      rw [subMarkChars, List.flatMap_cons] at hm
      rw [events, events, ← hb, ht.1]
      cases hbt : blank cc t with
      | true =>
        have hbu : blank cc u = true := hb ▸ hbt
        rw [hbt, if_pos rfl, if_pos rfl] at he
        rw [hbt, if_pos rfl] at hm
        rw [if_pos rfl, if_pos rfl]
        have hnil : (entityLabels (subValue u) (beginsSub u) u.text).filter (fun x => !cc.isSpace x.1) = [] := by
          have h0 := filter_drop cc (subValue u) (beginsSub u) u.text
          have h1 : u.text.filter (fun c => !cc.isSpace c) = [] := by
            rw [List.filter_eq_nil_iff]
            intro c hc
            unfold blank at hbu
            simp [List.all_eq_true.1 hbu c hc]
          rw [h1] at h0
          exact List.map_eq_nil_iff.1 h0
        rw [hnil, List.nil_append] at hm
        have hbeg : (if beginsEntity t = true then tagValue (fullTag t) :: begun else begun) =
            if beginsEntity t = true then mainValue t :: begun else begun := by
          split
          · next h => rw [tagValue_of_value (hB t (by simp) h)]
          · rfl
        rw [hbeg] at hm
        obtain ⟨g1, g2⟩ := ih' prev prev' _ _ path (by
          intro v hv
          split at hv
          · next h =>
            rcases List.mem_cons.1 hv with rfl | hv
            · exact ⟨hB t (by simp) h, mainValue_ne_empty t⟩
            · exact hproper v hv
          · exact hproper v hv) ht.2 he hm
        simp only
        rw [g1]
        exact ⟨rfl, hext g2 (fun h => by rw [hbu] at h; cases h)⟩
      | false =>
        have hbu : blank cc u = false := hb ▸ hbt
        rw [hbt, if_neg (by simp), if_neg (by simp), ht.1] at he
        rw [hbt, if_neg (by simp)] at hm
        rw [if_neg (by simp), if_neg (by simp)]
        -- the main tag
        have hmain : mainValue t = mainValue u ∧ startsAt prev begun t = startsAt prev' begun' u ∧
            entityChars cc (mainValue t) [] a = entityChars cc (mainValue u) [] b := by
          obtain ⟨c, h1, h2⟩ := exists_char_of_text hbu
          have hne : u.text.filter (fun c => !cc.isSpace c) ≠ [] := by
            intro h
            rw [List.filter_eq_nil_iff] at h
            have := h c h1
            simp [h2] at this
          generalize u.text.filter (fun c => !cc.isSpace c) = s at he hne
          cases s with
          | nil => exact absurd rfl hne
          | cons x s =>
            simp only [entityLabels, List.cons_append, List.cons.injEq, Prod.mk.injEq, true_and] at he
            obtain ⟨⟨hv, hst⟩, hrest⟩ := he
            have hrest' := List.append_inj hrest (by simp)
            exact ⟨hv, hst, hrest'.2⟩
        obtain ⟨hv, hst, hrest⟩ := hmain
        -- the sub tag
        have hsubs : subValue u = subValue t ∧
            beginsSub u = (decide ((mainPath mapping t).length < (tokenPath mapping t).length ∧
              startsElement mapping path begun t) && (subValue t).isSome) ∧
            subMarkChars cc b = expectedMarks cc mapping (tokenPath mapping t) [] a := by
          rw [ht.1] at hm
          cases hx : u.text with
          | nil =>
            unfold blank at hbu
            rw [hx] at hbu
            cases hbu
          | cons x s =>
            have hx0 := hfirst t (by simp) hbt x s (by rw [ht.1, hx])
            rw [hx] at hm
            simp only [entityLabels, List.filter_cons, hx0, Bool.not_false, if_true, List.cons_append,
              List.cons.injEq, Prod.mk.injEq, true_and] at hm
            obtain ⟨⟨h1, h2⟩, h3⟩ := hm
            rw [h1] at h3
            exact ⟨h1, h2, (List.append_inj h3 rfl).2⟩
        obtain ⟨hs1, hs2, hs3⟩ := hsubs
        have hP : tokenPath mapping u = tokenPath mapping t :=
          tokenPath_values (hown t (by simp) hbt) (hun u (by simp)) hv.symm hs1
        have hM : mainPath mapping u = mainPath mapping t := by rw [mainPath_value, ← hv, ← mainPath_value]
        have hsome : (mainPath mapping t).length < (tokenPath mapping t).length → (subValue t).isSome = true := by
          intro h
          rcases hown t (by simp) hbt with h1 | h1
          · rw [tokenPath_unsub h1] at h; omega
          · exact Option.isSome_iff_ne_none.2 h1.1
        have hfresh : freshAt mapping prev path begun t = freshAt mapping prev' path begun' u := by
          unfold freshAt
          rw [← hst, hP, hM]
          rcases Bool.eq_false_or_eq_true (startsAt prev begun t) with h | h
          · rw [h]; rfl
          · rw [h, Bool.not_false, Bool.true_and, Bool.true_and, decide_eq_decide]
            refine and_congr_right (fun hlt => ?_)
            rw [hs2, hsome hlt, Bool.and_true, decide_eq_true_eq]
            have hnb : ¬ beginsEntity t = true := by
              intro hb
              unfold startsAt at h
              rw [decide_eq_false_iff_not] at h
              exact h ⟨hB t (by simp) hb, .inl hb⟩
            have hnr : ¬ tagValue (fullTag t) ∈ begun := by
              intro hb
              have e1 : (splitTagPrefix (fullTag t)).2 = tagValue (fullTag t) := stripTagPrefix_eq_tagValue _
              rw [← e1, strip_mem_iff hproper] at hb
              unfold startsAt at h
              rw [decide_eq_false_iff_not] at h
              exact h ⟨hb.1, .inr (.inl hb.2)⟩
            unfold startsElement
            constructor
            · rintro (h | h)
              · exact .inl ⟨hlt, .inr (.inl h)⟩
              · exact .inr h
            · rintro (⟨_, h⟩ | h)
              · rcases h with h | h | h | h
                · exact absurd h hnb
                · exact .inl h
                · exact absurd h hnr
                · exact .inr h
              · exact .inr h
        obtain ⟨g1, g2⟩ := ih' (mainValue t) (mainValue u) [] [] (tokenPath mapping t) (by simp) ht.2 hrest hs3
        simp only
        rw [hfresh, hst, hP, g1, hv]
        refine ⟨rfl, hext g2 (fun _ => ⟨fun h => ?_, hv, hP.symm⟩)⟩
        rw [hs2, Bool.and_eq_true, decide_eq_true_eq] at h
        rw [hM, hP]
        exact h.1.1

/-- Saving a saved and loaded document. -/
theorem save_again_core (cfg : DocCfg) (root c root' : Elem) (d d' : Doc)
    (hspace : ∀ ch, cfg.cc.isSpace ch = true → cfg.cc.isWord ch = false)
    (hp : cfg.preserveTags = true)
    (hc : findAll cfg.containerPath root = [c])
    (hs : docRoot cfg root d = .ok root')
    (hd : ∀ t ∈ d.lineToks.flatten, blank cfg.cc t = false → Distinct cfg.cc cfg.mapping d.lineToks.flatten t)
    (hown : ∀ t ∈ d.lineToks.flatten, blank cfg.cc t = false → SubOwn cfg.mapping t)
    (hbelow : ∀ t ∈ d.lineToks.flatten, blank cfg.cc t = false → SubBelow cfg.mapping t)
    (hB : ∀ t ∈ d.lineToks.flatten, beginsEntity t = true → mainValue t ≠ none)
    (hda : NestedMarked cfg.cc cfg.mapping none [] d.lineToks.flatten)
    (hwhole : ∀ l ∈ tokenTexts d, ∀ s ∈ l, Whole cfg.cc s)
    (hd' : loadDoc cfg root' = .ok d')
    (hdb : NestedMarked cfg.cc cfg.mapping none [] d'.lineToks.flatten)
    (hmarks : subMarkText cfg.cc d' = expectedMarks cfg.cc cfg.mapping [] [] d.lineToks.flatten)
    (hent : entityText cfg.cc d' = entityText cfg.cc d)
    (htok : tokenTexts d' = moveSpace cfg.cc [] (tokenTexts d)) :
    docRoot cfg root' d' = .ok root' := by
  obtain ⟨hun, hB'⟩ := loaded_tokens cfg root c root' d d' hp hc hs hd'
  have hWa : Writable cfg.cc cfg.mapping d.lineToks.flatten :=
    ⟨hbelow, hB, fun t ht u hut hbt hbu hv hl hne => apart_of_distinct cfg.cc cfg.mapping _ hd t ht u hut hbt hbu hv hl hne⟩
  have hfirst : ∀ t ∈ d.lineToks.flatten, blank cfg.cc t = false → ∀ x s, t.text = x :: s → cfg.cc.isSpace x = false := by
    intro t ht hb x s hx
    obtain ⟨l, hl, ht⟩ := List.mem_flatten.1 ht
    exact isSpace_first_of_whole hspace
      (hwhole (l.map (·.text)) (List.mem_map.2 ⟨l, hl, rfl⟩) t.text (List.mem_map.2 ⟨t, ht, rfl⟩)) hb x s hx
  have htexts : d.lineToks.flatten.map (·.text) = d'.lineToks.flatten.map (·.text) := by
    cases hne : d.lineToks with
    | nil =>
      have h0 : tokenTexts d = [] := by unfold tokenTexts; rw [hne]; rfl
      rw [h0] at htok
      have h1 : d'.lineToks = [] := List.map_eq_nil_iff.1 htok
      rw [h1]
    | cons l ls =>
      have h1 := congrArg List.flatten htok
      rw [moveSpace_eq_moveBy, moveBy_flatten _ _ _ (by unfold tokenTexts; rw [hne]; simp), List.nil_append] at h1
      rw [← hne, List.map_flatten, List.map_flatten]
      exact h1.symm
  obtain ⟨hev, hcor⟩ := events_same cfg.cc cfg.mapping d.lineToks.flatten d'.lineToks.flatten hfirst hown hB hun none none [] [] []
    (by simp) htexts hent.symm hmarks
  have hWb : Writable cfg.cc cfg.mapping d'.lineToks.flatten := by
    refine ⟨?_, hB', ?_⟩
    · intro u hu hb hsb
      have hlt := (hcor u hu hb).1 ((beginsSub_iff u).2 hsb)
      have hh : hasSub cfg.mapping u := hasSub_of_longer hlt
      refine ⟨hh, ?_⟩
      have : tokenPath cfg.mapping u = subPath cfg.mapping u := if_pos hh
      rw [← this]; exact hlt
    · intro t ht u hut hbt hbu hv hl hne
      obtain ⟨_, t0, m1, b1, v1, q1⟩ := hcor t ht hbt
      obtain ⟨_, u0, m2, b2, v2, q2⟩ := hcor u hut hbu
      have := hWa.apart t0 m1 u0 m2 b1 b2 (v1 ▸ hv) (by rw [mainPath_value, v1, ← mainPath_value]; exact hl) (by rw [v1, v2]; exact hne)
      rw [q1, q2] at this
      exact this
  unfold docRoot updatedTei at hs
  rw [hc] at hs
  simp only at hs
  split at hs
  · cases hs
  · next f hf =>
    obtain ⟨hft, hfa⟩ := linesToTei_head _ _ _ _ hf
    obtain ⟨r, h1, h2, _⟩ := findAll_replaceFirst f.close cfg.containerPath root c [] hc hft
    rw [h1] at hs
    simp only [Except.ok.injEq] at hs
    subst hs
    unfold docRoot updatedTei
    rw [h2]
    have hsame := linesToTei_same ⟨cfg.cc, cfg.mapping, cfg.okNode⟩ ⟨c.tag, [], none, []⟩ d.lineToks d'.lineToks
      hWa hda hWb hdb htok hev.symm
    have htag : f.close.tag = c.tag := hft
    simp only
    rw [htag, hsame, hf]
    simp only
    rw [replaceFirst_same f.close cfg.containerPath r [] h2]

end Verif
