import Verif.Lemmas.MatchReport
import Verif.Spec.MatchReport
import Verif.Props.CoreMatching

/-! Properties of the report written with `--debug-match`. -/

namespace Verif

open Spec

theorem then_snd_ok {α β : Type} {x : Reported α} {f : α → Reported β} {a : α} (h : x.1 = .ok a) :
    (x.then f).2 = x.2 ++ (f a).2 := by
  unfold Reported.then
  rw [h]

theorem regularRow_matches {env : CoreEnv} {cfg : CoreCfg} {ctx : ReportCtx} {s1 : Str} {st : FindState} {choice : CoreSeq}
    {text : CoreSeq → Str} {next : Option CoreSeq} {r : ChoiceResult}
    (h : regularStep env cfg s1 st choice (text choice) (next.map (fun n => (n, text n))) = .ok r) :
    let row := regularRow env cfg ctx s1 st (text choice) (next.map (fun n => (n, text n)))
    RowMatches text row r.found ∧ r.state.start = row.nextStart ∧ (r.last = true ↔ row.reachedEnd = some true) := by
  intro row
  have hacc : row.accepted = regularAccepted env cfg s1 st (text choice) (next.map (fun n => (n, text n))) := rfl
  have hend : row.reachedEnd = if row.accepted then some (decide (s1.length ≤ regularEnd env s1 (text choice) (next.map (fun n => (n, text n))))) else none := rfl
  have hns : row.nextStart = if row.accepted && !decide (s1.length ≤ regularEnd env s1 (text choice) (next.map (fun n => (n, text n)))) then regularEnd env s1 (text choice) (next.map (fun n => (n, text n))) else st.start := rfl
  have hnx : row.next = (next.map (fun n => (n, text n))).map (·.2) := rfl
  have hch : row.choice = text choice := rfl
  unfold regularStep at h
  simp only at h
  unfold regularAccepted at hacc
  simp only at hacc
  split at h
  · next hc =>
    rw [hc] at hacc
    rw [hacc] at hend hns
    split at h
    · next hn =>
      rw [show regularEnd env s1 (text choice) (next.map (fun n => (n, text n))) = _ from
        congrArg (skipWhitespaces env.cc s1) (if_pos hn)] at hend hns
      cases next with
      | none => cases h
      | some n =>
        simp only [Option.map_some] at h hend hns hnx
        cases h
        refine ⟨.inr ⟨hacc, _, hch.symm, .inr ⟨_, hnx, rfl⟩⟩, ?_, ?_⟩
        · rw [hns]
          by_cases hl : s1.length ≤ skipWhitespaces env.cc s1 ((coreFuzzyMatch env s1 (choiceStr (text choice) (some (n, text n)))).bSplitAt env.cc (text choice).length).2.aRange.2 <;> simp [hl]
        · rw [hend]
          simp
    · next hn =>
      rw [show regularEnd env s1 (text choice) (next.map (fun n => (n, text n))) = _ from
        congrArg (skipWhitespaces env.cc s1) (if_neg hn)] at hend hns
      cases h
      refine ⟨.inr ⟨hacc, _, hch.symm, .inl rfl⟩, ?_, ?_⟩
      · rw [hns]
        by_cases hl : s1.length ≤ skipWhitespaces env.cc s1 ((coreFuzzyMatch env s1 (choiceStr (text choice) (next.map (fun n => (n, text n))))).bSplitAt env.cc (text choice).length).1.aRange.2 <;> simp [hl]
      · rw [hend]
        simp
  · next hc =>
    cases h
    have hacc : row.accepted = false := by
      rw [hacc]
      exact Bool.eq_false_iff.2 hc
    rw [hacc] at hend hns
    exact ⟨.inl ⟨hacc, rfl⟩, by rw [hns]; rfl, by rw [hend]; simp⟩

theorem shortRow_matches {env : CoreEnv} {cfg : CoreCfg} {ctx : ReportCtx} {s1 : Str} {st : FindState} {choice : CoreSeq}
    {text : CoreSeq → Str} {next : Option CoreSeq} {r : ChoiceResult}
    (h : shortStep env cfg s1 st choice (text choice) (next.map (fun n => (n, text n))) = .ok r) :
    let row := shortRow env cfg ctx s1 st (text choice) (next.map (fun n => (n, text n)))
    RowMatches text row r.found ∧ r.state.start = row.nextStart ∧ (r.last = true ↔ row.accepted = true) := by
  intro row
  unfold shortStep at h
  simp only at h
  split at h
  · next hc =>
    have hacc : row.accepted = true := hc
    split at h
    · cases next with
      | none => cases h
      | some n =>
        simp only [Option.map_some] at h
        cases h
        exact ⟨.inr ⟨hacc, _, rfl, .inr ⟨_, rfl, rfl⟩⟩, rfl, by simp [hacc]⟩
    · cases h
      exact ⟨.inr ⟨hacc, _, rfl, .inl rfl⟩, rfl, by simp [hacc]⟩
  · next hc =>
    have hacc : row.accepted = false := Bool.eq_false_iff.2 hc
    cases h
    exact ⟨.inl ⟨hacc, rfl⟩, rfl, by simp [hacc]⟩

/-- One comparison and its row. -/
theorem choiceRow_spec {env : CoreEnv} {cfg : CoreCfg} {ctx : ReportCtx} {s1 : Str} {st : FindState} {choice : CoreSeq}
    {text : CoreSeq → Str} {next : Option CoreSeq} {r : ChoiceResult}
    (h : choiceStep env cfg ctx.isSub s1 st choice (text choice) (next.map (fun n => (n, text n))) = .ok r) :
    let row := choiceRow env cfg ctx s1 st (text choice) (next.map (fun n => (n, text n)))
    RowMatches text row r.found ∧ row.start = st.start ∧ r.state.start = row.nextStart ∧ row.choice = text choice ∧
    (r.last = true ↔ row.reachedEnd = some true ∨ row.accepted = true ∧ row.tagToChoice = true) ∧
    (text choice ≠ [] → RowSound ctx s1 row) := by
  intro row
  have hcomb : ∀ nx : Option CoreSeq, choiceStr (text choice) (nx.map (fun n => (n, text n))) =
      (match (nx.map (fun n => (n, text n))).map (·.2) with | none => text choice | some n => text choice ++ ' ' :: n) := by
    intro nx
    cases nx with
    | none => rfl
    | some n => simp [choiceStr]
  unfold choiceStep at h
  by_cases hs : (ctx.isSub || decide (s1.length - st.start < (text choice).length)) = true
  · rw [if_pos hs] at h
    have hrow : row = shortRow env cfg ctx s1 st (text choice) (next.map (fun n => (n, text n))) := if_pos hs
    obtain ⟨h1, h2, h3⟩ := shortRow_matches (ctx := ctx) h
    rw [hrow]
    refine ⟨h1, rfl, h2, rfl, ?_, fun hne => ⟨rfl, rfl, rfl, rfl, rfl, hcomb next, (fun h => by cases h), ?_⟩⟩
    · rw [h3]
      exact ⟨fun h => .inr ⟨h, rfl⟩, fun h => by rcases h with h | h; cases h; exact h.1⟩
    · refine ⟨fun _ => ?_, fun _ => rfl⟩
      simp only [Bool.or_eq_true, decide_eq_true_eq] at hs
      rcases hs with hs | hs
      · exact .inl hs
      · right
        show s1.length < st.start + (text choice).length
        omega
  · rw [if_neg hs] at h
    have hrow : row = regularRow env cfg ctx s1 st (text choice) (next.map (fun n => (n, text n))) := if_neg hs
    obtain ⟨h1, h2, h3⟩ := regularRow_matches (ctx := ctx) h
    rw [hrow]
    refine ⟨h1, rfl, h2, rfl, ?_, fun hne => ⟨rfl, rfl, rfl, rfl, rfl, hcomb next, fun h => ?_, ?_⟩⟩
    · rw [h3]
      exact ⟨.inl, fun h => by rcases h with h | h; exact h; cases h.2⟩
    · unfold regularRow at h ⊢
      simp only at h ⊢
      split at h
      · next hc => exact hc
      · cases h
    · refine ⟨fun h => (by cases h), fun h => ?_⟩
      exfalso
      simp only [Bool.or_eq_true, decide_eq_true_eq, not_or] at hs
      rcases h with h | h
      · exact hs.1 h
      · have h : s1.length < st.start + (text choice).length := h
        have := List.length_pos_iff.2 hne
        omega

/-! ## C137 The report of comparisons -/

/-- **C137.** Writing a report does not change the annotation. -/
theorem C137_same_result (env : CoreEnv) (cfg : CoreCfg) (targets : List CoreTarget) (d : Doc) :
    (coreAnnotateR env cfg targets d).1 = coreAnnotate env cfg targets d :=
  coreAnnotateR_fst env cfg targets d

theorem search_rows_from {env : CoreEnv} {cfg : CoreCfg} {ctx : ReportCtx} {text : CoreSeq → Str} {s1 : Str}
    (ps : List (CoreSeq × Option CoreSeq)) (st : FindState) (r : FindResult)
    (h : findLoop env cfg ctx.isSub text s1 st ps = .ok r) :
    let rows := (findLoopR env cfg ctx text s1 st ps).2
    (∃ groups : List (List SeqMatch), r.found = groups.flatten ∧ groups.length = rows.length ∧
      ∀ p ∈ rows.zip groups, RowMatches text p.1 p.2) ∧
    RowsChained st.start rows ∧ (∀ row ∈ rows, RowSound ctx s1 row) ∧
    (rows.map (·.choice)).Sublist (ps.map (fun p => text p.1)) ∧
    ∀ row ∈ rows.dropLast, row.reachedEnd ≠ some true ∧ ¬ (row.accepted = true ∧ row.tagToChoice = true) := by
  induction ps generalizing st r with
  | nil =>
    cases h
    exact ⟨⟨[], rfl, rfl, fun p hp => by cases hp⟩, trivial, fun _ h => (by cases h), List.Sublist.refl _, fun _ h => (by cases h)⟩
  | cons p ps ih =>
    obtain ⟨choice, next⟩ := p
    rw [findLoop] at h
    rw [findLoopR]
    split at h
    · next hc =>
      rw [if_pos hc]
      split at h
      · cases h
      · next r' hr =>
        cases h
        rw [then_snd_ok ((findLoopR_fst _ _ _ _ _ _ _).trans hr)]
        obtain ⟨i1, i2, i3, i4, i5⟩ := ih st r' hr
        simp only [Reported.silent, List.append_nil]
        exact ⟨i1, i2, i3, i4.cons _, i5⟩
    · next hc =>
      rw [if_neg hc]
      split at h
      · next he =>
        cases h
        rw [if_pos he]
        exact ⟨⟨[], rfl, rfl, fun p hp => by cases hp⟩, trivial, fun _ h => (by cases h), List.nil_sublist _, fun _ h => (by cases h)⟩
      · next he =>
        rw [if_neg he]
        have hne : text choice ≠ [] := fun e => he (by rw [e]; rfl)
        split at h
        · cases h
        · next r0 hr0 =>
          obtain ⟨s1', s2, s3, s4, s5, s6⟩ := choiceRow_spec (ctx := ctx) hr0
          have hrow := s6 hne
          simp only
          rw [then_snd_ok (a := r0) hr0, then_snd_ok (a := ()) rfl]
          generalize choiceRow env cfg ctx s1 st (text choice) (next.map (fun n => (n, text n))) = row at s1' s2 s3 s4 s5 s6 hrow
          simp only [Reported.silent, List.nil_append, List.singleton_append]
          split at h
          · next hl =>
            cases h
            rw [if_pos hl]
            refine ⟨⟨[r0.found], by simp, rfl, fun p hp => ?_⟩, ⟨s2, trivial⟩, fun x hx => ?_, ?_, fun _ h => (by cases h)⟩
            · simp only [List.zip_cons_cons, List.zip_nil_right, List.mem_singleton] at hp
              subst hp
              exact s1'
            · rw [List.mem_singleton.1 hx]
              exact hrow
            · simp only [List.map_cons, List.map_nil, s4]
              exact List.Sublist.cons_cons _ (List.nil_sublist _)
          · next hl =>
            rw [if_neg hl]
            split at h
            · cases h
            · next r' hr =>
              cases h
              rw [then_snd_ok ((findLoopR_fst _ _ _ _ _ _ _).trans hr)]
              obtain ⟨⟨groups, g1, g2, g3⟩, i2, i3, i4, i5⟩ := ih r0.state r' hr
              simp only [List.append_nil]
              generalize (findLoopR env cfg ctx text s1 r0.state ps).2 = rows at g2 g3 i2 i3 i4 i5
              refine ⟨⟨r0.found :: groups, by simp [g1], by simp [g2], fun p hp => ?_⟩, ⟨s2, by rw [← s3]; exact i2⟩, fun x hx => ?_, ?_,
                fun x hx => ?_⟩
              · rw [List.zip_cons_cons] at hp
                rcases List.mem_cons.1 hp with rfl | hp
                · exact s1'
                · exact g3 p hp
              · rcases List.mem_cons.1 hx with rfl | hx
                · exact hrow
                · exact i3 x hx
              · simp only [List.map_cons, s4]
                exact i4.cons_cons _
              · cases rows with
                | nil => cases hx
                | cons y ys =>
                  rw [List.dropLast_cons_cons] at hx
                  rcases List.mem_cons.1 hx with rfl | hx
                  · have : ¬ (x.reachedEnd = some true ∨ x.accepted = true ∧ x.tagToChoice = true) := fun h => hl (s5.2 h)
                    exact ⟨fun h => this (.inl h), fun h => this (.inr h)⟩
                  · exact i5 x hx

/-- **C137.** The rows of the search for a value: they explain all matches found, each starts where the one before has
ended, and the search is over when the end of the value is reached. -/
theorem C137_search (env : CoreEnv) (cfg : CoreCfg) (ctx : ReportCtx) (text : CoreSeq → Str) (value : Str) (matched : List Nat)
    (ps : List (CoreSeq × Option CoreSeq)) (r : FindResult)
    (h : findLoop env cfg ctx.isSub text value ⟨0, false, matched⟩ ps = .ok r) :
    SearchRows ctx value text (ps.map (·.1)) (findLoopR env cfg ctx text value ⟨0, false, matched⟩ ps).2 r.found := by
  obtain ⟨h1, h2, h3, h4, h5⟩ := search_rows_from ps _ r h
  exact ⟨h1, h2, h3, by rw [List.map_map]; exact h4, h5⟩

/-- Rows which consist of searches with a property. -/
def Searches (P : List ReportRow → Prop) (rows : List ReportRow) : Prop :=
  ∃ searches : List (List ReportRow), rows = searches.flatten ∧ ∀ s ∈ searches, P s

theorem searches_nil (P : List ReportRow → Prop) : Searches P [] := ⟨[], rfl, fun _ h => by cases h⟩

theorem searches_one {P : List ReportRow → Prop} {rows : List ReportRow} (h : P rows) : Searches P rows :=
  ⟨[rows], by simp, fun s hs => by rw [List.mem_singleton.1 hs]; exact h⟩

theorem searches_append {P : List ReportRow → Prop} {a b : List ReportRow} (ha : Searches P a) (hb : Searches P b) :
    Searches P (a ++ b) := by
  obtain ⟨x, rfl, hx⟩ := ha
  obtain ⟨y, rfl, hy⟩ := hb
  refine ⟨x ++ y, by simp, fun s hs => ?_⟩
  rcases List.mem_append.1 hs with h | h
  · exact hx s h
  · exact hy s h

theorem searches_findTexts {env : CoreEnv} {cfg : CoreCfg} {ctx : ReportCtx} {text : CoreSeq → Str}
    {pairs : List (CoreSeq × Option CoreSeq)} {P : List ReportRow → Prop} (ss : List Str)
    (hP : ∀ s ∈ ss, ∀ choices rows found, SearchRows ctx s text choices rows found → P rows) (matched : List Nat) (q)
    (h : findTexts env cfg ctx.isSub text pairs matched ss = .ok q) :
    Searches P (findTextsR env cfg ctx text pairs matched ss).2 := by
  induction ss generalizing matched q with
  | nil => exact searches_nil _
  | cons s ss ih =>
    rw [findTexts] at h
    rw [findTextsR]
    split at h
    · cases h
    · next r hr =>
      rw [then_snd_ok ((findLoopR_fst _ _ _ _ _ _ _).trans hr)]
      split at h
      · cases h
      · next hq =>
        rw [then_snd_ok ((findTextsR_fst _ _ _ _ _ _ _).trans hq)]
        simp only [Reported.silent, List.append_nil]
        exact searches_append (searches_one (hP s List.mem_cons_self _ _ _ (C137_search _ _ _ _ _ _ _ _ hr)))
          (ih (fun s hs => hP s (List.mem_cons_of_mem _ hs)) _ _ hq)

theorem searches_findNext {env : CoreEnv} {cfg : CoreCfg} {ctx : ReportCtx} {text : CoreSeq → Str} {bonding : Bool}
    {pairs : List (CoreSeq × Option CoreSeq)} {P : List ReportRow → Prop} {matched : List Nat} {v : TargetValue} {f : Str → Str} {q}
    (hP : ∀ s ∈ valueTexts v, ∀ choices rows found, SearchRows ctx (f s) text choices rows found → P rows)
    (h : findNext env cfg ctx.isSub text ctx.tag bonding pairs matched (v.map f) = .ok q) :
    Searches P (findNextR env cfg ctx text bonding pairs matched (v.map f)).2 := by
  cases v with
  | one s =>
    simp only [TargetValue.map] at h ⊢
    rw [findNext] at h
    rw [findNextR]
    split at h
    · cases h
    · next r hr =>
      rw [then_snd_ok ((findLoopR_fst _ _ _ _ _ _ _).trans hr)]
      simp only [Reported.silent, List.append_nil]
      exact searches_one (hP s List.mem_cons_self _ _ _ (C137_search _ _ _ _ _ _ _ _ hr))
  | many ss =>
    simp only [TargetValue.map] at h ⊢
    rw [findNext] at h
    rw [findNextR]
    split at h
    · cases h
    · next hq =>
      rw [then_snd_ok ((findTextsR_fst _ _ _ _ _ _ _).trans hq)]
      simp only [Reported.silent, List.append_nil]
      refine searches_findTexts _ (fun s hs => ?_) _ _ hq
      obtain ⟨s', hs', rfl⟩ := List.mem_map.1 hs
      exact hP s' hs'

theorem searches_applySubs {env : CoreEnv} {cfg : CoreCfg} {seq : CoreSeq} {targets : List CoreTarget} {t : CoreTarget}
    (ht : t ∈ targets) (ss : List CoreSub) (hs : ∀ s ∈ ss, s ∈ t.subs) (d : Doc) (matched : List Nat) (d' : Doc)
    (h : applySubs env cfg seq d matched ss = .ok d') :
    Searches (SearchOf env targets) (applySubsR env cfg seq d matched ss).2 := by
  induction ss generalizing d matched with
  | nil => exact searches_nil _
  | cons s ss ih =>
    rw [applySubs] at h
    rw [applySubsR]
    split at h
    · cases h
    · next hq =>
      rw [then_snd_ok ((findNextR_fst _ _ _ _ _ _ _ _).trans hq)]
      refine searches_append (searches_findNext ?_ hq) (ih (fun s h => hs s (List.mem_cons_of_mem _ h)) _ _ h)
      intro v hv choices rows found hr
      exact ⟨t, ht, .inr ⟨s, hs s List.mem_cons_self, v, hv, d, choices, found, hr⟩⟩

theorem searches_applyMatches {env : CoreEnv} {cfg : CoreCfg} {targets : List CoreTarget} {t : CoreTarget}
    (ht : t ∈ targets) (ms : List SeqMatch) (st : Doc × List Nat) (d' : Doc) (h : applyMatches env cfg t st ms = .ok d') :
    Searches (SearchOf env targets) (applyMatchesR env cfg t st ms).2 := by
  induction ms generalizing st with
  | nil => exact searches_nil _
  | cons m ms ih =>
    obtain ⟨d, all⟩ := st
    rw [applyMatches] at h
    rw [applyMatchesR]
    split at h
    · next hc =>
      rw [if_pos hc]
      exact ih _ h
    · next hc =>
      rw [if_neg hc]
      split at h
      · cases h
      · next hq =>
        rw [then_snd_ok ((applySubsR_fst _ _ _ _ _ _).trans hq)]
        exact searches_append (searches_applySubs ht _ (fun _ h => h) _ _ _ hq) (ih _ h)

theorem searches_applyConditional {env : CoreEnv} {cfg : CoreCfg} {targets : List CoreTarget} {cond : Conditional}
    (hc : ∀ c, cond = some c → c.1 ∈ targets) {ms : List SeqMatch} {d d' : Doc} (h : applyConditional env cfg cond ms d = .ok d') :
    Searches (SearchOf env targets) (applyConditionalR env cfg cond ms d).2 := by
  unfold applyConditional at h
  unfold applyConditionalR
  cases cond with
  | none => exact searches_nil _
  | some c =>
    simp only at h ⊢
    split at h
    · next hd =>
      rw [if_pos hd]
      exact searches_applyMatches (hc c rfl) _ _ _ h
    · next hd =>
      rw [if_neg hd]
      exact searches_nil _

theorem searches_annotateItems {env : CoreEnv} {cfg : CoreCfg} {targets : List CoreTarget} {t : CoreTarget} (ht : t ∈ targets)
    (n : Nat) (d : Doc) (cond : Conditional) (hc : ∀ c, cond = some c → c.1 ∈ targets) (matched : List Nat) (choices : Choices) (r)
    (h : annotateItems env cfg t n d cond matched choices = .ok r) :
    Searches (SearchOf env targets) (annotateItemsR env cfg t n d cond matched choices).2 ∧
    ∀ q, r = some q → ∀ c, q.2.1 = some c → c.1 ∈ targets := by
  induction n generalizing d cond matched choices with
  | zero =>
    cases h
    exact ⟨searches_nil _, fun q h => by cases h⟩
  | succ n ih =>
    rw [annotateItems] at h
    rw [annotateItemsR]
    split at h
    · cases h
    · next found matched' used hq =>
      rw [then_snd_ok ((findNextR_fst _ _ _ _ _ _ _ _).trans hq)]
      have h0 : Searches (SearchOf env targets) (findNextR env cfg ⟨t.name, t.matchMultiple, false⟩
          (coreSeqText env (coreNormalise env) d) t.bonding (choices.pairs d) matched (t.value.map (coreNormalise env))).2 :=
        searches_findNext (fun v hv choices rows found hr => ⟨t, ht, .inl ⟨v, hv, d, choices, found, hr⟩⟩) hq
      simp only at h ⊢
      split at h
      · next he =>
        cases h
        rw [if_pos he]
        refine ⟨searches_append h0 (searches_nil _), fun q h c hc => ?_⟩
        cases h
        cases hc
      · next he =>
        rw [if_neg he]
        split at h
        · cases h
        · next d1 hd1 =>
          rw [then_snd_ok ((applyConditionalR_fst _ _ _ _ _).trans hd1)]
          have h1 := searches_applyConditional hc hd1
          split at h
          · cases h
          · next d2 hd2 =>
            have hc' : ∀ c, (if t.requireNext then some (t, sortBy matchLe found) else cond) = some c → c.1 ∈ targets := by
              intro c h
              split at h
              · cases h
                exact ht
              · exact hc c h
            have e1 : (if t.requireNext = true then Reported.silent (.ok d1) else applyMatchesR env cfg t (d1, []) (sortBy matchLe found)).1 = .ok d2 := by
              rw [← hd2]
              split
              · rfl
              · exact applyMatchesR_fst _ _ _ _ _
            have h2 : Searches (SearchOf env targets)
                (if t.requireNext = true then Reported.silent (.ok d1) else applyMatchesR env cfg t (d1, []) (sortBy matchLe found)).2 := by
              split at hd2
              · next hr => rw [if_pos hr]; exact searches_nil _
              · next hr => rw [if_neg hr]; exact searches_applyMatches ht _ _ _ hd2
            rw [then_snd_ok e1]
            split at h
            · next hm =>
              rw [if_pos hm]
              obtain ⟨i1, i2⟩ := ih _ _ hc' _ _ h
              exact ⟨searches_append h0 (searches_append h1 (searches_append h2 i1)), i2⟩
            · next hm =>
              rw [if_neg hm]
              cases h
              refine ⟨searches_append h0 (searches_append h1 (searches_append h2 (searches_nil _))), fun q h => ?_⟩
              cases h
              exact hc'

theorem searches_annotateTargets {env : CoreEnv} {cfg : CoreCfg} {fuel : Nat} {pending : List CoreSeq} {targets : List CoreTarget}
    (ts : List CoreTarget) (hts : ∀ t ∈ ts, t ∈ targets) (st : CoreState) (hc : ∀ c, st.cond = some c → c.1 ∈ targets) (r)
    (h : annotateTargets env cfg fuel pending st ts = .ok r) :
    Searches (SearchOf env targets) (annotateTargetsR env cfg fuel pending st ts).2 := by
  induction ts generalizing st with
  | nil => exact searches_nil _
  | cons t ts ih =>
    rw [annotateTargets] at h
    rw [annotateTargetsR]
    split at h
    · cases h
    · next ho =>
      rw [then_snd_ok ((annotateItemsR_fst _ _ _ _ _ _ _ _).trans ho)]
      exact searches_append (searches_annotateItems (hts t List.mem_cons_self) _ _ _ hc _ _ _ ho).1 (searches_nil _)
    · next d cond matched' ho =>
      rw [then_snd_ok ((annotateItemsR_fst _ _ _ _ _ _ _ _).trans ho)]
      obtain ⟨i1, i2⟩ := searches_annotateItems (hts t List.mem_cons_self) _ _ _ hc _ _ _ ho
      exact searches_append i1 (ih (fun t h => hts t (List.mem_cons_of_mem _ h)) _ (i2 _ rfl) h)

/-- **C137.** The rows for a document consist of those of searches for the values of its target annotations and their sub
annotations. -/
theorem C137_searches (env : CoreEnv) (cfg : CoreCfg) (targets : List CoreTarget) (d d' : Doc)
    (h : coreAnnotate env cfg targets d = .ok d') :
    ∃ searches : List (List ReportRow), (coreAnnotateR env cfg targets d).2 = searches.flatten ∧
      ∀ s ∈ searches, SearchOf env targets s := by
  show Searches _ _
  unfold coreAnnotate at h
  unfold coreAnnotateR
  simp only at h ⊢
  split at h
  · cases h
  · cases h
  · next st ho =>
    rw [then_snd_ok ((annotateTargetsR_fst _ _ _ _ _ _).trans ho)]
    exact searches_append (searches_annotateTargets _ (fun _ h => h) _ (fun c h => by cases h) _ ho) (searches_nil _)

theorem then_snd_quiet {α β : Type} (x : Reported α) (f : α → Reported β) (h : ∀ a, (f a).2 = []) : (x.then f).2 = x.2 := by
  unfold Reported.then
  split
  · rfl
  · next a _ => simp [h a]

theorem annotateTargetsR_append (env : CoreEnv) (cfg : CoreCfg) (fuel : Nat) (pending : List CoreSeq) (more : List CoreTarget) :
    ∀ (ts : List CoreTarget) (st st' : CoreState), annotateTargets env cfg fuel pending st ts = .ok (some st') →
      (annotateTargetsR env cfg fuel pending st (ts ++ more)).2 =
        (annotateTargetsR env cfg fuel pending st ts).2 ++ (annotateTargetsR env cfg fuel pending st' more).2
  | [], st, st', h => by
    rw [annotateTargets] at h
    obtain rfl := Option.some.inj (Except.ok.inj h)
    rfl
  | t :: ts, st, st', h => by
    rw [annotateTargets] at h
    rw [List.cons_append, annotateTargetsR, annotateTargetsR]
    split at h
    · cases h
    · cases h
    · next d cond matched' ho =>
      rw [then_snd_ok ((annotateItemsR_fst _ _ _ _ _ _ _ _).trans ho), then_snd_ok ((annotateItemsR_fst _ _ _ _ _ _ _ _).trans ho)]
      simp only
      rw [annotateTargetsR_append env cfg fuel pending more ts _ st' h, List.append_assoc]

/-- **C137.** The rows are reported as the comparisons are made: those for the first target annotations stay, in front of the rows for further
ones, also if the annotation fails at one of these. -/
theorem C137_first_rows (env : CoreEnv) (cfg : CoreCfg) (targets more : List CoreTarget) (d d' : Doc)
    (h : coreAnnotate env cfg targets d = .ok d') :
    (coreAnnotateR env cfg targets d).2 <+: (coreAnnotateR env cfg (targets ++ more) d).2 := by
  unfold coreAnnotate at h
  unfold coreAnnotateR
  simp only at h ⊢
  rw [then_snd_quiet _ _ (fun o => by cases o <;> rfl), then_snd_quiet _ _ (fun o => by cases o <;> rfl)]
  split at h
  · cases h
  · cases h
  · next st ho =>
    rw [annotateTargetsR_append env cfg _ _ more targets _ st ho]
    exact List.prefix_append _ _

theorem reportBody_get (rows : List ReportRow) (n i : Nat) : (reportBody n rows)[i]? = rows[i]?.map (rowCells (n + i)) := by
  induction rows generalizing n i with
  | nil => rfl
  | cons r rs ih =>
    cases i with
    | zero =>
      simp only [reportBody, List.getElem?_cons_zero, Option.map_some, Nat.add_zero]
      cases h : r.reachedEnd <;> cases h' : r.next <;> simp only [rowCells, h, h'] <;>
        simp [reportCells, reportColumns, ReportRow.dict, Dict.get?, Cell.ofOption, h, h']
    | succ i =>
      simp only [reportBody, List.getElem?_cons_succ]
      rw [ih, Nat.add_right_comm, Nat.add_assoc]

/-- **C137.** The file has the names of the columns and then the rows in their order with the numbers from 1 on, each
with a value for every column. -/
theorem C137_file (rows : List ReportRow) :
    (reportFile rows).head? = some (reportColumns.map .text) ∧ (∀ i, (reportFile rows)[i + 1]? = rows[i]?.map (rowCells (i + 1))) ∧
    ∀ cells ∈ reportFile rows, cells.length = reportColumns.length := by
  have h2 : ∀ i, (reportFile rows)[i + 1]? = rows[i]?.map (rowCells (i + 1)) := by
    intro i
    show (reportBody 1 rows)[i]? = _
    rw [reportBody_get, Nat.add_comm]
  refine ⟨rfl, h2, fun cells hc => ?_⟩
  obtain ⟨i, hi⟩ := List.mem_iff_getElem?.1 hc
  cases i with
  | zero => cases hi; rfl
  | succ i =>
    rw [h2] at hi
    obtain ⟨r, _, rfl⟩ := Option.map_eq_some_iff.1 hi
    rfl

theorem cut_at {s : Str} {p k : Nat} (h : p + k ≤ s.length) :
    s = s.take p ++ (s.drop p).take k ++ s.drop (p + k) ∧ (s.take p).length = p ∧ ((s.drop p).take k).length = k := by
  refine ⟨?_, by rw [List.length_take]; omega, by rw [List.length_take, List.length_drop]; omega⟩
  rw [← List.drop_drop, List.append_assoc, List.take_append_drop, List.take_append_drop]

/-- **C137.** The details of a comparison show its matching blocks which are not empty, in order, each with its places in the two texts and the
text that is there in both of them. -/
theorem C137_details (fm : FuzzyResult) (hin : Consistent fm.a fm.b fm.blocks) (h : Aligned fm.a fm.b fm.blocks) :
    ∃ items, fm.detailedStr = c!"matching_blocks=[" ++ joinStr c!", " items ++ c!"]" ∧
      BlocksShown fm.a fm.b (fm.blocks.filter (fun x => decide (x.size ≠ 0))) items := by
  refine ⟨_, rfl, ?_⟩
  have key : ∀ x ∈ fm.blocks, BlockShown fm.a fm.b x (c!"(a[" ++ Nat.toDigits 10 x.a ++ c!":+" ++ Nat.toDigits 10 x.size ++ c!"] = b[" ++
      Nat.toDigits 10 x.b ++ c!":+" ++ Nat.toDigits 10 x.size ++ c!"] = \"" ++ (fm.a.drop x.a).take x.size ++ c!"\")") := by
    intro x hx
    obtain ⟨a1, a2, a3⟩ := cut_at (hin.aIn x hx)
    obtain ⟨b1, b2, b3⟩ := cut_at (hin.bIn x hx)
    have e : (fm.b.drop x.b).take x.size = (fm.a.drop x.a).take x.size := by
      refine List.ext_getElem? (fun k => ?_)
      rw [List.getElem?_take, List.getElem?_take]
      split
      · next hk => rw [List.getElem?_drop, List.getElem?_drop]; obtain ⟨c, c1, c2⟩ := h x hx k hk; rw [c1, c2]
      · rfl
    rw [e] at b1
    exact ⟨_, _, _, _, _, a1, a2, b1, b2, a3, by rw [a2, b2, a3]⟩
  have hall : ∀ x ∈ fm.nonEmpty, x ∈ fm.blocks := fun x hx => (List.mem_filter.1 hx).1
  show BlocksShown fm.a fm.b fm.nonEmpty _
  generalize fm.nonEmpty = xs at hall
  induction xs with
  | nil => exact trivial
  | cons x xs ih => exact ⟨key x (hall x List.mem_cons_self), ih (fun y hy => hall y (List.mem_cons_of_mem _ hy))⟩

/-- Not vacuous: two blocks and the empty block at the end. -/
example : let fm : FuzzyResult := ⟨c!"ab xcd", c!"ab cd", [⟨0, 0, 3⟩, ⟨4, 3, 2⟩, ⟨6, 5, 0⟩], fun _ _ => false⟩
    fm.detailedStr = c!"matching_blocks=[(a[0:+3] = b[0:+3] = \"ab \"), (a[4:+2] = b[3:+2] = \"cd\")]" ∧
      (∀ x ∈ fm.blocks, ∀ k < x.size, fm.a[x.a + k]? = fm.b[x.b + k]?) ∧
      ∀ x ∈ fm.blocks, x.a + x.size ≤ fm.a.length ∧ x.b + x.size ≤ fm.b.length := by
  decide +kernel

/-- **C137.** A reporter is made for each document, so if opening the file empties it, then only the rows of the last
document are left. -/
theorem C137_last_document (file : List (List Cell)) (documents : List (List ReportRow)) (last : List ReportRow) :
    reportAfter (fun _ => []) file (documents ++ [last]) = reportFile last := by
  induction documents generalizing file with
  | nil => rfl
  | cons rows rest ih => exact ih _

/-! ### Examples -/

/-- The values of the rows: the tag, the value divided, the choices, and the start of this row and the next. -/
def exRows (rows : List ReportRow) : List (List Str × Option Str × List Nat × List Bool) :=
  rows.map (fun r => ([r.tag, r.pre, r.current, r.choice], r.next, [r.start, r.nextStart], [r.accepted, r.tagToChoice]))

def exReported (targets : List CoreTarget) (lines : List (List Str)) : Reported Doc :=
  coreAnnotateR coreExampleEnv {} targets (docOfWords lines)

/-- Not vacuous: the first line has no match, the next two have the parts of the title. -/
example : (exReported [{ name := c!"title", value := .one c!"some title", subs := [{ name := c!"sub", value := .one c!"title" }] }]
      [[c!"other"], [c!"some"], [c!"title"]]).1.toOption.isSome = true ∧
    exRows (exReported [{ name := c!"title", value := .one c!"some title", subs := [{ name := c!"sub", value := .one c!"title" }] }]
      [[c!"other"], [c!"some"], [c!"title"]]).2 =
    [([c!"title", c!"", c!"some title", c!"other"], some c!"some", [0, 0], [false, false]),
     ([c!"title", c!"", c!"some title", c!"some"], some c!"title", [0, 6], [true, false]),
     ([c!"title", c!"some t", c!"itle", c!"title"], none, [6, 6], [true, true]),
     ([c!"sub", c!"", c!"title", c!"some"], none, [0, 0], [false, true]),
     ([c!"sub", c!"", c!"title", c!"some title"], none, [0, 0], [true, true]),
     ([c!"sub", c!"", c!"title", c!"some title"], none, [0, 0], [true, true])] := by
  decide +kernel

/-- The first of two documents is lost. -/
example (file : List (List Cell)) :
    let one := (exReported [{ name := c!"title", value := .one c!"some title" }] [[c!"other"]]).2
    let two := (exReported [{ name := c!"title", value := .one c!"some title" }] [[c!"some", c!"title"]]).2
    one.length = 1 ∧ two.length = 1 ∧ reportAfter (fun _ => []) file [one, two] = reportFile two :=
  ⟨by decide +kernel, by decide +kernel, C137_last_document file [_] _⟩

end Verif
