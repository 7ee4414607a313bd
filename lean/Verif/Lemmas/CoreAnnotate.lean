/-
Lemmas about the loops of the annotator comparing values with lines.
-/
import Verif.Lemmas.CoreMatching

namespace Verif

open Spec (newTag spans tokensIn MatchersOk matchTokens)

/-! ### What the annotator changes -/

/-- The changes made by target annotations `T` to tokens with the property `P`. -/
structure Marks (cfg : CoreCfg) (P : Nat → Prop) (T : List CoreTarget) (d d' : Doc) : Prop where
  same : SameBut d d'
  each : ∀ j, (d'.getTag j = d.getTag j ∧ d'.getSubTag j = d.getSubTag j) ∨
    (truthy (d.getTag j) = false ∧ P j ∧ ∃ t ∈ T, (∃ f, d'.getTag j = newTag cfg.useBeginPrefix f t.name) ∧
      (d'.getSubTag j = d.getSubTag j ∨ ∃ s ∈ t.subs, ∃ f, d'.getSubTag j = newTag cfg.useBeginPrefix f s.name))

theorem Marks.refl (cfg : CoreCfg) (P : Nat → Prop) (T : List CoreTarget) (d : Doc) : Marks cfg P T d d :=
  ⟨SameBut.refl d, fun _ => Or.inl ⟨rfl, rfl⟩⟩

theorem Marks.trans {cfg : CoreCfg} {P : Nat → Prop} {T : List CoreTarget} (hn : ∀ t ∈ T, t.name ≠ []) {a b c : Doc}
    (h : Marks cfg P T a b) (h' : Marks cfg P T b c) : Marks cfg P T a c := by
  refine ⟨h.same.trans h'.same, fun j => ?_⟩
  rcases h.each j with h1 | ⟨h1, h2, t, ht, ⟨f, h3⟩, h4⟩
  · have := h'.each j
    rw [h1.1, h1.2] at this
    exact this
  · rcases h'.each j with h5 | ⟨h5, _⟩
    · rw [h5.1, h5.2]
      exact Or.inr ⟨h1, h2, t, ht, ⟨f, h3⟩, h4⟩
    · rw [h3, truthy_newTag _ _ _ (hn t ht)] at h5
      cases h5

/-- All tokens of the matches have the property. -/
def MatchesIn (P : Nat → Prop) (ms : List SeqMatch) : Prop := ∀ m ∈ ms, ∀ i ∈ m.seq.tokens, P i

theorem applyMatches_marks {env : CoreEnv} {cfg : CoreCfg} {P : Nat → Prop} {T : List CoreTarget} {t : CoreTarget}
    (ht : t ∈ T) (hn : ∀ t ∈ T, t.name ≠ []) (hs : ∀ t ∈ T, ∀ s ∈ t.subs, s.name ≠ []) {d d' : Doc} {ms : List SeqMatch}
    (hm : MatchesIn P ms) (h : applyMatches env cfg t (d, []) ms = .ok d') : Marks cfg P T d d' := by
  obtain ⟨all, ha⟩ := applyMatches_applied (hn t ht) (hs t ht) ms (Applied.start cfg t d) h
  refine ⟨ha.same, fun j => ?_⟩
  by_cases hj : j ∈ all
  · have h1 := (ha.mem j).1 hj
    refine Or.inr ⟨h1.2, ?_, t, ht, ⟨_, ha.tag j hj⟩, ha.sub j hj⟩
    have h2 := h1.1
    rw [List.nil_append] at h2
    obtain ⟨m, hmm, hjm⟩ := List.mem_flatMap.1 h2
    exact hm m hmm j ((tokensIn_sublist _ _ _).mem hjm)
  · exact Or.inl (ha.other j hj)

/-- What is known of a conditional match. -/
def CondIn (P : Nat → Prop) (T : List CoreTarget) (c : Conditional) : Prop :=
  ∀ t ms, c = some (t, ms) → t ∈ T ∧ MatchesIn P ms

theorem applyConditional_marks {env : CoreEnv} {cfg : CoreCfg} {P : Nat → Prop} {T : List CoreTarget}
    (hn : ∀ t ∈ T, t.name ≠ []) (hs : ∀ t ∈ T, ∀ s ∈ t.subs, s.name ≠ []) {c : Conditional} (hc : CondIn P T c)
    {ms : List SeqMatch} {d d' : Doc} (h : applyConditional env cfg c ms d = .ok d') : Marks cfg P T d d' := by
  unfold applyConditional at h
  cases c with
  | none =>
    simp only [Except.ok.injEq] at h
    subst h
    exact Marks.refl _ _ _ _
  | some x =>
    simp only at h
    split at h
    · have := hc x.1 x.2 rfl
      exact applyMatches_marks this.1 hn hs this.2 h
    · simp only [Except.ok.injEq] at h
      subst h
      exact Marks.refl _ _ _ _

/-- All tokens of the choices have the property. -/
def ChoicesIn (P : Nat → Prop) (c : Choices) : Prop := ∀ s ∈ c.made ++ c.rest, ∀ i ∈ s.tokens, P i

theorem ChoicesIn.all {P : Nat → Prop} {c : Choices} (h : ChoicesIn P c) (d : Doc) : ∀ s ∈ c.all d, ∀ i ∈ s.tokens, P i := by
  intro s hs i hi
  unfold Choices.all at hs
  rcases List.mem_append.1 hs with hs | hs
  · exact h s (by simp [hs]) i hi
  · obtain ⟨x, hx, hs⟩ := List.mem_flatMap.1 hs
    exact h x (by simp [hx]) i (mem_coreSubSeqs hs i hi)

theorem drawChoices_spec (d : Doc) (n : Nat) (rest : List CoreSeq) : ∀ (made : List CoreSeq),
    (drawChoices d n made rest).1 ++ (drawChoices d n made rest).2.flatMap (coreSubSeqs d) = made ++ rest.flatMap (coreSubSeqs d) ∧
    (n ≤ (drawChoices d n made rest).1.length ∨ (drawChoices d n made rest).2 = []) ∧
    (∃ k, (drawChoices d n made rest).2 = rest.drop k ∧
      (drawChoices d n made rest).1 = made ++ (rest.take k).flatMap (coreSubSeqs d)) := by
  induction rest with
  | nil => intro made; exact ⟨rfl, Or.inr rfl, 0, rfl, by simp [drawChoices]⟩
  | cons s rest ih =>
    intro made
    unfold drawChoices
    by_cases h : n ≤ made.length
    · rw [if_pos h]
      exact ⟨rfl, Or.inl h, 0, rfl, by simp⟩
    · rw [if_neg h]
      have := ih (made ++ coreSubSeqs d s)
      refine ⟨by rw [this.1]; simp, this.2.1, ?_⟩
      obtain ⟨k, h1, h2⟩ := this.2.2
      exact ⟨k + 1, by simpa using h1, by rw [h2]; simp⟩

theorem ChoicesIn.after {P : Nat → Prop} {c : Choices} (h : ChoicesIn P c) (d : Doc) (used : List (Option Nat)) :
    ChoicesIn P (c.after d used) := by
  unfold Choices.after
  cases used with
  | nil => exact h
  | cons u us =>
    simp only
    cases hm : mostUsed (u :: us) with
    | none =>
      intro s hs i hi
      simp only [List.append_nil] at hs
      exact h.all d s hs i hi
    | some n =>
      simp only
      intro s hs i hi
      obtain ⟨k, h1, h2⟩ := (drawChoices_spec d (c.nxt + n) c.rest c.made).2.2
      simp only [h1, h2] at hs
      rcases List.mem_append.1 hs with hs | hs
      · rcases List.mem_append.1 hs with hs | hs
        · exact h s (by simp [hs]) i hi
        · obtain ⟨x, hx, hs⟩ := List.mem_flatMap.1 hs
          exact h x (by simp [List.mem_of_mem_take hx]) i (mem_coreSubSeqs hs i hi)
      · exact h s (by simp [List.mem_of_mem_drop hs]) i hi

theorem found_in {env : CoreEnv} {cfg : CoreCfg} {isSub : Bool} {text : CoreSeq → Str} {name : Str} {bonding : Bool}
    {P : Nat → Prop} {c : Choices} (hc : ChoicesIn P c) {d : Doc} {matched : List Nat} {v : TargetValue} {r}
    (h : findNext env cfg isSub text name bonding (c.pairs d) matched v = .ok r) : MatchesIn P (sortBy matchLe r.1) := by
  intro m hm i hi
  obtain ⟨p, hp, h1⟩ := (findNext_spec h).1 m ((sortBy_perm _ _).mem_iff.1 hm)
  have h2 := mem_pairUp hp
  have hmem : m.seq ∈ c.all d := by
    rcases h1 with h1 | h1
    · rw [h1]; exact List.mem_of_mem_drop h2.1
    · exact List.mem_of_mem_drop (h2.2 _ h1)
  exact hc.all d _ hmem i hi

theorem annotateItems_marks {env : CoreEnv} {cfg : CoreCfg} {P : Nat → Prop} {T : List CoreTarget} {t : CoreTarget}
    (ht : t ∈ T) (hn : ∀ t ∈ T, t.name ≠ []) (hs : ∀ t ∈ T, ∀ s ∈ t.subs, s.name ≠ []) (n : Nat) :
    ∀ {d : Doc} {cond : Conditional} {matched : List Nat} {c : Choices} {d' : Doc} {cond' : Conditional} {matched' : List Nat},
    CondIn P T cond → ChoicesIn P c →
    annotateItems env cfg t n d cond matched c = .ok (some (d', cond', matched')) →
    Marks cfg P T d d' ∧ CondIn P T cond' := by
  induction n with
  | zero =>
    intro d cond matched c d' cond' matched' _ _ h
    simp [annotateItems] at h
  | succ n ih =>
    intro d cond matched c d' cond' matched' hc hch h
    unfold annotateItems at h
    split at h
    · cases h
    · rename_i found matched1 used hf
      simp only at h
      split at h
      · simp only [Except.ok.injEq, Option.some.injEq, Prod.mk.injEq] at h
        obtain ⟨rfl, rfl, rfl⟩ := h
        exact ⟨Marks.refl _ _ _ _, fun _ _ h => by cases h⟩
      · split at h
        · cases h
        · rename_i d1 h1
          split at h
          · cases h
          · rename_i d2 h2
            have hin : MatchesIn P (sortBy matchLe found) := found_in hch hf
            have m1 := applyConditional_marks hn hs hc h1
            have m2 : Marks cfg P T d1 d2 := by
              split at h2
              · simp only [Except.ok.injEq] at h2
                subst h2
                exact Marks.refl _ _ _ _
              · exact applyMatches_marks ht hn hs hin h2
            have hc' : CondIn P T (if t.requireNext then some (t, sortBy matchLe found) else cond) := by
              split
              · intro t' ms' he
                simp only [Option.some.injEq, Prod.mk.injEq] at he
                obtain ⟨rfl, rfl⟩ := he
                exact ⟨ht, hin⟩
              · exact hc
            split at h
            · have := ih hc' (hch.after d used) h
              exact ⟨(m1.trans hn m2).trans hn this.1, this.2⟩
            · simp only [Except.ok.injEq, Option.some.injEq, Prod.mk.injEq] at h
              obtain ⟨rfl, rfl, rfl⟩ := h
              exact ⟨m1.trans hn m2, hc'⟩

theorem annotateTargets_marks {env : CoreEnv} {cfg : CoreCfg} {P : Nat → Prop} {T : List CoreTarget}
    (hn : ∀ t ∈ T, t.name ≠ []) (hs : ∀ t ∈ T, ∀ s ∈ t.subs, s.name ≠ []) {fuel : Nat} {pending : List CoreSeq}
    (hp : ∀ s ∈ pending, ∀ i ∈ s.tokens, P i) (ts : List CoreTarget) :
    ∀ {st st' : CoreState}, (∀ t ∈ ts, t ∈ T) → CondIn P T st.cond →
    annotateTargets env cfg fuel pending st ts = .ok (some st') →
    Marks cfg P T st.doc st'.doc ∧ CondIn P T st'.cond := by
  induction ts with
  | nil =>
    intro st st' _ hc h
    simp only [annotateTargets, Except.ok.injEq, Option.some.injEq] at h
    subst h
    exact ⟨Marks.refl _ _ _ _, hc⟩
  | cons t ts ih =>
    intro st st' hts hc h
    unfold annotateTargets at h
    simp only at h
    split at h
    · cases h
    · simp at h
    · rename_i d cond matched' ha
      have a := annotateItems_marks (P := P) (hts t (by simp)) hn hs fuel hc
        (by intro s hs' i hi; exact hp s (by simpa using hs') i hi) ha
      have b := ih (fun t ht => hts t (by simp [ht])) a.2 h
      exact ⟨a.1.trans hn b.1, b.2⟩

theorem mem_corePending {d : Doc} {s : CoreSeq} (h : s ∈ corePending d) : s.tokens ∈ pendingOfDoc d := by
  unfold corePending at h
  obtain ⟨x, hx, rfl⟩ := List.mem_map.1 h
  exact List.fst_mem_of_mem_zipIdx hx

theorem corePending_in (d : Doc) : ∀ s ∈ corePending d, ∀ i ∈ s.tokens, i ∈ d.nonSpaceTokens := by
  intro s hs i hi
  exact pendingOfDoc_subset d i (List.mem_flatten.2 ⟨_, mem_corePending hs, hi⟩)

/-! ### No exceptions -/

theorem nonEmpty_nil_of {blocks : List Block} (a b : Str) (j : IsJunk) (h : blocks = []) :
    (⟨a, b, blocks, j⟩ : FuzzyResult).hasMatch = false := by
  subst h; rfl

theorem coreFuzzyMatch_in {env : CoreEnv} (hok : MatchersOk env) (a b : Str) :
    ∀ x ∈ (coreFuzzyMatch env a b).nonEmpty, x.a + x.size ≤ a.length ∧ x.b + x.size ≤ b.length := by
  intro x hx
  have hx' : x ∈ (coreFuzzyMatch env a b).blocks := (List.mem_filter.1 hx).1
  unfold coreFuzzyMatch at hx'
  simp only at hx'
  split at hx'
  · exact hok.words a b x hx'
  · exact hok.align a b x hx'

theorem bRange_le {r : FuzzyResult} (n : Nat) (h : ∀ x ∈ r.nonEmpty, x.b + x.size ≤ n) : r.bRange.2 ≤ n := by
  unfold FuzzyResult.bRange
  split
  · rename_i x y _ hy
    exact h y (List.mem_of_getLast? hy)
  · exact Nat.zero_le _

theorem aRange_le {r : FuzzyResult} (n : Nat) (h : ∀ x ∈ r.nonEmpty, x.a + x.size ≤ n) : r.aRange.2 ≤ n := by
  unfold FuzzyResult.aRange
  split
  · rename_i x y _ hy
    exact h y (List.mem_of_getLast? hy)
  · exact Nat.zero_le _

theorem bSplit_end {env : CoreEnv} (hok : MatchersOk env) (a b : Str) :
    ((coreFuzzyMatch env a b).bSplitAt env.cc b.length).2.hasMatch = false := by
  have h := bRange_le b.length (fun x hx => (coreFuzzyMatch_in hok a b x hx).2)
  unfold FuzzyResult.bSplitAt
  simp only
  rw [if_pos (by simp [h])]
  exact nonEmpty_nil_of _ _ _ rfl

theorem aSplit_end {env : CoreEnv} (hok : MatchersOk env) (a b : Str) :
    ((coreFuzzyMatch env a b).aSplitAt env.cc a.length).2.hasMatch = false := by
  have h := aRange_le a.length (fun x hx => (coreFuzzyMatch_in hok a b x hx).1)
  unfold FuzzyResult.aSplitAt
  simp only
  rw [if_pos (by simp [h])]
  exact nonEmpty_nil_of _ _ _ rfl

theorem choiceStep_ok {env : CoreEnv} (hok : MatchersOk env) (cfg : CoreCfg) (isSub : Bool) (s1 : Str) (st : FindState)
    (choice : CoreSeq) (cur : Str) (next : Option (CoreSeq × Str)) :
    ∃ r, choiceStep env cfg isSub s1 st choice cur next = .ok r := by
  unfold choiceStep
  split
  · unfold shortStep
    simp only
    split
    · cases next with
      | none =>
        have : choiceStr cur none = cur := rfl
        rw [this, if_neg (by rw [aSplit_end hok]; simp)]
        exact ⟨_, rfl⟩
      | some n => split <;> exact ⟨_, rfl⟩
    · exact ⟨_, rfl⟩
  · unfold regularStep
    simp only
    split
    · cases next with
      | none =>
        have : choiceStr cur none = cur := rfl
        rw [this, if_neg (by rw [bSplit_end hok]; simp)]
        exact ⟨_, rfl⟩
      | some n => split <;> exact ⟨_, rfl⟩
    · exact ⟨_, rfl⟩

theorem findLoop_ok {env : CoreEnv} (hok : MatchersOk env) (cfg : CoreCfg) (isSub : Bool) (text : CoreSeq → Str) (s1 : Str)
    (ps : List (CoreSeq × Option CoreSeq)) : ∀ st, ∃ r, findLoop env cfg isSub text s1 st ps = .ok r := by
  induction ps with
  | nil => intro st; exact ⟨_, rfl⟩
  | cons p ps ih =>
    obtain ⟨choice, next⟩ := p
    intro st
    unfold findLoop
    split
    · obtain ⟨r, hr⟩ := ih st
      rw [hr]
      exact ⟨_, rfl⟩
    · split
      · exact ⟨_, rfl⟩
      · obtain ⟨r, hr⟩ := choiceStep_ok hok cfg isSub s1 st choice (text choice) (next.map (fun n => (n, text n)))
        rw [hr]
        simp only
        split
        · exact ⟨_, rfl⟩
        · obtain ⟨r', hr'⟩ := ih r.state
          rw [hr']
          exact ⟨_, rfl⟩

theorem findTexts_ok {env : CoreEnv} (hok : MatchersOk env) (cfg : CoreCfg) (isSub : Bool) (text : CoreSeq → Str)
    (ps : List (CoreSeq × Option CoreSeq)) (ss : List Str) : ∀ matched, ∃ r, findTexts env cfg isSub text ps matched ss = .ok r := by
  induction ss with
  | nil => intro _; exact ⟨_, rfl⟩
  | cons s ss ih =>
    intro matched
    unfold findTexts
    obtain ⟨r, hr⟩ := findLoop_ok hok cfg isSub text s ps ⟨0, false, matched⟩
    rw [hr]
    simp only
    obtain ⟨r', hr'⟩ := ih r.matched
    rw [hr']
    exact ⟨_, rfl⟩

theorem findNext_ok {env : CoreEnv} (hok : MatchersOk env) (cfg : CoreCfg) (isSub : Bool) (text : CoreSeq → Str) (name : Str)
    (bonding : Bool) (ps : List (CoreSeq × Option CoreSeq)) (matched : List Nat) (v : TargetValue) :
    ∃ r, findNext env cfg isSub text name bonding ps matched v = .ok r := by
  cases v with
  | one s =>
    obtain ⟨r, hr⟩ := findLoop_ok hok cfg isSub text s ps ⟨0, false, matched⟩
    simp only [findNext, hr]
    exact ⟨_, rfl⟩
  | many ss =>
    obtain ⟨r, hr⟩ := findTexts_ok hok cfg isSub text ps ss matched
    simp only [findNext, hr]
    exact ⟨_, rfl⟩

theorem applySubs_ok {env : CoreEnv} (hok : MatchersOk env) (cfg : CoreCfg) (seq : CoreSeq) (subs : List CoreSub) :
    ∀ d matched, ∃ d', applySubs env cfg seq d matched subs = .ok d' := by
  induction subs with
  | nil => intro d _; exact ⟨d, rfl⟩
  | cons s ss ih =>
    intro d matched
    unfold applySubs
    obtain ⟨r, hr⟩ := findNext_ok hok cfg true (coreSeqText env (normaliseStr env.lower) d) s.name s.bonding [(seq, none)]
      matched (s.value.map (normaliseStr env.lower))
    rw [hr]
    exact ih _ _

theorem applyMatches_ok {env : CoreEnv} (hok : MatchersOk env) (cfg : CoreCfg) (t : CoreTarget) (ms : List SeqMatch) :
    ∀ st, ∃ d', applyMatches env cfg t st ms = .ok d' := by
  induction ms with
  | nil => intro st; exact ⟨st.1, rfl⟩
  | cons m ms ih =>
    intro st
    obtain ⟨d, all⟩ := st
    unfold applyMatches
    simp only
    split
    · exact ih _
    · obtain ⟨d', hd'⟩ := applySubs_ok hok cfg
        ⟨(tagLoop cfg t.name (d, all) (coreTokensBetween env (coreNormalise env) d m.range2 m.seq)).2, 0⟩ t.subs
        (tagLoop cfg t.name (d, all) (coreTokensBetween env (coreNormalise env) d m.range2 m.seq)).1 []
      rw [hd']
      exact ih _

/-! ### Termination -/

/-- `N` bounds the number of choices, whatever tags are set, and the position has been read. -/
structure ChoicesLe (N : Nat) (c : Choices) : Prop where
  total : c.made.length + (c.rest.flatMap (·.tokens)).length ≤ N
  rest : ∀ s ∈ c.rest, s.tokens ≠ []
  cur : c.cur ≤ c.made.length
  nxt : c.cur < c.nxt

theorem length_le_flatten {α : Type} (l : List (List α)) (h : ∀ s ∈ l, s ≠ []) : l.length ≤ l.flatten.length := by
  induction l with
  | nil => simp
  | cons s l ih =>
    have h1 := ih (fun s hs => h s (by simp [hs]))
    have h2 := List.length_pos_iff.2 (h s (by simp))
    simp only [List.length_cons, List.flatten_cons, List.length_append]
    omega

theorem coreSubSeqs_length (d : Doc) (s : CoreSeq) (h : s.tokens ≠ []) : (coreSubSeqs d s).length ≤ s.tokens.length := by
  unfold coreSubSeqs
  rw [List.length_map]
  refine Nat.le_trans (length_le_flatten _ (untaggedSub_ne_nil d s.tokens h)) ?_
  rw [untaggedSub_flatten]
  exact List.length_filter_le _ _

theorem flatMap_coreSubSeqs_length (d : Doc) (l : List CoreSeq) (h : ∀ s ∈ l, s.tokens ≠ []) :
    (l.flatMap (coreSubSeqs d)).length ≤ (l.flatMap (·.tokens)).length := by
  induction l with
  | nil => simp
  | cons s l ih =>
    have h1 := ih (fun s hs => h s (by simp [hs]))
    have h2 := coreSubSeqs_length d s (h s (by simp))
    simp only [List.flatMap_cons, List.length_append]
    omega

theorem ChoicesLe.all {N : Nat} {c : Choices} (h : ChoicesLe N c) (d : Doc) : (c.all d).length ≤ N := by
  have := flatMap_coreSubSeqs_length d c.rest h.rest
  have := h.total
  unfold Choices.all
  rw [List.length_append]
  omega

theorem mostUsed_ge (us : List (Option Nat)) (n : Nat) (h : mostUsed us = some n) : ∀ u ∈ us, ∃ k, u = some k ∧ k ≤ n := by
  induction us generalizing n with
  | nil => intro u hu; cases hu
  | cons u us ih =>
    cases u with
    | none => cases h
    | some k =>
      simp only [mostUsed, Option.map_eq_some_iff] at h
      obtain ⟨n', h1, rfl⟩ := h
      intro u hu
      rcases List.mem_cons.1 hu with rfl | hu
      · exact ⟨k, rfl, Nat.le_max_left _ _⟩
      · obtain ⟨k', h2, h3⟩ := ih n' h1 u hu
        exact ⟨k', h2, Nat.le_trans h3 (Nat.le_max_right _ _)⟩

theorem mostUsed_le (us : List (Option Nat)) (n b : Nat) (h : mostUsed us = some n) (hb : ∀ u ∈ us, ∀ k, u = some k → k ≤ b) :
    n ≤ b := by
  induction us generalizing n with
  | nil => simp only [mostUsed, Option.some.injEq] at h; omega
  | cons u us ih =>
    cases u with
    | none => cases h
    | some k =>
      simp only [mostUsed, Option.map_eq_some_iff] at h
      obtain ⟨n', h1, rfl⟩ := h
      have h2 := ih n' h1 (fun u hu => hb u (by simp [hu]))
      have h3 := hb (some k) (by simp) k rfl
      omega

/-- Each call which finds a match moves the current position on. -/
theorem ChoicesLe.after {N : Nat} {c : Choices} (h : ChoicesLe N c) (d : Doc) {used : List (Option Nat)} (hne : used ≠ [])
    (hp : c.pairs d ≠ []) (hu : ∀ u ∈ used, ∀ k, u = some k → 1 ≤ k ∧ k ≤ (c.pairs d).length) :
    ChoicesLe N (c.after d used) ∧ c.cur < (c.after d used).cur := by
  have hlen : (c.pairs d).length = (c.all d).length - c.cur := by
    unfold Choices.pairs
    rw [pairUp_length, List.length_drop]
  have hpos : c.cur < (c.all d).length := by
    have := List.length_pos_iff.2 hp
    omega
  have hall := h.all d
  cases used with
  | nil => exact absurd rfl hne
  | cons u us =>
    unfold Choices.after
    simp only
    have hcur : ∀ k, u = some k → c.cur + 1 ≤ c.cur + k ∧ c.cur + k ≤ (c.all d).length := by
      intro k hk
      have := hu u (by simp) k hk
      omega
    cases hm : mostUsed (u :: us) with
    | none =>
      simp only
      refine ⟨⟨?_, ?_, ?_, ?_⟩, ?_⟩
      · simpa using hall
      · intro s hs; cases hs
      · cases u with
        | none => exact Nat.le_refl _
        | some k => exact (hcur k rfl).2
      · cases u with
        | none =>
          simp only
          have := Nat.le_max_right c.nxt ((c.all d).length + 1)
          omega
        | some k =>
          have := (hcur k rfl).2
          have := Nat.le_max_right c.nxt ((c.all d).length + 1)
          simp only
          omega
      · cases u with
        | none => exact hpos
        | some k => exact (hcur k rfl).1
    | some n =>
      simp only
      obtain ⟨k, hk, hkn⟩ := mostUsed_ge _ _ hm u (by simp)
      subst hk
      obtain ⟨h1, h2, j, h3, h4⟩ := drawChoices_spec d (c.nxt + n) c.rest c.made
      have hk := hcur k rfl
      simp only
      refine ⟨⟨?_, ?_, ?_, ?_⟩, hk.1⟩
      · simp only [h3, h4]
        have ha : (c.rest.flatMap (·.tokens)).length =
            ((c.rest.take j).flatMap (·.tokens)).length + ((c.rest.drop j).flatMap (·.tokens)).length := by
          rw [← List.length_append, ← List.flatMap_append, List.take_append_drop]
        have hb := flatMap_coreSubSeqs_length d (c.rest.take j) (fun s hs => h.rest s (List.mem_of_mem_take hs))
        have := h.total
        rw [List.length_append]
        omega
      · simp only [h3]
        intro s hs
        exact h.rest s (List.mem_of_mem_drop hs)
      · simp only
        rcases h2 with h2 | h2
        · have := h.nxt
          omega
        · rw [h2] at h1
          simp only [List.flatMap_nil, List.append_nil] at h1
          rw [h1]
          exact hk.2
      · have := h.nxt
        simp only
        omega

theorem annotateItems_ok {env : CoreEnv} (hok : MatchersOk env) (cfg : CoreCfg) (t : CoreTarget) (N n : Nat) :
    ∀ (d : Doc) (cond : Conditional) (matched : List Nat) (c : Choices), ChoicesLe N c → N < n + c.cur →
    ∃ r, annotateItems env cfg t n d cond matched c = .ok (some r) := by
  induction n with
  | zero =>
    intro d cond matched c hc hn
    have := hc.total
    have := hc.cur
    omega
  | succ n ih =>
    intro d cond matched c hc hn
    unfold annotateItems
    obtain ⟨⟨found, matched', used⟩, hr⟩ := findNext_ok hok cfg false (coreSeqText env (coreNormalise env) d) t.name t.bonding
      (c.pairs d) matched (t.value.map (coreNormalise env))
    rw [hr]
    simp only
    split
    · exact ⟨_, rfl⟩
    · rename_i hne
      have hfound : found ≠ [] := by
        rintro rfl
        exact hne rfl
      have hspec := findNext_spec hr
      have hp : c.pairs d ≠ [] := by
        intro he
        cases found with
        | nil => exact hfound rfl
        | cons m ms =>
          obtain ⟨p, hp, _⟩ := hspec.1 m (by simp)
          rw [he] at hp
          cases hp
      have hc1 : ∃ d1, applyConditional env cfg cond (sortBy matchLe found) d = .ok d1 := by
        unfold applyConditional
        cases cond with
        | none => exact ⟨_, rfl⟩
        | some x =>
          simp only
          split
          · exact applyMatches_ok hok cfg x.1 x.2 _
          · exact ⟨_, rfl⟩
      obtain ⟨d1, hd1⟩ := hc1
      rw [hd1]
      simp only
      have hc2 : ∃ d2, (if t.requireNext then .ok d1 else applyMatches env cfg t (d1, []) (sortBy matchLe found)) = .ok d2 := by
        split
        · exact ⟨_, rfl⟩
        · exact applyMatches_ok hok cfg t _ _
      obtain ⟨d2, hd2⟩ := hc2
      rw [hd2]
      simp only
      split
      · have := hc.after d (hspec.2.2 hfound) hp hspec.2.1
        simp only at this
        exact ih _ _ _ _ this.1 (by omega)
      · exact ⟨_, rfl⟩

theorem annotateTargets_ok {env : CoreEnv} (hok : MatchersOk env) (cfg : CoreCfg) (pending : List CoreSeq)
    (hp : ∀ s ∈ pending, s.tokens ≠ []) (n : Nat) (hn : (pending.flatMap (·.tokens)).length < n) (ts : List CoreTarget) :
    ∀ st, ∃ st', annotateTargets env cfg n pending st ts = .ok (some st') := by
  induction ts with
  | nil => intro st; exact ⟨st, rfl⟩
  | cons t ts ih =>
    intro st
    unfold annotateTargets
    simp only
    obtain ⟨⟨d, cond, matched⟩, hr⟩ := annotateItems_ok hok cfg t (pending.flatMap (·.tokens)).length n st.doc st.cond
      (if t.bonding then st.matchedMap.getD t.name [] else []) ⟨[], pending, 0, 1⟩
      ⟨by simp, hp, Nat.le_refl _, Nat.zero_lt_one⟩ (by simpa using hn)
    rw [hr]
    exact ih _

end Verif
