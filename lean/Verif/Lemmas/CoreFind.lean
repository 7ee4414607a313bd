/-
Lemmas about finding matches: gaps between matches, and values which are equal to a line.
-/
import Verif.Lemmas.CoreAnnotate
import Verif.Props.FuzzyMatch

namespace Verif

open Spec (newTag spans tokensIn MatchersOk matchTokens Near ComparedTogether NoPartOn blocksOf
  SubPlaced tokensAt)

/-! ### Gaps -/

theorem choiceStep_shape {env : CoreEnv} {cfg : CoreCfg} {isSub : Bool} {s1 : Str} {st : FindState} {choice : CoreSeq}
    {cur : Str} {next : Option (CoreSeq × Str)} {r : ChoiceResult}
    (h : choiceStep env cfg isSub s1 st choice cur next = .ok r) :
    (r.found = [] ∧ r.state.matched = st.matched) ∨
    (∃ m, m.seq = choice ∧ r.found = [m] ∧ r.state.matched = choice.position :: st.matched) ∨
    (∃ m m' n, m.seq = choice ∧ m'.seq = n.1 ∧ next = some n ∧ r.found = [m, m'] ∧
      (r.state.matched = choice.position :: st.matched ∨
        r.state.matched = n.1.position :: choice.position :: st.matched)) := by
  unfold choiceStep at h
  split at h
  · unfold shortStep at h
    simp only at h
    split at h
    · split at h
      · cases next with
        | none => cases h
        | some n =>
          simp only [Except.ok.injEq] at h
          subst h
          exact Or.inr (Or.inr ⟨_, _, n, rfl, rfl, rfl, rfl, Or.inr rfl⟩)
      · simp only [Except.ok.injEq] at h
        subst h
        exact Or.inr (Or.inl ⟨_, rfl, rfl, rfl⟩)
    · simp only [Except.ok.injEq] at h
      subst h
      exact Or.inl ⟨rfl, rfl⟩
  · unfold regularStep at h
    simp only at h
    split at h
    · split at h
      · cases next with
        | none => cases h
        | some n =>
          simp only [Except.ok.injEq] at h
          subst h
          exact Or.inr (Or.inr ⟨_, _, n, rfl, rfl, rfl, rfl, Or.inl rfl⟩)
      · simp only [Except.ok.injEq] at h
        subst h
        exact Or.inr (Or.inl ⟨_, rfl, rfl, rfl⟩)
    · simp only [Except.ok.injEq] at h
      subst h
      exact Or.inl ⟨rfl, rfl⟩

theorem near_of_dist {gap p q : Nat} {others : List Nat} (hq : q ∈ others) (h : natDist p q ≤ gap + 1) : Near gap others p := by
  refine ⟨q, hq, ?_, ?_⟩ <;> (unfold natDist at h; omega)

theorem Near.mono {gap p : Nat} {a b : List Nat} (h : Near gap a p) (hab : ∀ x ∈ a, x ∈ b) : Near gap b p := by
  obtain ⟨q, hq, h1⟩ := h
  exact ⟨q, hab q hq, h1⟩

/-- What is known of the matches found, one after the other. -/
def GapChain (gap : Nat) (pairs : List (CoreSeq × Option CoreSeq)) (matched : List Nat) (found : List SeqMatch) : Prop :=
  ∀ pre m post, found = pre ++ m :: post →
    (matched = [] ∧ pre = []) ∨ Near gap (matched ++ pre.map (fun x => x.seq.position)) m.seq.position ∨ ComparedTogether pairs pre m

theorem gapChain_nil (gap : Nat) (pairs : List (CoreSeq × Option CoreSeq)) (matched : List Nat) : GapChain gap pairs matched [] := by
  intro pre m post h
  have := congrArg List.length h
  simp at this

theorem gapChain_append {gap : Nat} {pairs : List (CoreSeq × Option CoreSeq)} {matched matched' : List Nat} {a b : List SeqMatch} (ha : GapChain gap pairs matched a)
    (hsub : ∀ p ∈ matched', p ∈ matched ++ a.map (fun x => x.seq.position))
    (hnil : matched' = [] → matched = [] ∧ a = []) (hb : GapChain gap pairs matched' b) : GapChain gap pairs matched (a ++ b) := by
  intro pre m post h
  rcases List.append_eq_append_iff.1 h with ⟨c, h1, h2⟩ | ⟨c, h1, h2⟩
  · -- a is a prefix of pre
    subst h1
    rcases hb c m post h2 with ⟨h3, h4⟩ | h3 | ⟨pre', x, h3, h4⟩
    · left
      have := hnil h3
      subst h4
      exact ⟨this.1, by simp [this.2]⟩
    · right; left
      refine Near.mono h3 ?_
      intro x hx
      rcases List.mem_append.1 hx with hx | hx
      · have := hsub x hx
        simp only [List.map_append, List.mem_append] at this ⊢
        rcases this with h | h
        · exact Or.inl h
        · exact Or.inr (Or.inl h)
      · simp only [List.map_append, List.mem_append]
        exact Or.inr (Or.inr hx)
    · right; right
      exact ⟨a ++ pre', x, by rw [h3, List.append_assoc], h4⟩
  · cases c with
    | nil =>
      simp only [List.append_nil] at h1
      simp only [List.nil_append] at h2
      subst h1
      rcases hb [] m post h2.symm with ⟨h3, _⟩ | h3 | ⟨pre', x, h3, _⟩
      · left; exact hnil h3
      · right; left
        refine Near.mono h3 ?_
        intro x hx
        simp only [List.map_nil, List.append_nil] at hx
        exact hsub x hx
      · simp at h3
    | cons x c =>
      simp only [List.cons_append, List.cons.injEq] at h2
      obtain ⟨rfl, h2⟩ := h2
      exact ha pre m c h1

theorem findLoop_gapChain {env : CoreEnv} {cfg : CoreCfg} (hgap : cfg.maxGap ≠ 0) {isSub : Bool} {text : CoreSeq → Str} {s1 : Str}
    {ps : List (CoreSeq × Option CoreSeq)} {pairs : List (CoreSeq × Option CoreSeq)} (hadj : ∀ p ∈ ps, p ∈ pairs) :
    ∀ {st : FindState} {r : FindResult}, findLoop env cfg isSub text s1 st ps = .ok r →
    GapChain cfg.maxGap pairs st.matched r.found ∧
    (∀ p ∈ r.matched, p ∈ st.matched ++ r.found.map (fun x => x.seq.position)) ∧
    (r.matched = [] → st.matched = [] ∧ r.found = []) := by
  induction ps with
  | nil =>
    intro st r h
    simp only [findLoop, Except.ok.injEq] at h
    subst h
    exact ⟨gapChain_nil _ _ _, by simp, fun h => ⟨h, rfl⟩⟩
  | cons p ps ih =>
    obtain ⟨choice, next⟩ := p
    have ih := @ih (fun p hp => hadj p (by simp [hp]))
    intro st r h
    unfold findLoop at h
    split at h
    · split at h
      · cases h
      · rename_i r' hr'
        simp only [Except.ok.injEq] at h
        subst h
        have := ih hr'
        exact this
    · rename_i hclose
      split at h
      · simp only [Except.ok.injEq] at h
        subst h
        exact ⟨gapChain_nil _ _ _, by simp, fun h => ⟨h, rfl⟩⟩
      · split at h
        · cases h
        · rename_i rc hrc
          have hc : st.matched = [] ∨ Near cfg.maxGap st.matched choice.position := by
            simp only [isCloseToAny, Bool.not_eq_true', Bool.not_eq_false, Bool.or_eq_true, decide_eq_true_eq,
              List.isEmpty_iff, List.any_eq_true] at hclose
            rcases hclose with (h1 | h1) | ⟨q, hq, h1⟩
            · exact absurd h1 hgap
            · exact Or.inl h1
            · exact Or.inr (near_of_dist hq h1)
          have hstep : GapChain cfg.maxGap pairs st.matched rc.found ∧
              (∀ p ∈ rc.state.matched, p ∈ st.matched ++ rc.found.map (fun x => x.seq.position)) ∧
              (rc.state.matched = [] → st.matched = [] ∧ rc.found = []) := by
            rcases choiceStep_shape hrc with ⟨h1, h2⟩ | ⟨m, h0, h1, h2⟩ | ⟨m, m', n, h0, h0', h1, h2, h3⟩
            · rw [h1, h2]
              exact ⟨gapChain_nil _ _ _, by simp, fun h => ⟨h, rfl⟩⟩
            · rw [h1, h2]
              refine ⟨?_, ?_, by simp⟩
              · intro pre x post he
                cases pre with
                | nil =>
                  simp only [List.nil_append, List.cons.injEq] at he
                  rw [← he.1, h0]
                  rcases hc with hc | hc
                  · exact Or.inl ⟨hc, rfl⟩
                  · exact Or.inr (.inl (by simpa using hc))
                | cons y pre =>
                  have := congrArg List.length he
                  simp at this
              · intro p hp
                rcases List.mem_cons.1 hp with rfl | hp
                · simp [h0]
                · simp [hp]
            · rw [h2]
              have hd : (choice, some n.1) ∈ pairs := by
                simp only [Option.map_eq_some_iff] at h1
                obtain ⟨n', h4, h5⟩ := h1
                have := hadj (choice, next) (by simp)
                rw [h4] at this
                rw [← h5]
                exact this
              refine ⟨?_, ?_, ?_⟩
              · intro pre x post he
                match pre with
                | [] =>
                  simp only [List.nil_append, List.cons.injEq] at he
                  rw [← he.1, h0]
                  rcases hc with hc | hc
                  · exact Or.inl ⟨hc, rfl⟩
                  · exact Or.inr (.inl (by simpa using hc))
                | [y] =>
                  simp only [List.cons_append, List.nil_append, List.cons.injEq] at he
                  rw [← he.1, ← he.2.1]
                  right; right
                  refine ⟨[], m, rfl, ?_⟩
                  rw [h0, h0']
                  exact hd
                | y :: z :: pre =>
                  have := congrArg List.length he
                  simp at this
              · intro p hp
                rcases h3 with h3 | h3 <;> rw [h3] at hp <;> simp only [List.mem_cons] at hp
                · rcases hp with rfl | hp
                  · simp [h0]
                  · simp [hp]
                · rcases hp with rfl | rfl | hp
                  · simp [h0']
                  · simp [h0]
                  · simp [hp]
              · rcases h3 with h3 | h3 <;> rw [h3] <;> simp
          split at h
          · simp only [Except.ok.injEq] at h
            subst h
            exact hstep
          · split at h
            · cases h
            · rename_i r' hr'
              simp only [Except.ok.injEq] at h
              subst h
              have := ih hr'
              refine ⟨gapChain_append hstep.1 hstep.2.1 hstep.2.2 this.1, ?_, ?_⟩
              · intro p hp
                rcases List.mem_append.1 (this.2.1 p hp) with h1 | h1
                · have := hstep.2.1 p h1
                  simp only [List.map_append, List.mem_append] at this ⊢
                  rcases this with h | h
                  · exact Or.inl h
                  · exact Or.inr (Or.inl h)
                · simp only [List.map_append, List.mem_append]
                  exact Or.inr (Or.inr h1)
              · intro h1
                have h2 := this.2.2 h1
                have h3 := hstep.2.2 h2.1
                exact ⟨h3.1, by simp [h3.2, h2.2]⟩

theorem findTexts_gapChain {env : CoreEnv} {cfg : CoreCfg} (hgap : cfg.maxGap ≠ 0) {isSub : Bool} {text : CoreSeq → Str}
    {ps : List (CoreSeq × Option CoreSeq)} {pairs : List (CoreSeq × Option CoreSeq)} (hadj : ∀ p ∈ ps, p ∈ pairs)
    {ss : List Str} : ∀ {matched : List Nat} {r}, findTexts env cfg isSub text ps matched ss = .ok r →
    GapChain cfg.maxGap pairs matched r.1 := by
  induction ss with
  | nil =>
    intro matched r h
    simp only [findTexts, Except.ok.injEq] at h
    subst h
    exact gapChain_nil _ _ _
  | cons s ss ih =>
    intro matched r h
    unfold findTexts at h
    split at h
    · cases h
    · rename_i r1 h1
      split at h
      · cases h
      · rename_i f m u h2
        simp only [Except.ok.injEq] at h
        subst h
        have a := findLoop_gapChain hgap hadj h1
        exact gapChain_append a.1 a.2.1 a.2.2 (ih h2)

/-! ### Values equal to a line -/

theorem coreFuzzyMatch_blocks (env : CoreEnv) (a b : Str) : (coreFuzzyMatch env a b).blocks = blocksOf env a b := rfl

theorem bSplit_first_none {cc : CharClass} {r : FuzzyResult} {n : Nat} (h : ∀ x ∈ r.blocks, x.size = 0 ∨ n ≤ x.b) :
    (r.bSplitAt cc n).1.hasMatch = false := by
  have hne : ∀ x ∈ r.nonEmpty, n ≤ x.b ∧ 0 < x.size := by
    intro x hx
    have hx' := List.mem_filter.1 hx
    have hs : x.size ≠ 0 := by simpa using hx'.2
    rcases h x hx'.1 with h1 | h1
    · exact absurd h1 hs
    · exact ⟨h1, Nat.pos_of_ne_zero hs⟩
  unfold FuzzyResult.bSplitAt
  simp only
  split
  · rename_i hc
    cases hb : r.nonEmpty with
    | nil => rfl
    | cons x l =>
      exfalso
      rw [hb] at hc
      simp only [List.isEmpty_cons, Bool.false_or, decide_eq_true_eq] at hc
      have hl : ∃ y, r.nonEmpty.getLast? = some y := ⟨_, by rw [hb]; exact List.getLast?_eq_some_getLast (by simp)⟩
      obtain ⟨y, hy⟩ := hl
      have : r.bRange.2 = y.b + y.size := by
        unfold FuzzyResult.bRange
        rw [hy, hb]
        rfl
      have := hne y (List.mem_of_getLast? hy)
      omega
  · have : r.nonEmpty.filter (fun x => decide (x.b < n)) = [] := by
      rw [List.filter_eq_nil_iff]
      intro x hx
      have := hne x hx
      simp only [decide_eq_true_eq]
      omega
    rw [this]
    rfl

theorem aSplit_first_none {cc : CharClass} {r : FuzzyResult} {n : Nat} (h : ∀ x ∈ r.blocks, x.size = 0 ∨ n ≤ x.a) :
    (r.aSplitAt cc n).1.hasMatch = false := by
  have hne : ∀ x ∈ r.nonEmpty, n ≤ x.a ∧ 0 < x.size := by
    intro x hx
    have hx' := List.mem_filter.1 hx
    have hs : x.size ≠ 0 := by simpa using hx'.2
    rcases h x hx'.1 with h1 | h1
    · exact absurd h1 hs
    · exact ⟨h1, Nat.pos_of_ne_zero hs⟩
  unfold FuzzyResult.aSplitAt
  simp only
  split
  · rename_i hc
    cases hb : r.nonEmpty with
    | nil => rfl
    | cons x l =>
      exfalso
      rw [hb] at hc
      simp only [List.isEmpty_cons, Bool.false_or, decide_eq_true_eq] at hc
      have hl : ∃ y, r.nonEmpty.getLast? = some y := ⟨_, by rw [hb]; exact List.getLast?_eq_some_getLast (by simp)⟩
      obtain ⟨y, hy⟩ := hl
      have : r.aRange.2 = y.a + y.size := by
        unfold FuzzyResult.aRange
        rw [hy, hb]
        rfl
      have := hne y (List.mem_of_getLast? hy)
      omega
  · have : r.nonEmpty.filter (fun x => decide (x.a < n)) = [] := by
      rw [List.filter_eq_nil_iff]
      intro x hx
      have := hne x hx
      simp only [decide_eq_true_eq]
      omega
    rw [this]
    rfl

theorem choiceStep_none {env : CoreEnv} {cfg : CoreCfg} {s1 : Str} {st : FindState} (hst : st.start = 0) {choice : CoreSeq}
    {cur : Str} {n : CoreSeq × Str} (h : NoPartOn env s1 cur n.2) :
    choiceStep env cfg false s1 st choice cur (some n) = .ok ⟨[], st, false⟩ := by
  unfold choiceStep
  unfold NoPartOn at h
  rw [hst]
  simp only [Bool.false_or, Nat.sub_zero, decide_eq_true_eq]
  split
  · rename_i hl
    rw [if_pos hl] at h
    unfold shortStep
    rw [hst, List.drop_zero]
    simp only
    rw [if_neg]
    rw [aSplit_first_none (n := cur.length) h]
    simp
  · rename_i hl
    rw [if_neg hl] at h
    unfold regularStep
    simp only
    rw [if_neg]
    rw [bSplit_first_none (n := cur.length) h]
    simp

theorem regularStep_exact {env : CoreEnv} {cfg : CoreCfg} {s1 : Str} (hne : s1 ≠ []) {st : FindState}
    {choice : CoreSeq} {next : Option (CoreSeq × Str)}
    (hb : (blocksOf env s1 (choiceStr s1 next)).filter (fun x => x.size ≠ 0) = [⟨0, 0, s1.length⟩])
    (h1 : cfg.seqFilter.bScore ≤ 1) (h2 : cfg.seqFilter.totalThreshold ≤ 1) :
    regularStep env cfg s1 st choice s1 next =
      .ok ⟨[⟨choice, (0, s1.length), (0, s1.length)⟩], ⟨st.start, true, choice.position :: st.matched⟩, true⟩ := by
  have hlen : s1.length ≠ 0 := by simpa using hne
  have hnon : (coreFuzzyMatch env s1 (choiceStr s1 next)).nonEmpty = [⟨0, 0, s1.length⟩] := hb
  have hr : (coreFuzzyMatch env s1 (choiceStr s1 next)).bRange = (0, s1.length) := by
    unfold FuzzyResult.bRange
    rw [hnon]
    simp
  have htake : (choiceStr s1 next).take s1.length = s1 := by
    unfold choiceStr
    split
    · exact List.take_length
    · simp
  have hsplit : (coreFuzzyMatch env s1 (choiceStr s1 next)).bSplitAt env.cc s1.length =
      (⟨s1, s1, [⟨0, 0, s1.length⟩], coreIsJunk env.cc⟩, ⟨s1, (choiceStr s1 next).drop s1.length, [], coreIsJunk env.cc⟩) := by
    unfold FuzzyResult.bSplitAt
    simp only
    rw [if_pos (by rw [hr]; simp), hnon]
    show ((⟨s1, (choiceStr s1 next).take s1.length, _, _⟩ : FuzzyResult), _) = _
    rw [htake]
    rfl
  have hid := Props.C37_identical s1 hne (coreIsJunk env.cc)
  simp only at hid
  have hfm : (⟨s1, s1, [⟨0, 0, s1.length⟩], coreIsJunk env.cc⟩ : FuzzyResult).nonEmpty = [⟨0, 0, s1.length⟩] := by
    simp [FuzzyResult.nonEmpty, hne]
  have hhas : (⟨s1, s1, [⟨0, 0, s1.length⟩], coreIsJunk env.cc⟩ : FuzzyResult).hasMatch = true := by
    simp [FuzzyResult.hasMatch, hfm]
  have hcheck : cfg.seqFilter.check ⟨s1, s1, [⟨0, 0, s1.length⟩], coreIsJunk env.cc⟩
      (some ⟨s1, (choiceStr s1 next).drop s1.length, [], coreIsJunk env.cc⟩) st.previous = true := by
    unfold CoreFilter.check
    rw [hid.2.2.2, hid.2.1]
    simp [h1, h2]
  have ha : (⟨s1, s1, [⟨0, 0, s1.length⟩], coreIsJunk env.cc⟩ : FuzzyResult).aRange = (0, s1.length) := by
    unfold FuzzyResult.aRange
    rw [hfm]
    simp
  have hb' : (⟨s1, s1, [⟨0, 0, s1.length⟩], coreIsJunk env.cc⟩ : FuzzyResult).bRange = (0, s1.length) := by
    unfold FuzzyResult.bRange
    rw [hfm]
    simp
  have hskip : skipWhitespaces env.cc s1 s1.length = s1.length := by
    unfold skipWhitespaces
    simp
  unfold regularStep
  simp only [hsplit, hhas, hcheck, Bool.true_or, Bool.and_self, if_true, ha, hb']
  rw [if_neg (by rw [nonEmpty_nil_of _ _ _ rfl]; simp)]
  simp [hskip]

theorem findLoop_exact {env : CoreEnv} {cfg : CoreCfg} {text : CoreSeq → Str} {s1 : Str} (hne : s1 ≠ [])
    (h1 : cfg.seqFilter.bScore ≤ 1) (h2 : cfg.seqFilter.totalThreshold ≤ 1) {c : CoreSeq} {post : List CoreSeq}
    (hc : text c = s1)
    (hb : (blocksOf env s1 (choiceStr s1 (post.head?.map (fun n => (n, text n))))).filter (fun x => x.size ≠ 0) =
      [⟨0, 0, s1.length⟩]) (pre : List CoreSeq)
    (hpre : ∀ a l l' b, pre ++ [c] = a ++ l :: l' :: b → text l ≠ [] ∧ NoPartOn env s1 (text l) (text l')) :
    ∃ u, findLoop env cfg false text s1 ⟨0, false, []⟩ (pairUp (pre ++ c :: post) (pre ++ c :: post).tail) =
      .ok ⟨[⟨c, (0, s1.length), (0, s1.length)⟩], [c.position], some u⟩ := by
  have hclose : ∀ s, isCloseToAny [] cfg.maxGap s = true := by
    intro s
    simp [isCloseToAny]
  induction pre with
  | nil =>
    refine ⟨1, ?_⟩
    simp only [List.nil_append, pairUp, List.tail_cons, findLoop, hclose, Bool.not_true, Bool.false_eq_true, if_false]
    rw [if_neg (by rw [hc]; simpa using hne)]
    unfold choiceStep
    rw [hc, if_neg (by simp), regularStep_exact hne hb h1 h2]
    simp
  | cons p pre ih =>
    obtain ⟨u, hu⟩ := ih (fun a l l' b h => hpre (p :: a) l l' b (by rw [List.cons_append, h]; rfl))
    refine ⟨u + 1, ?_⟩
    have hnext : ∃ n rest, pre ++ c :: post = n :: rest ∧ ∃ b, (p :: pre) ++ [c] = [] ++ p :: n :: b := by
      cases pre with
      | nil => exact ⟨c, post, rfl, [], rfl⟩
      | cons q pre => exact ⟨q, pre ++ c :: post, rfl, pre ++ [c], rfl⟩
    obtain ⟨n, rest, hn, b, hb'⟩ := hnext
    have hp := hpre [] p n b hb'
    rw [List.cons_append, List.tail_cons]
    unfold pairUp
    unfold findLoop
    simp only [hclose, Bool.not_true, Bool.false_eq_true, if_false]
    rw [if_neg (by simpa using hp.1)]
    have hhead : (pre ++ c :: post).head? = some n := by rw [hn]; rfl
    rw [hhead, Option.map_some, choiceStep_none rfl hp.2]
    simp only [Bool.false_eq_true, if_false]
    rw [hu]
    rfl

/-! ### Whole lines -/

theorem mem_spans (text : Nat → Str) (tokens : List Nat) : ∀ o, ∀ x ∈ tokens.zip (spans o (tokens.map text)),
    x.2.2 = x.2.1 + (text x.1).length ∧ x.2.2 ≤ o + (joinStr [' '] (tokens.map text)).length := by
  induction tokens with
  | nil => intro o x hx; simp at hx
  | cons t ts ih =>
    intro o x hx
    simp only [List.map_cons, spans, List.zip_cons_cons, List.mem_cons] at hx
    have hl : (text t).length ≤ (joinStr [' '] (text t :: ts.map text)).length ∧
        (ts ≠ [] → (joinStr [' '] (text t :: ts.map text)).length =
          (text t).length + 1 + (joinStr [' '] (ts.map text)).length) := by
      cases ts with
      | nil => simp [joinStr]
      | cons u us =>
        simp only [List.map_cons, joinStr, List.length_append, List.length_singleton]
        exact ⟨by omega, fun _ => trivial⟩
    rcases hx with rfl | hx
    · simp only [List.map_cons]
      exact ⟨trivial, Nat.add_le_add_left hl.1 o⟩
    · have := ih _ x hx
      have hne : ts ≠ [] := by rintro rfl; simp at hx
      have := hl.2 hne
      simp only [List.map_cons]
      omega

theorem spans_length (ss : List Str) : ∀ o, (spans o ss).length = ss.length := by
  induction ss with
  | nil => intro o; rfl
  | cons s ss ih => intro o; simp [spans, ih]

theorem mem_tokensIn_all {text : Nat → Str} {tokens : List Nat} {j : Nat} (hj : j ∈ tokens) (hne : text j ≠ []) :
    j ∈ tokensIn text tokens (0, (joinStr [' '] (tokens.map text)).length) := by
  obtain ⟨k, hk, rfl⟩ := List.mem_iff_getElem.1 hj
  have hk' : k < (spans 0 (tokens.map text)).length := by simpa [spans_length] using hk
  have hz : (tokens[k], (spans 0 (tokens.map text))[k]) ∈ tokens.zip (spans 0 (tokens.map text)) := by
    rw [← List.getElem_zip (h := by simp [spans_length, hk])]
    exact List.getElem_mem _
  have hb := mem_spans text tokens 0 _ hz
  have hpos := List.length_pos_iff.2 hne
  unfold tokensIn
  refine List.mem_map.2 ⟨_, List.mem_filter.2 ⟨hz, ?_⟩, rfl⟩
  simp only [Spec.overlaps, Bool.and_eq_true, decide_eq_true_eq]
  simp only at hb
  omega

theorem coreSubSeqs_untagged {d : Doc} {s : CoreSeq} (h : ∀ i ∈ s.tokens, truthy (d.getTag i) = false) :
    coreSubSeqs d s = [s] := by
  have : s.tokens.filter (fun i => truthy (d.getTag i)) = [] := by
    rw [List.filter_eq_nil_iff]
    intro i hi
    rw [h i hi]
    simp
  simp [coreSubSeqs, untaggedSubSequences, this]

theorem corePending_untagged {d : Doc} {s : CoreSeq} (h : s ∈ corePending d) : ∀ i ∈ s.tokens, truthy (d.getTag i) = false := by
  intro i hi
  have := pendingOfDoc_flatten d
  have h1 : i ∈ (pendingOfDoc d).flatten := List.mem_flatten.2 ⟨_, mem_corePending h, hi⟩
  rw [this] at h1
  simpa using (List.mem_filter.1 h1).2

theorem corePending_all (d : Doc) : (corePending d).flatMap (coreSubSeqs d) = corePending d := by
  have : ∀ l : List CoreSeq, (∀ s ∈ l, coreSubSeqs d s = [s]) → l.flatMap (coreSubSeqs d) = l := by
    intro l
    induction l with
    | nil => intro _; rfl
    | cons s l ih =>
      intro h
      rw [List.flatMap_cons, h s (by simp), ih (fun s hs => h s (by simp [hs]))]
      rfl
  exact this _ (fun s hs => coreSubSeqs_untagged (corePending_untagged hs))

theorem zipIdx_split {α : Type} (pre : List α) (x : α) (post : List α) : ∀ k,
    ∃ a b, ((pre ++ x :: post).zipIdx k).map (fun y => (y.1, y.2)) = a ++ (x, k + pre.length) :: b ∧
      a.map Prod.fst = pre ∧ b.map Prod.fst = post := by
  intro k
  refine ⟨pre.zipIdx k, post.zipIdx (k + pre.length + 1), ?_, ?_, ?_⟩
  · simp [List.zipIdx_append, List.zipIdx_cons]
  · simp
  · simp

theorem corePending_split {d : Doc} {pre : List (List Nat)} {line : List Nat} {post : List (List Nat)}
    (h : pendingOfDoc d = pre ++ line :: post) :
    ∃ a b, corePending d = a ++ ⟨line, pre.length⟩ :: b ∧ a.map CoreSeq.tokens = pre ∧ b.map CoreSeq.tokens = post := by
  unfold corePending
  rw [h]
  obtain ⟨a, b, h1, h2, h3⟩ := zipIdx_split pre line post 0
  refine ⟨a.map (fun x => ⟨x.1, x.2⟩), b.map (fun x => ⟨x.1, x.2⟩), ?_, ?_, ?_⟩
  · have := congrArg (List.map (fun x : List Nat × Nat => (⟨x.1, x.2⟩ : CoreSeq))) h1
    simpa using this
  · rw [List.map_map]; exact h2
  · rw [List.map_map]; exact h3

/-- The first match of a value which is equal to a line. -/
theorem annotateItems_exact {env : CoreEnv} {cfg : CoreCfg} {t : CoreTarget} {T : List CoreTarget} {P : Nat → Prop} (ht : t ∈ T)
    (hn : ∀ t ∈ T, t.name ≠ []) (hs : ∀ t ∈ T, ∀ s ∈ t.subs, s.name ≠ []) {v : Str} (hv : t.value = .one v)
    (hreq : t.requireNext = false)
    {d : Doc} (hp : ∀ s ∈ corePending d, ∀ i ∈ s.tokens, P i)
    {line : List Nat} {pos : Nat} {a b : List CoreSeq} (hline : corePending d = a ++ ⟨line, pos⟩ :: b)
    (hne : coreNormalise env v ≠ []) (hc : coreSeqText env (coreNormalise env) d ⟨line, pos⟩ = coreNormalise env v)
    (hb : (blocksOf env (coreNormalise env v) (choiceStr (coreNormalise env v)
      (b.head?.map (fun n => (n, coreSeqText env (coreNormalise env) d n))))).filter (fun x => x.size ≠ 0) =
      [⟨0, 0, (coreNormalise env v).length⟩])
    (hpre : ∀ a' l l' b', a ++ [⟨line, pos⟩] = a' ++ l :: l' :: b' → coreSeqText env (coreNormalise env) d l ≠ [] ∧
      NoPartOn env (coreNormalise env v) (coreSeqText env (coreNormalise env) d l) (coreSeqText env (coreNormalise env) d l'))
    (h1 : cfg.seqFilter.bScore ≤ 1) (h2 : cfg.seqFilter.totalThreshold ≤ 1) {n : Nat} {r}
    (h : annotateItems env cfg t (n + 1) d none [] ⟨[], corePending d, 0, 1⟩ = .ok (some r)) :
    CondIn P T r.2.1 ∧ (∃ d2, applyMatches env cfg t (d, [])
      [⟨⟨line, pos⟩, (0, (coreNormalise env v).length), (0, (coreNormalise env v).length)⟩] = .ok d2 ∧
      Marks cfg P T d2 r.1) := by
  have hpairs : (⟨[], corePending d, 0, 1⟩ : Choices).pairs d =
      pairUp (a ++ ⟨line, pos⟩ :: b) (a ++ ⟨line, pos⟩ :: b).tail := by
    unfold Choices.pairs Choices.all
    simp only [List.nil_append]
    rw [corePending_all, hline, List.drop_zero, List.drop_one]
  obtain ⟨u, hu⟩ := findLoop_exact (cfg := cfg) hne h1 h2 hc hb a hpre
  have hm : MatchesIn P [⟨⟨line, pos⟩, (0, (coreNormalise env v).length), (0, (coreNormalise env v).length)⟩] := by
    intro m hm i hi
    rw [List.mem_singleton] at hm
    subst hm
    exact hp ⟨line, pos⟩ (by rw [hline]; simp) i hi
  have hci : ChoicesIn P ⟨[], corePending d, 0, 1⟩ := by
    intro s hs' i hi
    exact hp s (by simpa using hs') i hi
  unfold annotateItems at h
  rw [hv, TargetValue.map, hpairs] at h
  unfold findNext at h
  simp only [hu] at h
  have hsort : ∀ m : SeqMatch, sortBy matchLe [m] = [m] := fun m => rfl
  simp only [hsort, List.isEmpty_cons, Bool.false_eq_true, if_false, hreq] at h
  simp only [applyConditional] at h
  have hcond : CondIn P T none := fun _ _ h => by cases h
  split at h
  · cases h
  · rename_i d2 hd2
    split at h
    · obtain ⟨rd, rc, rm⟩ := r
      have := annotateItems_marks ht hn hs n hcond (hci.after d _) h
      exact ⟨this.2, d2, hd2, this.1⟩
    · simp only [Except.ok.injEq, Option.some.injEq] at h
      subst h
      exact ⟨hcond, d2, hd2, Marks.refl _ _ _ _⟩

/-- After others, a last target annotation which requires a next one adds nothing of its own. -/
theorem annotateTargets_last {env : CoreEnv} {cfg : CoreCfg} {P : Nat → Prop} {T : List CoreTarget}
    (hn : ∀ t ∈ T, t.name ≠ []) (hs : ∀ t ∈ T, ∀ s ∈ t.subs, s.name ≠ []) {fuel : Nat} {pending : List CoreSeq}
    (hp : ∀ s ∈ pending, ∀ i ∈ s.tokens, P i) {t : CoreTarget} (hreq : t.requireNext = true) (hone : t.matchMultiple = false)
    (ts : List CoreTarget) : ∀ {st st' : CoreState}, (∀ t ∈ ts, t ∈ T) → CondIn P T st.cond →
    annotateTargets env cfg fuel pending st (ts ++ [t]) = .ok (some st') → Marks cfg P T st.doc st'.doc := by
  induction ts with
  | nil =>
    intro st st' _ hc h
    rw [List.nil_append] at h
    unfold annotateTargets at h
    simp only at h
    split at h
    · cases h
    · simp at h
    · rename_i d cond matched' ha
      simp only [annotateTargets, Except.ok.injEq, Option.some.injEq] at h
      subst h
      cases fuel with
      | zero => simp [annotateItems] at ha
      | succ n =>
        unfold annotateItems at ha
        simp only [hreq, hone] at ha
        split at ha
        · cases ha
        · split at ha
          · simp only [Except.ok.injEq, Option.some.injEq, Prod.mk.injEq] at ha
            rw [← ha.1]
            exact Marks.refl _ _ _ _
          · split at ha
            · cases ha
            · rename_i d1 hd1
              simp only [if_true, Bool.false_eq_true, if_false, Except.ok.injEq, Option.some.injEq, Prod.mk.injEq] at ha
              rw [← ha.1]
              exact applyConditional_marks hn hs hc hd1
  | cons t' ts ih =>
    intro st st' hts hc h
    rw [List.cons_append] at h
    unfold annotateTargets at h
    simp only at h
    split at h
    · cases h
    · simp at h
    · rename_i d cond matched' ha
      have a := annotateItems_marks (P := P) (hts t' (by simp)) hn hs fuel hc
        (by intro s hs' i hi; exact hp s (by simpa using hs') i hi) ha
      exact a.1.trans hn (ih (fun t ht => hts t (by simp [ht])) a.2 h)

/-! ### Distance between matches -/

theorem foldl_min (l : List SeqMatch) : ∀ p, (l.foldl (fun p x => min p x.seq.position) p ≤ p ∧
    ∀ m ∈ l, l.foldl (fun p x => min p x.seq.position) p ≤ m.seq.position) ∧
    (l.foldl (fun p x => min p x.seq.position) p = p ∨ ∃ m ∈ l, l.foldl (fun p x => min p x.seq.position) p = m.seq.position) := by
  induction l with
  | nil => intro p; simp
  | cons x l ih =>
    intro p
    have := ih (min p x.seq.position)
    simp only [List.foldl_cons, List.mem_cons, forall_eq_or_imp, exists_eq_or_imp]
    obtain ⟨⟨h1, h2⟩, h3⟩ := this
    refine ⟨⟨by omega, by omega, h2⟩, ?_⟩
    rcases h3 with h3 | h3
    · omega
    · exact Or.inr (Or.inr h3)

theorem foldl_max (l : List SeqMatch) : ∀ p, (p ≤ l.foldl (fun p x => max p x.seq.position) p ∧
    ∀ m ∈ l, m.seq.position ≤ l.foldl (fun p x => max p x.seq.position) p) ∧
    (l.foldl (fun p x => max p x.seq.position) p = p ∨ ∃ m ∈ l, l.foldl (fun p x => max p x.seq.position) p = m.seq.position) := by
  induction l with
  | nil => intro p; simp
  | cons x l ih =>
    intro p
    have := ih (max p x.seq.position)
    simp only [List.foldl_cons, List.mem_cons, forall_eq_or_imp, exists_eq_or_imp]
    obtain ⟨⟨h1, h2⟩, h3⟩ := this
    refine ⟨⟨by omega, by omega, h2⟩, ?_⟩
    rcases h3 with h3 | h3
    · omega
    · exact Or.inr (Or.inr h3)

theorem positionRange_eq {ms : List SeqMatch} {p q : Nat} (h : Spec.LinesFromTo ms p q) : positionRange ms = (p, q) := by
  obtain ⟨⟨m, hm, h1⟩, ⟨m', hm', h2⟩, h3⟩ := h
  cases ms with
  | nil => cases hm
  | cons x l =>
    obtain ⟨⟨a1, a2⟩, a3⟩ := foldl_min l x.seq.position
    obtain ⟨⟨b1, b2⟩, b3⟩ := foldl_max l x.seq.position
    unfold positionRange
    have hx := h3 x (by simp)
    apply Prod.ext
    · simp only
      have lo : l.foldl (fun p x => min p x.seq.position) x.seq.position ≤ p := by
        rcases List.mem_cons.1 hm with rfl | hm
        · omega
        · have := a2 m hm; omega
      rcases a3 with a3 | ⟨y, hy, a3⟩
      · omega
      · have := h3 y (by simp [hy]); omega
    · simp only
      have hi : q ≤ l.foldl (fun p x => max p x.seq.position) x.seq.position := by
        rcases List.mem_cons.1 hm' with rfl | hm'
        · omega
        · have := b2 m' hm'; omega
      rcases b3 with b3 | ⟨y, hy, b3⟩
      · omega
      · have := h3 y (by simp [hy]); omega

/-! ### Sub annotations -/

theorem bGapRatio_whole (a s : Str) (hs : s ≠ []) (p : Nat) (isJunk : IsJunk) :
    (⟨a, s, [⟨p, 0, s.length⟩], isJunk⟩ : FuzzyResult).bGapRatio = 1 := by
  generalize hr : (⟨a, s, [⟨p, 0, s.length⟩], isJunk⟩ : FuzzyResult) = r
  have hl : s.length ≠ 0 := by simpa using hs
  have hne : r.nonEmpty = [⟨p, 0, s.length⟩] := by subst hr; simp [FuzzyResult.nonEmpty, hs]
  have ea : r.aRange = (p, p + s.length) := by simp [FuzzyResult.aRange, hne]
  have ja : r.aNonMatchingJunk (some (p, p + s.length)) = 0 := by
    unfold FuzzyResult.aNonMatchingJunk FuzzyResult.aBlocks
    rw [hne]
    simp [FuzzyResult.countNonMatchingJunk, invertRanges]
  have jb : r.bNonMatchingJunk = 0 := by
    unfold FuzzyResult.bNonMatchingJunk FuzzyResult.bBlocks
    rw [hne]
    have : r.b = s := by subst hr; rfl
    rw [this]
    simp [FuzzyResult.countNonMatchingJunk, invertRanges, hs]
  have hm : r.matchCount = s.length := by subst hr; simp [FuzzyResult.matchCount]
  have hb : r.b = s := by subst hr; rfl
  have h1 : r.ratioTo (s.length : Int) = 1 := by
    unfold FuzzyResult.ratioTo
    rw [if_neg (by omega), hm, Rat.intCast_natCast]
    rw [Rat.div_def]
    apply Rat.mul_inv_cancel
    simpa using hl
  unfold FuzzyResult.bGapRatio FuzzyResult.rangeLen
  simp only [ea, ja, jb, hm, hb]
  rw [show ((s.length : Int) + (((p + s.length : Nat) : Int) - (p : Int) - (s.length : Int)) - ((0 : Nat) : Int) - ((0 : Nat) : Int)) =
    (s.length : Int) by omega]
  exact h1

theorem shortStep_whole {env : CoreEnv} {cfg : CoreCfg} {s1 : Str} (hne : s1 ≠ []) {st : FindState} (hst : st.start = 0)
    {choice : CoreSeq} {cur : Str} {p : Nat} (hp : p + s1.length ≤ cur.length)
    (hb : (blocksOf env cur s1).filter (fun x => x.size ≠ 0) = [⟨p, 0, s1.length⟩])
    (h1 : cfg.choiceFilter.bScore ≤ 1) (h2 : cfg.choiceFilter.minCount ≤ s1.length) :
    shortStep env cfg s1 st choice cur none =
      .ok ⟨[⟨choice, (0, s1.length), (p, p + s1.length)⟩], { st with matched := choice.position :: st.matched }, true⟩ := by
  have hnon : (coreFuzzyMatch env cur s1).nonEmpty = [⟨p, 0, s1.length⟩] := hb
  have hr : (coreFuzzyMatch env cur s1).aRange = (p, p + s1.length) := by
    unfold FuzzyResult.aRange
    rw [hnon]
    simp
  have hsplit : (coreFuzzyMatch env cur s1).aSplitAt env.cc cur.length =
      (⟨cur, s1, [⟨p, 0, s1.length⟩], coreIsJunk env.cc⟩, ⟨[], s1, [], coreIsJunk env.cc⟩) := by
    unfold FuzzyResult.aSplitAt
    simp only
    rw [if_pos (by rw [hr]; simp; omega), hnon]
    show ((⟨cur.take cur.length, _, _, _⟩ : FuzzyResult), (⟨cur.drop cur.length, _, _, _⟩ : FuzzyResult)) = _
    rw [List.take_length, List.drop_length]
    rfl
  have hfm : (⟨cur, s1, [⟨p, 0, s1.length⟩], coreIsJunk env.cc⟩ : FuzzyResult).nonEmpty = [⟨p, 0, s1.length⟩] := by
    simp [FuzzyResult.nonEmpty, hne]
  have hhas : (⟨cur, s1, [⟨p, 0, s1.length⟩], coreIsJunk env.cc⟩ : FuzzyResult).hasMatch = true := by
    simp [FuzzyResult.hasMatch, hfm]
  have hcheck : cfg.choiceFilter.check ⟨cur, s1, [⟨p, 0, s1.length⟩], coreIsJunk env.cc⟩ none st.previous = true := by
    unfold CoreFilter.check
    rw [bGapRatio_whole cur s1 hne]
    simp [FuzzyResult.matchCount, h1, h2]
  have ha : (⟨cur, s1, [⟨p, 0, s1.length⟩], coreIsJunk env.cc⟩ : FuzzyResult).aRange = (p, p + s1.length) := by
    unfold FuzzyResult.aRange
    rw [hfm]
    simp
  have hb' : (⟨cur, s1, [⟨p, 0, s1.length⟩], coreIsJunk env.cc⟩ : FuzzyResult).bRange = (0, s1.length) := by
    unfold FuzzyResult.bRange
    rw [hfm]
    simp
  unfold shortStep
  rw [hst, List.drop_zero]
  simp only [choiceStr, hsplit, hhas, hcheck, Bool.true_or, Bool.and_self, if_true, ha, hb']
  rw [if_neg (by rw [nonEmpty_nil_of _ _ _ rfl]; simp)]
  simp [offsetRange]

theorem shortStep_nothing {env : CoreEnv} {cfg : CoreCfg} {s1 : Str} {st : FindState} (hst : st.start = 0)
    {choice : CoreSeq} {cur : Str} (hb : (blocksOf env cur s1).filter (fun x => x.size ≠ 0) = []) :
    shortStep env cfg s1 st choice cur none = .ok ⟨[], st, false⟩ := by
  have hnon : (coreFuzzyMatch env cur s1).nonEmpty = [] := hb
  have hsplit : (coreFuzzyMatch env cur s1).aSplitAt env.cc cur.length =
      (⟨cur.take cur.length, s1, [], coreIsJunk env.cc⟩, ⟨cur.drop cur.length, s1, [], coreIsJunk env.cc⟩) := by
    unfold FuzzyResult.aSplitAt
    simp only [hnon, List.isEmpty_nil, Bool.true_or, if_true]
    rfl
  unfold shortStep
  rw [hst, List.drop_zero]
  simp only [choiceStr, hsplit]
  rw [nonEmpty_nil_of _ _ _ rfl]
  rfl

theorem subTagLoop_exact (cfg : CoreCfg) (name : Str) (hn : name ≠ []) (is : List Nat) :
    ∀ (d : Doc) (first : Bool), is.Nodup → ∀ j,
      (j ∈ is → (subTagLoop cfg name d first is).getSubTag j =
        newTag cfg.useBeginPrefix (first && decide (is.head? = some j)) name) ∧
      (j ∉ is → (subTagLoop cfg name d first is).getSubTag j = d.getSubTag j) := by
  induction is with
  | nil => intro d first _ j; exact ⟨by simp, fun _ => rfl⟩
  | cons i is ih =>
    intro d first hnd j
    have hnd' := List.nodup_cons.1 hnd
    have h := ih (d.setSubTag i (addTagPrefix (some name) (corePrefix cfg first))) false hnd'.2 j
    unfold subTagLoop
    refine ⟨fun hj => ?_, fun hj => ?_⟩
    · by_cases hj' : j ∈ is
      · have hij : i ≠ j := fun e => hnd'.1 (e ▸ hj')
        rw [h.1 hj']
        simp [hij]
      · have hij : j = i := by
          rcases List.mem_cons.1 hj with h' | h'
          · exact h'
          · exact absurd h' hj'
        subst hij
        rw [h.2 hj', getSubTag_setSubTag, if_pos rfl]
        rw [addTagPrefix_new]
        · simp
        · exact hn
    · simp only [List.mem_cons, not_or] at hj
      rw [h.2 hj.2, getSubTag_setSubTag, if_neg hj.1]

theorem applySubs_placed (env : CoreEnv) (cfg : CoreCfg) (h1 : cfg.choiceFilter.bScore ≤ 1) (tokens : List Nat)
    (hnd : tokens.Nodup) (text : Nat → Str) (subs : List CoreSub) (place : CoreSub → Option (Nat × Nat))
    (hplace : ∀ s ∈ subs, SubPlaced env cfg (joinStr [' '] (tokens.map text)) s (place s)) :
    ∀ (d : Doc) (matched : List Nat), (∀ q ∈ matched, q = 0) → (text = fun i => normaliseStr env.lower (d.getText env.cc i)) →
    ∃ d', applySubs env cfg ⟨tokens, 0⟩ d matched subs = .ok d' ∧ ∀ j, d'.getSubTag j =
      match (subs.filter (fun s => decide (j ∈ tokensAt text tokens (place s)))).getLast? with
      | none => d.getSubTag j
      | some s => newTag cfg.useBeginPrefix (decide ((tokensAt text tokens (place s)).head? = some j)) s.name := by
  induction subs with
  | nil => exact fun d _ _ _ => ⟨d, rfl, fun _ => rfl⟩
  | cons s ss ih =>
    intro d matched hm htext
    obtain ⟨hn, v, hv, hpl⟩ := hplace s List.mem_cons_self
    have hcur : coreSeqText env (normaliseStr env.lower) d ⟨tokens, 0⟩ = joinStr [' '] (tokens.map text) := by
      rw [htext]; rfl
    have hclose : isCloseToAny matched cfg.maxGap ⟨tokens, 0⟩ = true := by
      cases matched with
      | nil => simp [isCloseToAny]
      | cons q qs => simp [isCloseToAny, natDist, hm q List.mem_cons_self]
    have hfind : ∃ found matched' used,
        findNext env cfg true (coreSeqText env (normaliseStr env.lower) d) s.name s.bonding [(⟨tokens, 0⟩, none)] matched
          (s.value.map (normaliseStr env.lower)) = .ok (found, matched', used) ∧ (∀ q ∈ matched', q = 0) ∧
        found.flatMap (fun m => coreTokensBetween env (normaliseStr env.lower) d m.range2 m.seq) =
          tokensAt text tokens (place s) := by
      rw [hv, TargetValue.map, findNext]
      unfold findLoop
      rw [hcur]
      simp only [hclose, Bool.not_true, Bool.false_eq_true, if_false]
      unfold choiceStep
      simp only [Bool.true_or, if_true, Option.map_none]
      rcases hp : place s with _ | r
      · rw [hp] at hpl
        by_cases he : (joinStr [' '] (tokens.map text)).isEmpty = true
        · rw [if_pos he]
          exact ⟨_, _, _, rfl, hm, rfl⟩
        · rw [if_neg he, shortStep_nothing rfl hpl]
          exact ⟨_, _, _, rfl, hm, rfl⟩
      · rw [hp] at hpl
        obtain ⟨hne, hc, hr, hle, hb⟩ := hpl
        have hlen := List.length_pos_iff.2 hne
        rw [if_neg (by
          intro h
          rw [List.isEmpty_iff] at h
          rw [h] at hle
          simp only [List.length_nil] at hle
          omega), shortStep_whole hne rfl (by omega) hb h1 hc]
        refine ⟨_, _, _, rfl, ?_, ?_⟩
        · intro q hq
          rcases List.mem_cons.1 hq with rfl | hq
          · rfl
          · exact hm q hq
        · simp only [List.flatMap_cons, List.flatMap_nil, List.append_nil, coreTokensBetween_eq]
          rw [← htext, ← hr]
          rfl
    obtain ⟨found, matched', used, hfind, hm', htoks⟩ := hfind
    have hnd' : (tokensAt text tokens (place s)).Nodup := by
      unfold tokensAt
      split
      · exact List.nodup_nil
      · exact hnd.sublist (tokensIn_sublist _ _ _)
    have hsame := (subTagLoop_spec cfg s.name hn (tokensAt text tokens (place s)) d true).1
    obtain ⟨d', hd', hall⟩ := ih (fun x hx => hplace x (List.mem_cons_of_mem _ hx))
      (subTagLoop cfg s.name d true (tokensAt text tokens (place s))) matched' hm' 
      (htext.trans (funext fun i => by rw [getText_sameBut hsame]))
    refine ⟨d', ?_, fun j => ?_⟩
    · rw [applySubs, hfind]
      simp only [htoks]
      exact hd'
    · rw [hall j]
      have hex := subTagLoop_exact cfg s.name hn _ d true hnd' j
      rw [Bool.true_and] at hex
      by_cases hj : j ∈ tokensAt text tokens (place s)
      · rw [List.filter_cons_of_pos (by simpa using hj), List.getLast?_cons]
        cases (ss.filter (fun s => decide (j ∈ tokensAt text tokens (place s)))).getLast? with
        | none => exact hex.1 hj
        | some x => rfl
      · rw [List.filter_cons_of_neg (by simpa using hj)]
        cases (ss.filter (fun s => decide (j ∈ tokensAt text tokens (place s)))).getLast? with
        | none => exact hex.2 hj
        | some x => rfl

end Verif
