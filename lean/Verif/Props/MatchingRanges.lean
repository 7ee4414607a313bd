/-
Properties of finding the values of target annotations (annotation/simple_matching_annotator.py):
C63 what is found, C64 the regular expression before a match, C65 all of a match is tagged,
C66 sub annotations.
-/
import Verif.Lemmas.ExactMatch
import Verif.Props.SimpleMatching

namespace Verif

/-! ### C63 Finding a value -/

/-- A value is searched for first as it is and then with its alternative spellings in order; the result is
that of the first search which finds anything. -/
theorem C63_first_spelling (env : MatchEnv) (cfg : MatchCfg) (maxChunks : Int) (alternatives : Dict (List Str))
    (text v : Str) :
    (∀ (i : Nat) s, (v :: alternatives.getD v [])[i]? = some s →
      (∀ (j : Nat) s', j < i → (v :: alternatives.getD v [])[j]? = some s' → findChunks env cfg maxChunks text s' = .ok []) →
      findChunks env cfg maxChunks text s ≠ .ok [] →
      findWithAlternatives env cfg maxChunks alternatives text v = findChunks env cfg maxChunks text s) ∧
    ((∀ s ∈ v :: alternatives.getD v [], findChunks env cfg maxChunks text s = .ok []) →
      findWithAlternatives env cfg maxChunks alternatives text v = .ok []) := by
  unfold findWithAlternatives
  generalize v :: alternatives.getD v [] = l
  constructor
  · induction l with
    | nil => intro i s h; simp at h
    | cons n l ih =>
      intro i s hs hb hne
      cases i with
      | zero =>
        cases hs
        unfold findFirst
        cases hf : findChunks env cfg maxChunks text n with
        | error e => rfl
        | ok rs =>
          cases rs with
          | nil => exact absurd hf hne
          | cons r rs => rfl
      | succ i =>
        unfold findFirst
        rw [hb 0 n (by omega) rfl]
        exact ih i s hs (fun j s' hj h => hb (j + 1) s' (by omega) h) hne
  · intro h
    induction l with
    | nil => rfl
    | cons n l ih =>
      unfold findFirst
      rw [h n List.mem_cons_self]
      exact ih (fun s hs => h s (List.mem_cons_of_mem _ hs))

/-- Values which are too short are not searched for. -/
theorem C63_too_short (env : MatchEnv) (cfg : MatchCfg) (maxChunks : Int) (text v : Str)
    (h : v.length < cfg.minTokenLength) : findChunks env cfg maxChunks text v = .ok [] := by
  unfold findChunks
  rw [if_pos h]

theorem replaceAll_char (c c' : Char) (s : Str) : replaceAll [c] [c'] s = s.map (fun x => if x = c then c' else x) := by
  induction s with
  | nil => rw [replaceAll]; rfl
  | cons x s ih =>
    rw [replaceAll, List.map_cons, ih]
    by_cases h : x = c
    · subst h; rw [if_pos (by simp [startsWith]), if_pos rfl]; simp [ih]
    · rw [if_neg (by simp [startsWith, Ne.symm h]), if_neg h]

/-- The text in which a value is searched for: in the case of a short value, lines are joined by spaces. -/
def haystackOf (cfg : MatchCfg) (text target : Str) : Str :=
  if target.length < cfg.exactWordMatchThreshold then replaceAll ['\n'] [' '] text else text

theorem haystackOf_length (cfg : MatchCfg) (text target : Str) : (haystackOf cfg text target).length = text.length := by
  unfold haystackOf
  split
  · rw [replaceAll_char, List.length_map]
  · rfl

theorem rangeChunks_within (env : SearchEnv) (hg : Spec.GoodMatchers env) (hm : env.maxChunks ≤ 1) (ht : 0 < env.threshold)
    (haystack needle : Str) :
    ∃ r, searchRangeChunks env haystack needle 0 = .ok r ∧
      ∀ rs, r = some rs → ∃ x, rs = [x] ∧ x.1 < x.2 ∧ x.2 ≤ haystack.length := by
  obtain ⟨r, e, h⟩ := Props.C61_aux env hg hm haystack needle 0 (Nat.zero_le _)
  unfold searchRangeChunks
  rw [e]
  cases r with
  | none => exact ⟨none, rfl, by intro rs h; cases h⟩
  | some ms =>
    obtain ⟨m, rfl, h1, h2, h3, ho, hin, _⟩ := h ms rfl
    refine ⟨some [m.aRange], rfl, ?_⟩
    intro rs hrs
    cases hrs
    refine ⟨m.aRange, rfl, ?_⟩
    obtain ⟨_, hall⟩ := searchChunks_start env ht haystack needle 0 [m] e
    obtain ⟨_, _, _, ⟨x, hx, h0⟩, _⟩ := hall m List.mem_cons_self
    have hx' : x ∈ m.nonEmpty := List.mem_filter.2 ⟨hx, by simpa using h0⟩
    unfold FuzzyResult.aRange
    have hne : m.nonEmpty ≠ [] := List.ne_nil_of_mem hx'
    rw [List.head?_eq_some_head hne, List.getLast?_eq_some_getLast hne]
    simp only []
    have hy := List.mem_filter.1 (List.getLast_mem hne)
    have hz := List.mem_filter.1 (List.head_mem hne)
    have hy0 : (m.nonEmpty.getLast hne).size ≠ 0 := by simpa using hy.2
    refine ⟨?_, (hin _ hy.1).2⟩
    have ho' : Spec.Ordered (Spec.aPart m.nonEmpty) := ho.filter_aPart _
    have hle : ∀ l : List Block, (hl : l ≠ []) → Spec.Ordered (Spec.aPart l) → (l.head hl).a ≤ (l.getLast hl).a := by
      intro l hl ho
      cases l with
      | nil => exact absurd rfl hl
      | cons y ys =>
        simp only [List.head_cons]
        cases ys with
        | nil => simp
        | cons z zs =>
          rw [List.getLast_cons (by simp)]
          have hp := ho.next
          unfold Spec.aPart at hp
          rw [List.map_cons, List.pairwise_cons] at hp
          have := hp.1 (((z :: zs).getLast (by simp)).a, ((z :: zs).getLast (by simp)).a + ((z :: zs).getLast (by simp)).size)
            (List.mem_map.2 ⟨_, List.getLast_mem (by simp), rfl⟩)
          simp only [] at this
          omega
    have := hle _ hne ho'
    omega

theorem findChunks_eq (env : MatchEnv) (cfg : MatchCfg) (maxChunks : Int) (text v : Str) (h : ¬ v.length < cfg.minTokenLength) :
    (∀ e, searchRangeChunks (searchEnv env cfg maxChunks) (haystackOf cfg text (normaliseStr env.lower v))
        (normaliseStr env.lower v) 0 = .error e → findChunks env cfg maxChunks text v = .error e) ∧
    (∀ r rs, searchRangeChunks (searchEnv env cfg maxChunks) (haystackOf cfg text (normaliseStr env.lower v))
        (normaliseStr env.lower v) 0 = .ok (some (r :: rs)) → findChunks env cfg maxChunks text v = .ok (r :: rs)) ∧
    (∀ x, (x = none ∨ x = some []) → searchRangeChunks (searchEnv env cfg maxChunks) (haystackOf cfg text (normaliseStr env.lower v))
        (normaliseStr env.lower v) 0 = .ok x →
      (∀ rs, searchRangeChunks (searchEnv env cfg maxChunks) (haystackOf cfg text (normaliseStr env.lower v))
        (splitAndJoinWithSpace env.cc (normaliseStr env.lower v)) 0 = .ok rs →
        findChunks env cfg maxChunks text v = .ok (rs.getD []))) := by
  unfold haystackOf findChunks
  rw [if_neg h]
  simp only []
  refine ⟨?_, ?_, ?_⟩
  · intro e he; rw [he]
  · intro r rs he; rw [he]
  · intro x hx he rs hrs
    rw [he, hrs]
    rcases hx with rfl | rfl <;> rfl

/-- With sound matchers the search for a single chunk does not fail, and finds nothing or one range which
lies in the text and is not empty. -/
theorem C63_within (env : MatchEnv) (cfg : MatchCfg) (hg : Spec.GoodMatchers (searchEnv env cfg 1)) (ht : 0 < cfg.threshold)
    (text v : Str) :
    findChunks env cfg 1 text v = .ok [] ∨
    ∃ r, findChunks env cfg 1 text v = .ok [r] ∧ r.1 < r.2 ∧ r.2 ≤ text.length := by
  by_cases hs : v.length < cfg.minTokenLength
  · exact .inl (C63_too_short env cfg 1 text v hs)
  · have hw := rangeChunks_within (searchEnv env cfg 1) hg (Int.le_refl 1) ht
      (haystackOf cfg text (normaliseStr env.lower v))
    rw [haystackOf_length] at hw
    obtain ⟨_, h2, h3⟩ := findChunks_eq env cfg 1 text v hs
    obtain ⟨r, e, h⟩ := hw (normaliseStr env.lower v)
    cases r with
    | some rs =>
      obtain ⟨x, rfl, hx⟩ := h rs rfl
      exact .inr ⟨x, h2 x [] e, hx⟩
    | none =>
      obtain ⟨r', e', h'⟩ := hw (splitAndJoinWithSpace env.cc (normaliseStr env.lower v))
      rw [h3 none (.inl rfl) e r' e']
      cases r' with
      | none => exact .inl rfl
      | some rs =>
        obtain ⟨x, rfl, hx⟩ := h' rs rfl
        exact .inr ⟨x, rfl, hx⟩

theorem fuzzySearchChunks_ne_nil (env : SearchEnv) (haystack needle : Str) (start : Nat) :
    fuzzySearchChunks env haystack needle start ≠ .ok (some []) := by
  intro h
  unfold fuzzySearchChunks at h
  simp only [] at h
  split at h
  · split at h
    · cases h
    · split at h
      · cases h
      · cases h
  · split at h
    · cases h
    · cases h
    · split at h
      · cases h
      · next chunks hc =>
        have h' := Option.some.inj (Except.ok.inj h)
        have h0 := List.map_eq_nil_iff.1 h'
        subst h0
        rw [List.mapM_cons] at hc
        simp only [bind, Except.bind, pure, Except.pure] at hc
        split at hc
        · cases hc
        · split at hc
          · cases hc
          · cases hc

theorem searchChunks_exact (env : SearchEnv) (hg : Spec.GoodMatchers env) (hl : Spec.FindsLiteral env.lsm)
    (hd : Spec.FindsLiteral env.diff) (ht : env.threshold ≤ 1)
    (hr : ∀ q, 0 ≤ q → 0 ≤ env.rnd q) (haystack needle : Str)
    (h : (needle ≠ [] ∧ min haystack.length needle.length < env.exactWordMatchThreshold ∧
        wordsOf wordSeparators needle <:+: wordsOf wordSeparators haystack) ∨
      (Spec.noSpace needle ≠ [] ∧ ¬ min haystack.length needle.length < env.exactWordMatchThreshold ∧
        Spec.noSpace needle <:+: Spec.noSpace haystack)) :
    fuzzySearchChunks env haystack needle 0 ≠ .ok none := by
  intro hn
  unfold fuzzySearchChunks at hn
  simp only [List.drop_zero] at hn
  rcases h with ⟨hne, h1, h2⟩ | ⟨hne, h1, h2⟩
  · rw [if_pos h1] at hn
    obtain ⟨q, e⟩ := wordBlocks_exact env.diff hg.diff hd haystack needle hne h2
    rw [e] at hn
    simp only [] at hn
    have hs := exact_score haystack needle (q + 0) [] env.isJunk hne (by intro z hz; cases hz)
    rw [show offsetBlocks 0 0 [⟨q, 0, needle.length⟩] = [⟨q + 0, 0, needle.length⟩] from rfl, hs,
      if_neg (Rat.not_lt.2 ht)] at hn
    cases hn
  · rw [if_neg h1, view_space, view_space] at hn
    obtain ⟨c, cs, e⟩ := autoStrided_exact env hl ht hr _ _ hne h2
    rw [e] at hn
    simp only [] at hn
    split at hn
    · cases hn
    · cases hn

/-- A value which occurs in the text literally is found: a short value as words (where lines are joined by
spaces), any other value up to white space. -/
theorem C63_literal_found (env : MatchEnv) (cfg : MatchCfg) (hg : Spec.GoodMatchers (searchEnv env cfg 1))
    (hl : Spec.FindsLiteral env.lsm) (hd : Spec.FindsLiteral env.diff) (hr : ∀ q, 0 ≤ q → 0 ≤ env.rnd q)
    (ht0 : 0 < cfg.threshold) (ht : cfg.threshold ≤ 1) (text v : Str) (hlen : cfg.minTokenLength ≤ v.length)
    (h : let w := normaliseStr env.lower v
      (w ≠ [] ∧ w.length < cfg.exactWordMatchThreshold ∧
        Spec.WordIn wordSeparators w (text.map (fun c => if c = '\n' then ' ' else c))) ∨
      (cfg.exactWordMatchThreshold ≤ w.length ∧ Spec.noSpace w ≠ [] ∧ cfg.exactWordMatchThreshold ≤ text.length ∧
        Spec.noSpace w <:+: Spec.noSpace text)) :
    ∃ r, findChunks env cfg 1 text v = .ok [r] ∧ r.1 < r.2 ∧ r.2 ≤ text.length := by
  have hs : ¬ v.length < cfg.minTokenLength := by omega
  obtain ⟨_, h2, _⟩ := findChunks_eq env cfg 1 text v hs
  obtain ⟨r, e, hw⟩ := rangeChunks_within (searchEnv env cfg 1) hg (Int.le_refl 1) ht0
      (haystackOf cfg text (normaliseStr env.lower v)) (normaliseStr env.lower v)
  rw [haystackOf_length] at hw
  cases r with
  | some rs =>
    obtain ⟨x, rfl, hx⟩ := hw rs rfl
    exact ⟨x, h2 x [] e, hx⟩
  | none =>
    exfalso
    refine searchChunks_exact (searchEnv env cfg 1) hg hl hd ht hr
      (haystackOf cfg text (normaliseStr env.lower v)) (normaliseStr env.lower v) ?_ ?_
    · rw [haystackOf_length]
      simp only [] at h
      rcases h with ⟨h1, h3, h4⟩ | ⟨h1, h3, h4, h5⟩
      · refine .inl ⟨h1, ?_, ?_⟩
        · simp only [searchEnv]; omega
        · apply words_infix
          unfold haystackOf
          rw [if_pos h3, replaceAll_char]
          exact h4
      · refine .inr ⟨h3, ?_, ?_⟩
        · simp only [searchEnv]; omega
        · unfold haystackOf
          rw [if_neg (by omega)]
          exact h5
    · unfold searchRangeChunks at e
      split at e
      · cases e
      · assumption
      · cases e

/-- The same with any number of chunks: something is found (or the search fails). -/
theorem C63_literal_chunks (env : MatchEnv) (cfg : MatchCfg) (hg : Spec.GoodMatchers (searchEnv env cfg 1))
    (hl : Spec.FindsLiteral env.lsm) (hd : Spec.FindsLiteral env.diff) (hr : ∀ q, 0 ≤ q → 0 ≤ env.rnd q)
    (ht : cfg.threshold ≤ 1) (maxChunks : Int) (text v : Str) (hlen : cfg.minTokenLength ≤ v.length)
    (h : let w := normaliseStr env.lower v
      (w ≠ [] ∧ w.length < cfg.exactWordMatchThreshold ∧
        Spec.WordIn wordSeparators w (text.map (fun c => if c = '\n' then ' ' else c))) ∨
      (cfg.exactWordMatchThreshold ≤ w.length ∧ Spec.noSpace w ≠ [] ∧ cfg.exactWordMatchThreshold ≤ text.length ∧
        Spec.noSpace w <:+: Spec.noSpace text)) :
    findChunks env cfg maxChunks text v ≠ .ok [] := by
  have hs : ¬ v.length < cfg.minTokenLength := by omega
  obtain ⟨h1, h2, _⟩ := findChunks_eq env cfg maxChunks text v hs
  have hne := searchChunks_exact (searchEnv env cfg maxChunks) ⟨hg.lsm, hg.diff⟩ hl hd ht hr
    (haystackOf cfg text (normaliseStr env.lower v)) (normaliseStr env.lower v) (by
      rw [haystackOf_length]
      simp only [] at h
      rcases h with ⟨h1, h3, h4⟩ | ⟨h1, h3, h4, h5⟩
      · refine .inl ⟨h1, ?_, ?_⟩
        · simp only [searchEnv]; omega
        · apply words_infix
          unfold haystackOf
          rw [if_pos h3, replaceAll_char]
          exact h4
      · refine .inr ⟨h3, ?_, ?_⟩
        · simp only [searchEnv]; omega
        · unfold haystackOf
          rw [if_neg (by omega)]
          exact h5)
  cases e : searchRangeChunks (searchEnv env cfg maxChunks) (haystackOf cfg text (normaliseStr env.lower v))
      (normaliseStr env.lower v) 0 with
  | error x => rw [h1 x e]; simp
  | ok rs =>
    unfold searchRangeChunks at e
    split at e
    · cases e
    · next h0 => exact absurd h0 hne
    · next ms hms =>
      have e' := Except.ok.inj e
      cases ms with
      | nil => exact absurd hms (fuzzySearchChunks_ne_nil _ _ _ _)
      | cons m ms =>
        rw [h2 m.aRange (ms.map FuzzyResult.aRange) (by unfold searchRangeChunks; rw [hms]; rfl)]
        simp

/-- So no value is left over which occurs literally in the text of the tokens without tag (for target
annotations with one value). -/
theorem C63_nothing_missed (env : MatchEnv) (cfg : MatchCfg) (hg : Spec.GoodMatchers (searchEnv env cfg 1))
    (hl : Spec.FindsLiteral env.lsm) (hd : Spec.FindsLiteral env.diff) (hr : ∀ q, 0 ≤ q → 0 ≤ env.rnd q)
    (ht : cfg.threshold ≤ 1) (targets left : List Target) (n : Nat) (d d' : Doc)
    (h : annotateLoop env cfg n d targets = .ok (some (d', left))) (t : Target) (htl : t ∈ left) (v : Str)
    (hv : t.value = .one v) (hlen : cfg.minTokenLength ≤ v.length) :
    ∃ seqs, seqs.flatten = Spec.untagged d' d'.nonSpaceTokens ∧
      let text := seqsText (matchSeqEnv env) d' seqs
      let w := normaliseStr env.lower v
      (w ≠ [] → w.length < cfg.exactWordMatchThreshold →
        ¬ Spec.WordIn wordSeparators w (text.map (fun c => if c = '\n' then ' ' else c))) ∧
      (cfg.exactWordMatchThreshold ≤ w.length → Spec.noSpace w ≠ [] → cfg.exactWordMatchThreshold ≤ text.length →
        ¬ Spec.noSpace w <:+: Spec.noSpace text) := by
  obtain ⟨_, seqs, hs, hm⟩ := C21_left_over env cfg targets left n d d' h
  refine ⟨seqs, hs, ?_⟩
  have hm := hm t htl
  unfold matchingRanges at hm
  simp only [hv] at hm
  have key : ¬ findChunks env cfg (cfg.tagConfig t.name).maxChunks (seqsText (matchSeqEnv env) d' seqs) v ≠ .ok [] := by
    intro hf
    have := (C63_first_spelling env cfg (cfg.tagConfig t.name).maxChunks (cfg.tagConfig t.name).alternativeSpellings
      (seqsText (matchSeqEnv env) d' seqs) v).1 0 v rfl (by intro j s hj; omega) hf
    rw [this] at hm
    exact hf hm
  constructor
  · intro h1 h2 h3
    exact key (C63_literal_chunks env cfg hg hl hd hr ht _ (seqsText (matchSeqEnv env) d' seqs) v hlen (.inl ⟨h1, h2, h3⟩))
  · intro h1 h2 h3 h4
    exact key (C63_literal_chunks env cfg hg hl hd hr ht _ (seqsText (matchSeqEnv env) d' seqs) v hlen (.inr ⟨h1, h2, h3, h4⟩))

/-- The search for a list of values: nothing is found if none of the values is found; otherwise there is one
range, which lies in the text, begins where one of the values found begins and ends where one ends. -/
theorem C63_list (env : MatchEnv) (cfg : MatchCfg) (hg : Spec.GoodMatchers (searchEnv env cfg 1)) (ht : 0 < cfg.threshold)
    (text : Str) (t : Target) (vs : List Str) (hv : t.value = .many vs) :
    let found := fun v r => findWithAlternatives env cfg 1 (cfg.tagConfig t.name).alternativeSpellings text v = .ok [r]
    (matchingRanges env cfg text t = .ok [] ∧ ∀ v ∈ vs, ∀ r, ¬ found v r) ∨
    ∃ m, matchingRanges env cfg text t = .ok [m] ∧ m.1 < m.2 ∧ m.2 ≤ text.length ∧
      (∃ v ∈ vs, ∃ r, found v r ∧ m.1 = r.1) ∧ ∃ v ∈ vs, ∃ r, found v r ∧ m.2 = r.2 := by
  intro found
  have single : ∀ v, findWithAlternatives env cfg 1 (cfg.tagConfig t.name).alternativeSpellings text v = .ok [] ∨
      ∃ r, found v r ∧ r.1 < r.2 ∧ r.2 ≤ text.length := by
    intro v
    simp only [found]
    unfold findWithAlternatives
    generalize v :: (cfg.tagConfig t.name).alternativeSpellings.getD v [] = l
    induction l with
    | nil => exact .inl rfl
    | cons n l ih =>
      unfold findFirst
      rcases C63_within env cfg hg ht text n with e | ⟨r, e, h⟩
      · rw [e]; exact ih
      · rw [e]; exact .inr ⟨r, rfl, h⟩
  have many : ∀ vs : List Str, ∃ rs, findMany env cfg (cfg.tagConfig t.name).alternativeSpellings text vs = .ok rs ∧
      (∀ r ∈ rs, (r.1 < r.2 ∧ r.2 ≤ text.length) ∧ ∃ v ∈ vs, found v r) ∧ (rs = [] → ∀ v ∈ vs, ∀ r, ¬ found v r) := by
    intro vs
    induction vs with
    | nil => exact ⟨[], rfl, by simp, by simp⟩
    | cons v vs ih =>
      obtain ⟨rs, e, h1, h2⟩ := ih
      unfold findMany
      rcases single v with e' | ⟨r, e', h⟩
      · rw [e', e]
        refine ⟨rs, rfl, ?_, ?_⟩
        · intro r hr
          obtain ⟨a, v', hv', b⟩ := h1 r hr
          exact ⟨a, v', List.mem_cons_of_mem _ hv', b⟩
        · intro hrs v' hv' r hf
          rcases List.mem_cons.1 hv' with rfl | hv'
          · simp only [found] at hf; rw [e'] at hf; cases hf
          · exact h2 hrs v' hv' r hf
      · have e'' := e'
        simp only [found] at e''
        rw [e'', e]
        refine ⟨r :: rs, rfl, ?_, by simp⟩
        intro x hx
        rcases List.mem_cons.1 hx with rfl | hx
        · exact ⟨h, v, List.mem_cons_self, e'⟩
        · obtain ⟨a, v', hv', b⟩ := h1 x hx
          exact ⟨a, v', List.mem_cons_of_mem _ hv', b⟩
  obtain ⟨rs, e, h1, h2⟩ := many vs
  unfold matchingRanges
  simp only [hv]
  rw [e]
  cases rs with
  | nil => exact .inl ⟨rfl, h2 rfl⟩
  | cons r rs =>
    right
    obtain ⟨before, sel, after, uns, es, hp, _, hne, _⟩ := C57_select (r :: rs) (by simp)
      (fun x hx => Nat.le_of_lt (h1 x hx).1.1)
    simp only []
    rw [es]
    simp only []
    obtain ⟨s, e, em, hall, ⟨x, hx, hxs⟩, ⟨y, hy, hye⟩⟩ := C57_merge sel (hne sel (by simp)).1
    rw [em]
    simp only []
    have hin : ∀ z ∈ sel, z ∈ r :: rs := by
      intro z hz
      exact hp.subset (List.mem_flatten.2 ⟨sel, by simp, hz⟩)
    obtain ⟨hx1, vx, hvx, fx⟩ := h1 x (hin x hx)
    obtain ⟨hy1, vy, hvy, fy⟩ := h1 y (hin y hy)
    have := hall x hx
    exact ⟨(s, e), rfl, by simp only []; omega, by simp only []; omega, ⟨vx, hvx, x, fx, hxs.symm⟩, ⟨vy, hvy, y, fy, hye.symm⟩⟩

/-! ### C64 The text before a match -/

/-- Applying the regular expression for the text before a match keeps the end of the range and moves its
start to where the expression matches in the text before it, if it is configured and matches. -/
theorem C64_prefix (env : MatchEnv) (cfg : MatchCfg) (text : Str) (r : Nat × Nat) (t : Target) :
    (r.1 = 0 ∨ truthy (cfg.tagConfig t.name).matchPrefixRegex = false → applyPrefixRegex env cfg text r t = .ok r) ∧
    ∀ regex, r.1 ≠ 0 → regex ≠ [] → (cfg.tagConfig t.name).matchPrefixRegex = some regex →
      let pattern := resolveRegex env regex (subTagPlaceholders t.subs)
      (∀ k, env.reSearch pattern (text.take r.1) = .ok (some k) → applyPrefixRegex env cfg text r t = .ok (k, r.2)) ∧
      (env.reSearch pattern (text.take r.1) = .ok none → applyPrefixRegex env cfg text r t = .ok r) := by
  unfold applyPrefixRegex
  simp only []
  constructor
  · intro h
    rw [if_neg]
    rintro ⟨h1, h2⟩
    rcases h with h | h
    · omega
    · rw [h] at h2; cases h2
  · intro regex h0 hne hr
    rw [hr]
    have : truthy (some regex) = true := by rw [truthy_some]; exact hne
    rw [if_pos ⟨by omega, this⟩]
    simp only [Option.getD_some]
    constructor
    · intro k hk; rw [hk]
    · intro hk; rw [hk]

theorem takeWhile_append_stop {p : Char → Bool} {n : Str} {c : Char} {s : Str} (hn : ∀ x ∈ n, p x = true) (hc : p c = false) :
    (n ++ c :: s).takeWhile p = n ∧ (n ++ c :: s).dropWhile p = c :: s := by
  induction n with
  | nil => simp [hc]
  | cons x n ih =>
    have := ih (fun y hy => hn y (List.mem_cons_of_mem _ hy))
    simp [hn x List.mem_cons_self, this.1, this.2]

theorem resolve_pieces (f : Str → Str) (ps : List Spec.PatternPiece) (hok : ∀ p ∈ ps, p.ok) (n : Nat)
    (hn : (ps.flatMap Spec.PatternPiece.written).length ≤ n) :
    resolvePlaceholders f n (ps.flatMap Spec.PatternPiece.written) = ps.flatMap (Spec.PatternPiece.filled f) := by
  induction ps generalizing n with
  | nil => cases n <;> rfl
  | cons p ps ih =>
    have hps : ∀ p ∈ ps, p.ok := fun q hq => hok q (List.mem_cons_of_mem _ hq)
    have hp := hok p List.mem_cons_self
    rw [List.flatMap_cons] at hn ⊢
    rw [List.flatMap_cons]
    cases p with
    | text s =>
      simp only [Spec.PatternPiece.ok] at hp
      simp only [Spec.PatternPiece.written, Spec.PatternPiece.filled] at hn ⊢
      induction s generalizing n with
      | nil => rw [List.nil_append] at hn ⊢; rw [List.nil_append]; exact ih hps n hn
      | cons c s ihs =>
        rw [List.cons_append] at hn ⊢
        rw [List.cons_append]
        cases n with
        | zero => simp at hn
        | succ n =>
          unfold resolvePlaceholders
          have hc : c ≠ '{' := fun e => hp (by rw [e]; exact List.mem_cons_self)
          simp only []
          rw [if_neg (fun h => hc h.1)]
          congr 1
          refine ihs (hok := ?_) (n := n) ?_ ?_
          · intro q hq
            rcases List.mem_cons.1 hq with rfl | hq
            · exact fun h => hp (List.mem_cons_of_mem _ h)
            · exact hps q hq
          · simp only [List.length_cons] at hn; omega
          · exact fun h => hp (List.mem_cons_of_mem _ h)
    | name m =>
      simp only [Spec.PatternPiece.ok] at hp
      simp only [Spec.PatternPiece.written, Spec.PatternPiece.filled] at hn ⊢
      rw [List.cons_append, List.cons_append, List.append_assoc, List.singleton_append] at hn ⊢
      cases n with
      | zero => simp at hn
      | succ n =>
        unfold resolvePlaceholders
        simp only []
        obtain ⟨h1, h2⟩ := takeWhile_append_stop (p := fun x => !decide (x = '}')) (n := m) (c := '}')
          (s := ps.flatMap Spec.PatternPiece.written)
          (by intro x hx; simp only [Bool.not_eq_true', decide_eq_false_iff_not]; exact fun e => hp.2 (e ▸ hx)) (by decide)
        rw [h1, h2, if_pos ⟨trivial, hp.1, by simp⟩]
        simp only [List.drop_succ_cons, List.drop_zero]
        rw [ih hps n (by simp only [List.length_cons, List.length_append] at hn; omega)]

/-- The names in braces in the pattern are replaced by the escaped values given for them, other text stays. -/
theorem C64_placeholders (env : MatchEnv) (ps : List Spec.PatternPiece) (hok : ∀ p ∈ ps, p.ok) (values : Dict Str) :
    resolveRegex env (ps.flatMap Spec.PatternPiece.written) values =
      ps.flatMap (Spec.PatternPiece.filled (fun n => env.reEscape (values.getD n c!"NOT_FOUND"))) :=
  resolve_pieces _ ps hok _ (Nat.le_refl _)

/-- The value for a name is that of the last sub annotation of this name which is not a list. -/
theorem C64_values (subs : List (Str × TargetValue)) (n : Str) :
    (∀ before after v, subs = before ++ (n, .one v) :: after → (∀ v', (n, .one v') ∉ after) →
      (subTagPlaceholders subs).get? n = some v) ∧
    ((∀ v, (n, .one v) ∉ subs) → (subTagPlaceholders subs).get? n = none) := by
  obtain ⟨f, hf, h1, h2⟩ : ∃ f : Dict Str → Str × TargetValue → Dict Str, (∀ l, subTagPlaceholders l = l.foldl f []) ∧
      (∀ d m v, f d (m, .one v) = d.set m v) ∧ ∀ d m vs, f d (m, .many vs) = d :=
    ⟨_, fun _ => rfl, fun _ _ _ => rfl, fun _ _ _ => rfl⟩
  have key : ∀ (l : List (Str × TargetValue)) (d : Dict Str), (∀ v, (n, .one v) ∉ l) →
      Dict.get? (l.foldl f d) n = d.get? n := by
    intro l
    induction l with
    | nil => intro d _; rfl
    | cons s l ih =>
      intro d h
      rw [List.foldl_cons, ih _ (fun v hv => h v (List.mem_cons_of_mem _ hv))]
      obtain ⟨m, val⟩ := s
      cases val with
      | many vs => rw [h2]
      | one v =>
        rw [h1]
        apply Dict.get?_set_ne
        intro e
        subst e
        exact h v List.mem_cons_self
  constructor
  · intro before after v e h
    rw [e, hf, List.foldl_append, List.foldl_cons, key after _ h, h1, Dict.get?_set_self]
  · intro h
    rw [hf, key subs [] h]; rfl

/-- Disagreement: quantifiers of a regular expression are taken for placeholders. -/
theorem C64_quantifier_replaced (env : MatchEnv) :
    resolveRegex env c!"[0-9]{2}" [] = c!"[0-9]" ++ env.reEscape c!"NOT_FOUND" := by
  have := C64_placeholders env [.text c!"[0-9]", .name c!"2"] (by simp [Spec.PatternPiece.ok]) []
  simpa [Spec.PatternPiece.written, Spec.PatternPiece.filled, Dict.getD, Dict.get?] using this

/-! ### C65 All of a match is tagged -/

theorem updateRange_tagged (senv : SeqEnv) (cfg : MatchCfg) (hm : cfg.mainTags = true) (seqs : List (List Nat)) (range : Nat × Nat) (name : Str)
    (hname : name ≠ []) (d : Doc) (i : Nat) (hi : i ∈ seqTokensBetween senv d range.1 range.2 seqs) :
    truthy ((updateRange senv cfg seqs range name d).getTag i) = true := by
  unfold updateRange
  simp only [hm, if_true]
  by_cases h : truthy (d.getTag i) = true
  · rw [tagTokens_other]
    · exact h
    · intro hm
      have := (List.mem_filter.1 hm).2
      rw [h] at this; cases this
  · have h' : (!truthy (d.getTag i)) = true := by simpa using h
    obtain ⟨k, e⟩ := tagTokens_some cfg name d 0 _ i
      (List.mem_filter (p := fun i => !truthy (d.getTag i)) |>.2 ⟨hi, h'⟩)
    rw [e]
    unfold indexTag indexPrefix
    split
    · split <;> rw [addTagPrefix_of_truthy hname (by decide)] <;> rfl
    · simpa [addTagPrefix, truthy_some] using hname

theorem seqTokensBetween_congr (env : SeqEnv) {d d' : Doc} (h : SameBut d d') (s e : Int) (seqs : List (List Nat)) :
    seqTokensBetween env d' s e seqs = seqTokensBetween env d s e seqs := by
  have hi : ∀ tokens, seqItems env d' tokens = seqItems env d tokens := by
    intro tokens
    unfold seqItems tokenWhitespace Doc.getText Doc.getWhitespace Tok.strippedText
    simp only [h.text, h.whitespace]
  unfold seqTokensBetween seqRanges tokensBetween seqText
  simp only [hi]

theorem seqsText_congr (env : SeqEnv) {d d' : Doc} (h : SameBut d d') (seqs : List (List Nat)) :
    seqsText env d' seqs = seqsText env d seqs := by
  have hi : ∀ tokens, seqItems env d' tokens = seqItems env d tokens := by
    intro tokens
    unfold seqItems tokenWhitespace Doc.getText Doc.getWhitespace Tok.strippedText
    simp only [h.text, h.whitespace]
  unfold seqsText seqText
  simp only [hi]

theorem applyRanges_tagged (env : MatchEnv) (senv : SeqEnv) (cfg : MatchCfg) (hm : cfg.mainTags = true) (seqs : List (List Nat)) (target : Target)
    (hname : target.name ≠ []) (rs : List (Nat × Nat)) (d0 d d' : Doc) (hs : SameBut d0 d)
    (h : applyRanges env senv cfg seqs target d rs = .ok d') :
    ∀ r ∈ rs, ∃ r', applyPrefixRegex env cfg (seqsText senv d0 seqs) r target = .ok r' ∧
      ∀ i ∈ seqTokensBetween senv d0 r'.1 r'.2 seqs, truthy (d'.getTag i) = true := by
  induction rs generalizing d with
  | nil => intro r hr; cases hr
  | cons r rs ih =>
    unfold applyRanges at h
    cases hp : applyPrefixRegex env cfg (seqsText senv d seqs) r target with
    | error e => rw [hp] at h; cases h
    | ok r' =>
      rw [hp] at h
      simp only [] at h
      generalize hb : (if cfg.useSubAnnotations then processSub env senv cfg seqs r' target.subs (updateRange senv cfg seqs r' target.name d)
        else .ok (updateRange senv cfg seqs r' target.name d)) = b at h
      cases b with
      | error e => cases h
      | ok d2 =>
        simp only [] at h
        have g1 := updateRange_grows senv cfg seqs r' target.name (target.subs.map Prod.fst) d
        have g2 : Grows cfg seqs.flatten [target.name] (target.subs.map Prod.fst) (updateRange senv cfg seqs r' target.name d) d2 := by
          split at hb
          · exact processSub_grows _ _ _ _ _ _ _ _ _ hb
          · cases hb; exact .refl _ _ _ _ _
        have g3 := applyRanges_grows env senv cfg seqs target rs d2 d' h
        have ihr := ih d2 (hs.trans (g1.same.trans g2.same)) h
        intro x hx
        rcases List.mem_cons.1 hx with rfl | hx
        · rw [seqsText_congr senv hs] at hp
          refine ⟨r', hp, ?_⟩
          intro i hi
          rw [← seqTokensBetween_congr senv hs] at hi
          have ht := updateRange_tagged senv cfg hm seqs r' target.name hname d i hi
          rcases (g2.trans g3).tag i with e | ⟨e, _⟩
          · rw [e]; exact ht
          · rw [ht] at e; cases e
        · exact ihr x hx

/-- After the ranges found for a target annotation have been applied, each token which overlaps one of them
in the text has a tag; the same holds for the range extended by the prefix expression (C64). -/
theorem C65_match_tagged (env : MatchEnv) (senv : SeqEnv) (cfg : MatchCfg) (hm : cfg.mainTags = true) (seqs : List (List Nat)) (target : Target)
    (hname : target.name ≠ []) (rs : List (Nat × Nat)) (d d' : Doc) (hne : ∀ s ∈ seqs, s ≠ [])
    (h : applyRanges env senv cfg seqs target d rs = .ok d') :
    ∃ ranges, Spec.LaidOut (seqsText senv d seqs) (seqs.flatten.map (fun i => senv.filter (d.getText senv.cc i)))
        (Spec.tokenGaps d seqs) ranges ∧
      ∀ r ∈ rs, ∃ r', applyPrefixRegex env cfg (seqsText senv d seqs) r target = .ok r' ∧
        (∀ x ∈ seqs.flatten.zip ranges, Spec.overlaps r'.1 r'.2 x.2 = true → truthy (d'.getTag x.1) = true) ∧
        ((∀ p s k, env.reSearch p s = .ok (some k) → k ≤ s.length) →
          ∀ x ∈ seqs.flatten.zip ranges, Spec.overlaps r.1 r.2 x.2 = true → truthy (d'.getTag x.1) = true) := by
  obtain ⟨ranges, hlo, hb⟩ := C40_tokens_between senv d seqs hne
  refine ⟨ranges, hlo, ?_⟩
  intro r hr
  obtain ⟨r', hp, h3⟩ := applyRanges_tagged env senv cfg hm seqs target hname rs d d d' (.refl d) h r hr
  have h4 : ∀ x ∈ seqs.flatten.zip ranges, Spec.overlaps r'.1 r'.2 x.2 = true → truthy (d'.getTag x.1) = true := by
    intro x hx ho
    apply h3
    rw [hb]
    exact List.mem_map.2 ⟨x, List.mem_filter.2 ⟨hx, ho⟩, rfl⟩
  refine ⟨r', hp, h4, ?_⟩
  intro hre x hx ho
  apply h4 x hx
  have hr' : r'.1 ≤ r.1 ∧ r'.2 = r.2 := by
    unfold applyPrefixRegex at hp
    simp only [] at hp
    split at hp
    · split at hp
      · cases hp
      · cases hp; exact ⟨Nat.le_refl _, rfl⟩
      · next k hk =>
        cases hp
        have := hre _ _ _ hk
        rw [List.length_take] at this
        exact ⟨by simp only []; omega, rfl⟩
    · cases hp; exact ⟨Nat.le_refl _, rfl⟩
  unfold Spec.overlaps at ho ⊢
  simp only [Bool.and_eq_true, decide_eq_true_eq] at ho ⊢
  rw [hr'.2]
  omega

/-! ### C66 Sub annotations -/

theorem subTagTokens_get (cfg : MatchCfg) (name : Str) (d : Doc) (index : Nat) (is : List Nat) (hnd : is.Nodup) (k : Nat) (j : Nat)
    (hj : is[k]? = some j) : (subTagTokens cfg name d index is).getSubTag j = indexTag cfg name (index + k) := by
  induction is generalizing d index k with
  | nil => simp at hj
  | cons i is ih =>
    rw [List.nodup_cons] at hnd
    unfold subTagTokens
    cases k with
    | zero =>
      simp at hj
      subst hj
      rw [subTagTokens_other _ _ _ _ _ _ hnd.1, getSubTag_setSubTag, if_pos rfl]
      rfl
    | succ k =>
      rw [ih _ _ hnd.2 k (by simpa using hj), Nat.add_assoc, Nat.add_comm 1]

/-- The sub tag of the `k`-th token of a match. -/
def Spec.subTagAt (begins : Bool) (name : Str) (k : Nat) : Str :=
  if begins then (if k = 0 then c!"b-" else c!"i-") ++ name else name

theorem indexTag_eq (cfg : MatchCfg) (name : Str) (hname : name ≠ []) (k : Nat) :
    indexTag cfg name k = some (Spec.subTagAt cfg.useBeginPrefix name k) := by
  unfold indexTag indexPrefix Spec.subTagAt
  split
  · split <;> rw [addTagPrefix_of_truthy hname (by decide)] <;> rfl
  · simp [addTagPrefix]

/-- Of the ranges found for a sub annotation the first one is used whose tokens have no sub tag yet: its
tokens get the begin and inside sub tags, nothing else changes; if there is none, nothing changes. -/
theorem C66_first_free (senv : SeqEnv) (cfg : MatchCfg) (tokens : List Nat) (hnd : tokens.Nodup) (hne : tokens ≠ [])
    (name : Str) (hname : name ≠ []) (d d' : Doc) (err : Option Err) (rs : List (Nat × Nat))
    (h : subRanges senv cfg tokens name d err rs = .ok d') :
    ∃ ranges, Spec.LaidOut (seqsText senv d [tokens]) (tokens.map (fun i => senv.filter (d.getText senv.cc i)))
        (Spec.tokenGaps d [tokens]) ranges ∧
      let within := fun r : Nat × Nat => ((tokens.zip ranges).filter (fun x => Spec.overlaps r.1 r.2 x.2)).map Prod.fst
      let free := fun r => ∀ i ∈ within r, truthy (d.getSubTag i) = false
      (d' = d ∧ ∀ r ∈ rs, ¬ free r) ∨
      ∃ before r after, rs = before ++ r :: after ∧ (∀ q ∈ before, ¬ free q) ∧ free r ∧
        (∀ j, d'.getTag j = d.getTag j) ∧
        (∀ (k : Nat) i, (within r)[k]? = some i → d'.getSubTag i = some (Spec.subTagAt cfg.useBeginPrefix name k)) ∧
        (∀ j, j ∉ within r → d'.getSubTag j = d.getSubTag j) := by
  obtain ⟨ranges, hlo, hb⟩ := C40_tokens_between senv d [tokens] (by simpa using hne)
  have ef : [tokens].flatten = tokens := by simp
  rw [ef] at hlo hb
  refine ⟨ranges, hlo, ?_⟩
  intro within free
  have hb2 : ∀ r : Nat × Nat, seqTokensBetween senv d r.1 r.2 [tokens] = within r := fun r => hb r.1 r.2
  have hw : ∀ r, (within r).Nodup := by
    intro r
    apply List.Nodup.sublist _ hnd
    exact ((List.filter_sublist).map _).trans (map_fst_zip_sublist _ _)
  induction rs with
  | nil =>
    left
    unfold subRanges at h
    cases err with
    | none => cases h; exact ⟨rfl, by simp⟩
    | some e => cases h
  | cons r rs ih =>
    unfold subRanges at h
    simp only [] at h
    rw [hb2] at h
    split at h
    · next hany =>
      have hnf : ¬ free r := by
        intro hf
        obtain ⟨i, hi, ht⟩ := List.any_eq_true.1 hany
        rw [hf i hi] at ht; cases ht
      rcases ih h with ⟨e, hall⟩ | ⟨before, r', after, e, hbf, rest⟩
      · left
        refine ⟨e, ?_⟩
        intro q hq
        rcases List.mem_cons.1 hq with rfl | hq
        · exact hnf
        · exact hall q hq
      · right
        refine ⟨r :: before, r', after, by rw [e]; rfl, ?_, rest⟩
        intro q hq
        rcases List.mem_cons.1 hq with rfl | hq
        · exact hnf
        · exact hbf q hq
    · next hany =>
      cases h
      right
      refine ⟨[], r, rs, rfl, by simp, ?_, ?_, ?_, ?_⟩
      · intro i hi
        cases ht : truthy (d.getSubTag i) with
        | false => rfl
        | true => exact absurd (List.any_eq_true.2 ⟨i, hi, ht⟩) hany
      · intro j
        exact subTagTokens_tag _ _ _ _ _ _
      · intro k i hk
        rw [subTagTokens_get cfg name d 0 _ (hw r) k i hk, Nat.zero_add, indexTag_eq _ _ hname]
      · intro j hj
        exact subTagTokens_other _ _ _ _ _ _ hj

/-- The sub annotations of a match only change sub tags, and only of tokens of the match. -/
theorem C66_within_match (env : MatchEnv) (senv : SeqEnv) (cfg : MatchCfg) (seqs : List (List Nat)) (hne : ∀ s ∈ seqs, s ≠ [])
    (range : Nat × Nat) (subs : List (Str × TargetValue)) (d d' : Doc) (h : processSub env senv cfg seqs range subs d = .ok d') :
    (∀ j, d'.getTag j = d.getTag j) ∧
    ∃ ranges, Spec.LaidOut (seqsText senv d seqs) (seqs.flatten.map (fun i => senv.filter (d.getText senv.cc i)))
        (Spec.tokenGaps d seqs) ranges ∧
      ∀ j, d'.getSubTag j ≠ d.getSubTag j → truthy (d.getSubTag j) = false ∧
        ∃ r, (j, r) ∈ seqs.flatten.zip ranges ∧ Spec.overlaps range.1 range.2 r = true := by
  obtain ⟨ranges, hlo, hb⟩ := C40_tokens_between senv d seqs hne
  unfold processSub at h
  split at h
  · cases h; exact ⟨fun _ => rfl, ranges, hlo, fun j hj => absurd rfl hj⟩
  · simp only [] at h
    have g := subAnnotations_grows env cfg _ _ [] d d' subs h
    refine ⟨fun j => ?_, ranges, hlo, fun j hj => ?_⟩
    · rcases g.tag j with e | ⟨_, _, n, hn, _⟩
      · exact e
      · cases hn
    · rcases g.sub j with e | ⟨e, hm, _⟩
      · exact absurd e hj
      · refine ⟨e, ?_⟩
        rw [hb] at hm
        obtain ⟨x, hx, rfl⟩ := List.mem_map.1 hm
        obtain ⟨h1, h2⟩ := List.mem_filter.1 hx
        exact ⟨x.2, h1, h2⟩

/-! ### Examples -/

theorem exFind_finds {α : Type} [DecidableEq α] : Spec.FindsLiteral (exFind (α := α)) := by
  intro a b hb ⟨l, r, h⟩
  unfold exFind
  have hx : ((List.range a.length).find? (fun p => (a.drop p).take b.length = b)).isSome := by
    rw [List.find?_isSome]
    refine ⟨l.length, ?_, ?_⟩
    · rw [List.mem_range, ← h]
      have : 0 < b.length := List.length_pos_iff.2 hb
      simp only [List.length_append]; omega
    · rw [← h, List.append_assoc]; simp
  obtain ⟨q, hq⟩ := Option.isSome_iff_exists.1 hx
  rw [hq]
  exact ⟨q, [], rfl, by simp, by simpa using List.find?_some hq⟩

theorem exFind_good {α : Type} [DecidableEq α] (a b : List α) :
    Spec.Consistent a b (exFind a b) ∧ Spec.Aligned a b (exFind a b) := by
  unfold exFind
  split
  · next p hp =>
    have h : (a.drop p).take b.length = b := by simpa using List.find?_some hp
    have hl : p + b.length ≤ a.length := by
      have := congrArg List.length h
      have := List.mem_range.1 (List.mem_of_find?_eq_some hp)
      simp only [List.length_take, List.length_drop] at *
      omega
    refine ⟨?_, ?_⟩
    · refine ⟨⟨?_, ?_⟩, ⟨?_, ?_⟩, ?_, ?_⟩ <;> simp [Spec.aPart, Spec.bPart, hl]
    · intro x hx k hk
      rw [List.mem_singleton] at hx
      subst hx
      simp only [Nat.zero_add] at hk ⊢
      obtain ⟨c, hc⟩ : ∃ c, b[k]? = some c := ⟨b[k], List.getElem?_eq_getElem hk⟩
      refine ⟨c, ?_, hc⟩
      rw [← hc]
      conv => rhs; rw [← h]
      rw [List.getElem?_take_of_lt hk, List.getElem?_drop]
  · exact ⟨by refine ⟨⟨?_, ?_⟩, ⟨?_, ?_⟩, ?_, ?_⟩ <;> simp [Spec.aPart, Spec.bPart], by intro x hx; cases hx⟩

/-- The assumptions about the matchers hold for the matcher of the example, and a title is found. -/
example : Spec.GoodMatchers (searchEnv exMatchEnv {} 1) ∧ Spec.FindsLiteral exMatchEnv.lsm ∧ Spec.FindsLiteral exMatchEnv.diff ∧
    findChunks exMatchEnv {} 1 c!"on some title" c!"Some title" = .ok [] ∧
    findChunks exMatchEnv {} 1 c!"on some title" c!"some title" = .ok [(3, 13)] :=
  ⟨⟨exFind_good, exFind_good⟩, exFind_finds, exFind_finds, by decide +kernel, by decide +kernel⟩

/-- The sub annotations of the example: the word before the match is found by the prefix expression. -/
def exSubEnv : MatchEnv := { exMatchEnv with reSearch := fun p s => .ok (if p = c!"on*abc*" ∧ s = c!"on " then some 0 else none),
                                             reEscape := fun s => c!"*" ++ s ++ c!"*" }

def exSubCfg : MatchCfg := { tagConfigMap := [(c!"title", { matchPrefixRegex := some c!"on{word}" })],
                             useSubAnnotations := true }

def exSubTarget : Target := ⟨c!"title", .one c!"some title", [(c!"word", .one c!"title"), (c!"word", .one c!"abc"), (c!"first", .one c!"some")]⟩

/-- The prefix is added to the match, and the sub annotations are found within it. -/
example : (∀ p s k, exSubEnv.reSearch p s = .ok (some k) → k ≤ s.length) ∧
    (∃ d', applyRanges exSubEnv (matchSeqEnv exSubEnv) exSubCfg [[0, 1, 2]] exSubTarget exMatchDoc [(3, 13)] = .ok d' ∧
      [0, 1, 2].map d'.getTag = [some c!"b-title", some c!"i-title", some c!"i-title"] ∧
      [0, 1, 2].map d'.getSubTag = [none, some c!"b-first", some c!"b-word"]) := by
  refine ⟨?_, exists_of_okAnd (by decide +kernel)⟩
  intro p s k h
  simp only [exSubEnv] at h
  split at h
  · injection h with h; injection h with h; omega
  · cases h

end Verif
