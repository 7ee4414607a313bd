/-
Properties C83-C89: the annotator comparing the values of target annotations with the lines of a document.
-/
import Verif.Lemmas.CoreFind
import Verif.Lemmas.Ok
import Verif.Props.FuzzyMatch
import Verif.Props.SimpleMatching

namespace Verif

open Spec (newTag spans tokensIn MatchersOk matchTokens Near ComparedTogether untaggedLines compared blocksOf NoPartOn withNext Searching
  SubPlaced tokensAt)

/-! ### Examples -/

/-- The first occurrence of the second text in the first one. -/
def coreIndexOf (a b : Str) : Option Nat := (List.range a.length).find? (fun p => (a.drop p).take b.length = b)

/-- A matcher which finds the shorter text in the longer one. -/
def coreFindShorter (a b : Str) : List Block :=
  if b.length ≤ a.length then (match coreIndexOf a b with | some p => [⟨p, 0, b.length⟩] | none => [])
  else (match coreIndexOf b a with | some p => [⟨0, p, a.length⟩] | none => [])

def coreExampleEnv : CoreEnv := ⟨asciiClass, id, coreFindShorter, coreFindShorter⟩

/-- A document with these words on its lines. -/
def docOfWords (ls : List (List Str)) : Doc := Doc.ofLines (ls.map (fun l => l.map (fun s => ⟨s, false, [], none⟩)))

/-- The tags of the tokens. -/
def docTags (d : Doc) : List (Option Str) := d.nonSpaceTokens.map (fun i => d.getTag i)

theorem coreIndexOf_bound {a b : Str} {p : Nat} (h : coreIndexOf a b = some p) : p + b.length ≤ a.length ∨ b.length = 0 := by
  have h1 := List.find?_some h
  have h2 := congrArg List.length (of_decide_eq_true h1)
  simp only [List.length_take, List.length_drop] at h2
  omega

theorem coreFindShorter_bound (a b : Str) :
    ∀ x ∈ coreFindShorter a b, x.a + x.size ≤ a.length ∧ x.b + x.size ≤ b.length := by
  intro x hx
  unfold coreFindShorter at hx
  split at hx
  · rename_i hl
    split at hx
    · rename_i p hp
      rw [List.mem_singleton] at hx
      subst hx
      have h1 := List.mem_of_find?_eq_some hp
      have := List.mem_range.1 h1
      have := coreIndexOf_bound hp
      simp only
      omega
    · cases hx
  · split at hx
    · rename_i hl p hp
      rw [List.mem_singleton] at hx
      subst hx
      have h1 := List.mem_of_find?_eq_some hp
      have := List.mem_range.1 h1
      have := coreIndexOf_bound hp
      simp only
      omega
    · cases hx

theorem coreExample_matchersOk : MatchersOk coreExampleEnv := ⟨coreFindShorter_bound, coreFindShorter_bound⟩

/-! ### C83 Only untagged tokens get tags -/

/-- The texts, lines and white space stay; a token either keeps its tag and its sub tag, or it has had no
tag and gets the name of a target annotation, and its sub tag is kept or becomes the name of a sub annotation
of that target annotation. -/
theorem C83_safe (env : CoreEnv) (cfg : CoreCfg) (targets : List CoreTarget) (d d' : Doc)
    (hn : ∀ t ∈ targets, t.name ≠ []) (hs : ∀ t ∈ targets, ∀ s ∈ t.subs, s.name ≠ [])
    (h : coreAnnotate env cfg targets d = .ok d') :
    SameBut d d' ∧ ∀ j,
      (d'.getTag j = d.getTag j ∧ d'.getSubTag j = d.getSubTag j) ∨
      (truthy (d.getTag j) = false ∧ j ∈ d.nonSpaceTokens ∧ ∃ t ∈ targets,
        (∃ first, d'.getTag j = newTag cfg.useBeginPrefix first t.name) ∧
        (d'.getSubTag j = d.getSubTag j ∨
          ∃ s ∈ t.subs, ∃ first, d'.getSubTag j = newTag cfg.useBeginPrefix first s.name)) := by
  unfold coreAnnotate at h
  simp only at h
  split at h
  · cases h
  · cases h
  · rename_i st hst
    simp only [Except.ok.injEq] at h
    subst h
    have := annotateTargets_marks (P := fun j => j ∈ d.nonSpaceTokens) hn hs (corePending_in d) targets (fun t ht => ht)
      (fun _ _ h => by cases h) hst
    exact ⟨this.1.same, this.1.each⟩

/-- Tags with prefixes, a sub tag, and the texts of a list on two lines. -/
example : ∃ d', coreAnnotate coreExampleEnv { useBeginPrefix := true }
      [{ name := c!"title", value := .one c!"on some title", subs := [{ name := c!"sub", value := .one c!"some" }] },
       { name := c!"author", value := .many [c!"abc", c!"xyz"], bonding := true }]
      (docOfWords [[c!"on", c!"some", c!"title"], [c!"by", c!"abc"], [c!"and", c!"xyz"]]) = .ok d' ∧
    docTags d' = [some c!"b-title", some c!"i-title", some c!"i-title", none, some c!"b-author", none, some c!"i-author"] ∧
    d'.nonSpaceTokens.map (fun i => d'.getSubTag i) = [none, some c!"b-sub", none, none, none, none, none] := by
  exact exists_of_okAnd (by decide +kernel)

/-! ### C84 The annotator terminates without exceptions -/

/-- Annotating succeeds for every document and all target annotations, provided that the matchers return
blocks within the texts. -/
theorem C84_terminates (env : CoreEnv) (cfg : CoreCfg) (targets : List CoreTarget) (d : Doc) (hok : MatchersOk env) :
    ∃ d', coreAnnotate env cfg targets d = .ok d' := by
  unfold coreAnnotate
  simp only
  obtain ⟨st, hst⟩ := annotateTargets_ok hok cfg (corePending d)
    (fun s hs => pendingOfDoc_ne_nil d _ (mem_corePending hs))
    (((corePending d).flatMap (·.tokens)).length + 1) (Nat.lt_succ_self _) targets ⟨d, none, []⟩
  rw [hst]
  exact ⟨_, rfl⟩

/-- A target annotation which is to be matched as often as possible, on all its lines. -/
example : MatchersOk coreExampleEnv ∧ ∃ d', coreAnnotate coreExampleEnv {}
      [{ name := c!"title", value := .one c!"some title", matchMultiple := true }]
      (docOfWords [[c!"some", c!"title"], [c!"other"], [c!"some"], [c!"title"]]) = .ok d' ∧
    docTags d' = [some c!"title", some c!"title", none, some c!"title", some c!"title"] := by
  exact ⟨coreExample_matchersOk, exists_of_okAnd (by decide +kernel)⟩

/-! ### C85 The tokens of matches -/

/-- Applying the matches of a target annotation tags exactly those tokens without a tag whose texts overlap
the range of a match. The first of them gets the begin prefix, the others the inside prefix. -/
theorem C85_tokens (env : CoreEnv) (cfg : CoreCfg) (t : CoreTarget) (ms : List SeqMatch) (d d' : Doc)
    (hn : t.name ≠ []) (hs : ∀ s ∈ t.subs, s.name ≠ []) (h : applyMatches env cfg t (d, []) ms = .ok d') (j : Nat) :
    (j ∈ matchTokens env d ms → truthy (d.getTag j) = false →
      d'.getTag j = newTag cfg.useBeginPrefix
        (decide ((matchTokens env d ms).find? (fun i => !truthy (d.getTag i)) = some j)) t.name) ∧
    ((j ∉ matchTokens env d ms ∨ truthy (d.getTag j) = true) →
      d'.getTag j = d.getTag j ∧ d'.getSubTag j = d.getSubTag j) := by
  obtain ⟨all, ha⟩ := applyMatches_applied hn hs ms (Applied.start cfg t d) h
  rw [List.nil_append] at ha
  refine ⟨fun h1 h2 => ?_, fun h1 => ?_⟩
  · rw [ha.tag j ((ha.mem j).2 ⟨h1, h2⟩), ha.head]
  · apply ha.other
    intro hj
    have := (ha.mem j).1 hj
    rcases h1 with h1 | h1
    · exact h1 this.1
    · rw [this.2] at h1; cases h1

/-- The matches are applied in the order of their lines and, within a line, of their ranges. -/
theorem C85_order (ms : List SeqMatch) :
    (sortBy matchLe ms).Perm ms ∧
    (sortBy matchLe ms).Pairwise (fun m m' => m.seq.position < m'.seq.position ∨
      (m.seq.position = m'.seq.position ∧
        (m.range2.1 < m'.range2.1 ∨ (m.range2.1 = m'.range2.1 ∧ m.range2.2 ≤ m'.range2.2)))) := by
  refine ⟨sortBy_perm _ _, ?_⟩
  have key : ∀ m m' : SeqMatch, matchLe m m' = true ↔ (m.seq.position < m'.seq.position ∨
      (m.seq.position = m'.seq.position ∧
        (m.range2.1 < m'.range2.1 ∨ (m.range2.1 = m'.range2.1 ∧ m.range2.2 ≤ m'.range2.2)))) := by
    intro m m'
    simp [matchLe, rangeLe]
  refine List.Pairwise.imp (fun {m m'} h => (key m m').1 h) (sortBy_pairwise matchLe ?_ ?_ ms)
  · intro a b
    rw [key, key]
    omega
  · intro a b c
    rw [key, key, key]
    omega

/-- A matcher which finds the parts of `covid-a test` in `covid- a test`. -/
def coreHyphenEnv : CoreEnv := ⟨asciiClass, id, coreFindShorter, fun a b =>
  if a = c!"covid-a test" ∧ b = c!"covid- a test" then [⟨0, 0, 6⟩, ⟨6, 7, 6⟩] else coreFindShorter a b⟩

/-- A match which continues on the next line is one character off there: the token `a` belongs to the match,
but is not tagged. -/
theorem C85_next_line_shifted :
    Spec.Consistent c!"covid-a test" c!"covid- a test" [⟨0, 0, 6⟩, ⟨6, 7, 6⟩] ∧
    Spec.Aligned c!"covid-a test" c!"covid- a test" [⟨0, 0, 6⟩, ⟨6, 7, 6⟩] ∧
    ∃ d', coreAnnotate coreHyphenEnv {} [{ name := c!"title", value := .one c!"covid-a test" }]
      (docOfWords [[c!"covid-"], [c!"a", c!"test"]]) = .ok d' ∧
    docTags d' = [some c!"title", none, some c!"title"] := by
  refine ⟨⟨⟨by decide, by decide⟩, ⟨by decide, by decide⟩, by decide, by decide⟩, ?_, exists_of_okAnd (by decide +kernel)⟩
  intro x hx k hk
  simp only [List.mem_cons, List.not_mem_nil, or_false] at hx
  rcases hx with rfl | rfl
  · have : k < 6 := hk
    have : ∀ k < 6, ∃ c, (c!"covid-a test" : Str)[0 + k]? = some c ∧ (c!"covid- a test" : Str)[0 + k]? = some c := by
      intro k hk
      match k, hk with
      | 0, _ => exact ⟨'c', rfl, rfl⟩
      | 1, _ => exact ⟨'o', rfl, rfl⟩
      | 2, _ => exact ⟨'v', rfl, rfl⟩
      | 3, _ => exact ⟨'i', rfl, rfl⟩
      | 4, _ => exact ⟨'d', rfl, rfl⟩
      | 5, _ => exact ⟨'-', rfl, rfl⟩
    exact this k hk
  · have : ∀ k < 6, ∃ c, (c!"covid-a test" : Str)[6 + k]? = some c ∧ (c!"covid- a test" : Str)[7 + k]? = some c := by
      intro k hk
      match k, hk with
      | 0, _ => exact ⟨'a', rfl, rfl⟩
      | 1, _ => exact ⟨' ', rfl, rfl⟩
      | 2, _ => exact ⟨'t', rfl, rfl⟩
      | 3, _ => exact ⟨'e', rfl, rfl⟩
      | 4, _ => exact ⟨'s', rfl, rfl⟩
      | 5, _ => exact ⟨'t', rfl, rfl⟩
    exact this k hk

example : ∃ d', applyMatches coreExampleEnv { useBeginPrefix := true } { name := c!"x", value := .one [] }
      (docOfWords [[c!"ab", c!"cd", c!"ef"]], []) [⟨⟨[0, 1, 2], 0⟩, (0, 4), (3, 7)⟩] = .ok d' ∧
    docTags d' = [none, some c!"b-x", some c!"i-x"] := by
  exact exists_of_okAnd (by decide +kernel)

/-! ### C86 Gaps between matches -/

/-- Every match found for a target annotation, but the first of all, is at most the maximum gap away from an
earlier one, or is on the second of two lines compared together, with the match before it on the first one. -/
theorem C86_exact (env : CoreEnv) (cfg : CoreCfg) (isSub : Bool) (text : CoreSeq → Str) (name : Str) (bonding : Bool)
    (pairs : List (CoreSeq × Option CoreSeq)) (matched : List Nat) (v : TargetValue) (found : List SeqMatch)
    (matched' : List Nat) (used : List (Option Nat)) (hgap : cfg.maxGap ≠ 0)
    (h : findNext env cfg isSub text name bonding pairs matched v = .ok (found, matched', used))
    (pre : List SeqMatch) (m : SeqMatch) (post : List SeqMatch) (hf : found = pre ++ m :: post) :
    (matched = [] ∧ pre = []) ∨ Near cfg.maxGap (matched ++ pre.map (fun x => x.seq.position)) m.seq.position ∨
      ComparedTogether pairs pre m := by
  unfold findNext at h
  split at h
  · split at h
    · cases h
    · rename_i r hr
      simp only [Except.ok.injEq, Prod.mk.injEq] at h
      exact (findLoop_gapChain hgap (fun _ h => h) hr).1 pre m post (by rw [h.1, hf])
  · split at h
    · cases h
    · rename_i r1 r2 r3 hr
      simp only [Except.ok.injEq, Prod.mk.injEq] at h
      have hc := findTexts_gapChain hgap (fun _ h => h) hr
      obtain ⟨h1, _⟩ := h
      split at h1
      · exact hc pre m post (by rw [h1, hf])
      · have := congrArg List.length (h1.trans hf)
        simp at this

/-- Every match found for a target annotation, but the first of all, is at most the maximum gap away from an
earlier one, provided that this holds for the lines compared together. Not proved: that the lines compared
together are never further apart (they can be, see below). -/
theorem C86_gap_partial (env : CoreEnv) (cfg : CoreCfg) (isSub : Bool) (text : CoreSeq → Str) (name : Str) (bonding : Bool)
    (pairs : List (CoreSeq × Option CoreSeq)) (matched : List Nat) (v : TargetValue) (found : List SeqMatch)
    (matched' : List Nat) (used : List (Option Nat)) (hgap : cfg.maxGap ≠ 0)
    (hadj : ∀ p ∈ pairs, ∀ n, p.2 = some n → Near cfg.maxGap [p.1.position] n.position)
    (h : findNext env cfg isSub text name bonding pairs matched v = .ok (found, matched', used))
    (pre : List SeqMatch) (m : SeqMatch) (post : List SeqMatch) (hf : found = pre ++ m :: post) :
    (matched = [] ∧ pre = []) ∨ Near cfg.maxGap (matched ++ pre.map (fun x => x.seq.position)) m.seq.position := by
  rcases C86_exact env cfg isSub text name bonding pairs matched v found matched' used hgap h pre m post hf with
    h1 | h1 | ⟨pre', x, h1, h2⟩
  · exact .inl h1
  · exact .inr h1
  · right
    obtain ⟨q, hq, h3⟩ := hadj _ h2 m.seq rfl
    rw [List.mem_singleton] at hq
    subst hq
    exact ⟨x.seq.position, by rw [h1]; simp, h3⟩

/-- Lines further apart than the gap are left out. -/
example : ∃ r, findNext coreExampleEnv { maxGap := 1 } false (fun s => if s.position = 5 then c!"other title" else c!"other")
      c!"x" false [(⟨[0], 0⟩, none), (⟨[1], 2⟩, none), (⟨[2], 5⟩, none)] [1] (.one c!"other") = .ok r ∧
    r.1.map (fun m => m.seq.position) = [0] := exists_of_okAnd (by decide +kernel)

example : ∃ r, findNext coreExampleEnv { maxGap := 1 } false (fun _ => c!"other")
      c!"x" false [(⟨[0], 7⟩, none), (⟨[1], 8⟩, none)] [1] (.one c!"other") = .ok r ∧
    r.1.map (fun m => m.seq.position) = [] := exists_of_okAnd (by decide +kernel)

/-- The maximum gap of five lines does not hold for the second line of a pair: if the lines between are
tagged already, a match continues nine lines later. -/
theorem C86_next_ignores_gap : ∃ d', coreAnnotate coreExampleEnv { maxGap := 5 }
      [{ name := c!"m", value := .one c!"zq", matchMultiple := true }, { name := c!"a", value := .one c!"some title" }]
      (docOfWords [[c!"some"], [c!"zq"], [c!"zq"], [c!"zq"], [c!"zq"], [c!"zq"], [c!"zq"], [c!"zq"], [c!"zq"], [c!"title"]]) = .ok d' ∧
    docTags d' = [some c!"a", some c!"m", some c!"m", some c!"m", some c!"m", some c!"m", some c!"m", some c!"m", some c!"m",
      some c!"a"] := exists_of_okAnd (by decide +kernel)

/-! ### C87 A value equal to a line is annotated -/

/-- A line without a text after normalising ends the search: the same value, which is found after the line
`other`, is not found after a line which is an asterisk. -/
theorem C87_empty_line_stops : ∃ d', coreAnnotate coreExampleEnv {} [{ name := c!"title", value := .one c!"some title" }]
      (docOfWords [[c!"*"], [c!"some", c!"title"]]) = .ok d' ∧
    docTags d' = [none, none, none] := exists_of_okAnd (by decide +kernel)

/-! ### C88 Target annotations requiring another one next to them -/

/-- The last target annotation, if it requires another one next to it and is to be found once, is not
annotated, whatever is found for it. Not proved: that in general the one found next to it is that of the
following target annotation (it is not, see below). -/
theorem C88_last_partial (env : CoreEnv) (cfg : CoreCfg) (ts : List CoreTarget) (t : CoreTarget) (d d' : Doc)
    (hn : ∀ t' ∈ ts, t'.name ≠ []) (hs : ∀ t' ∈ ts, ∀ s ∈ t'.subs, s.name ≠ [])
    (hreq : t.requireNext = true) (hone : t.matchMultiple = false)
    (h : coreAnnotate env cfg (ts ++ [t]) d = .ok d') (j : Nat) :
    d'.getTag j = d.getTag j ∨ ∃ t' ∈ ts, ∃ first, d'.getTag j = newTag cfg.useBeginPrefix first t'.name := by
  unfold coreAnnotate at h
  simp only at h
  split at h
  · cases h
  · cases h
  · rename_i st hst
    simp only [Except.ok.injEq] at h
    subst h
    have := annotateTargets_last (P := fun _ => True) hn hs (fun _ _ _ _ => trivial) hreq hone ts
      (fun t ht => ht) (fun _ _ h => by cases h) hst
    rcases this.each j with h1 | ⟨_, _, t', ht', h1, _⟩
    · exact Or.inl h1.1
    · exact Or.inr ⟨t', ht', h1⟩

/-- Waiting matches are annotated exactly if the last of their lines and the first line of the new matches
are the same or neighbours, or the first of their lines and the last line of the new matches are. -/
theorem C88_neighbours (env : CoreEnv) (cfg : CoreCfg) (t : CoreTarget) (waiting new : List SeqMatch) (d : Doc)
    (p q p' q' : Nat) (hw : Spec.LinesFromTo waiting p q) (hn : Spec.LinesFromTo new p' q') :
    applyConditional env cfg (some (t, waiting)) new d =
      if (p' ≤ q + 1 ∧ q ≤ p' + 1) ∨ (p ≤ q' + 1 ∧ q' ≤ p + 1) then applyMatches env cfg t (d, []) waiting else .ok d := by
  unfold applyConditional matchDistance
  simp only
  rw [positionRange_eq hw, positionRange_eq hn]
  have : (min (natDist (p, q).1 (p', q').2) (natDist (p', q').1 (p, q).2) ≤ 1) ↔
      ((p' ≤ q + 1 ∧ q ≤ p' + 1) ∨ (p ≤ q' + 1 ∧ q' ≤ p + 1)) := by
    simp only [natDist]
    omega
  simp only [this]

example : Spec.LinesFromTo [⟨⟨[], 4⟩, (0, 1), (0, 1)⟩, ⟨⟨[], 2⟩, (0, 1), (0, 1)⟩] 2 4 := by
  refine ⟨⟨_, List.mem_cons_of_mem _ (List.mem_singleton.2 rfl), rfl⟩, ⟨_, List.mem_cons_self .., rfl⟩, ?_⟩
  simp

/-- With a following one on the next line it is annotated, alone it is not. -/
example : (∃ d', coreAnnotate coreExampleEnv {}
      [{ name := c!"a", value := .one c!"some title", requireNext := true }, { name := c!"b", value := .one c!"other text" }]
      (docOfWords [[c!"some", c!"title"], [c!"other", c!"text"]]) = .ok d' ∧
    docTags d' = [some c!"a", some c!"a", some c!"b", some c!"b"]) ∧
  ∃ d', coreAnnotate coreExampleEnv {}
      [{ name := c!"b", value := .one c!"other text" }, { name := c!"a", value := .one c!"some title", requireNext := true }]
      (docOfWords [[c!"some", c!"title"], [c!"other", c!"text"]]) = .ok d' ∧
    docTags d' = [none, none, some c!"b", some c!"b"] :=
  ⟨exists_of_okAnd (by decide +kernel), exists_of_okAnd (by decide +kernel)⟩

/-- The condition is not given up when the following target annotation is found elsewhere: `a` requires `b`,
which is two lines away from it, and is annotated because `c` is found next to it later. -/
theorem C88_stale_condition : ∃ d', coreAnnotate coreExampleEnv {}
      [{ name := c!"a", value := .one c!"some title", requireNext := true }, { name := c!"b", value := .one c!"other text" },
       { name := c!"c", value := .one c!"third" }]
      (docOfWords [[c!"some", c!"title"], [c!"third"], [c!"third"], [c!"other", c!"text"]]) = .ok d' ∧
    docTags d' = [some c!"a", some c!"a", some c!"c", none, some c!"b", some c!"b"] := exists_of_okAnd (by decide +kernel)

/-! ### C89 Continuing the search after a match -/

/-- Wherever the search for a single value goes on, each line is compared together with the one after it.
Not proved: the same for lists of texts (it is false, see below). -/
theorem C89_next_partial (pending : List CoreSeq) (c : Choices) (h : Searching pending c) (d : Doc) :
    c.pairs d = withNext ((c.all d).drop c.cur) := by
  have hw : ∀ l : List CoreSeq, pairUp l l.tail = withNext l := by
    intro l
    induction l with
    | nil => rfl
    | cons x l ih => simp only [pairUp, withNext, List.tail_cons, ih]
  have key : c.nxt = c.cur + 1 ∨ (c.rest = [] ∧ c.made.length ≤ c.cur) := by
    clear d
    induction h with
    | start => exact Or.inl rfl
    | @next c d used _ ih =>
      cases used with
      | none => exact Or.inr ⟨rfl, Nat.le_refl _⟩
      | some n =>
        rcases ih with ih | ih
        · left
          simp [Choices.after, mostUsed, ih]
          omega
        · right
          simp only [Choices.after, mostUsed, Option.map_some, ih.1, drawChoices, true_and]
          omega
  unfold Choices.pairs
  rcases key with key | key
  · rw [key, ← hw, List.tail_drop]
  · rw [List.drop_of_length_le (by simp [Choices.all, key.1, key.2])]
    rfl

/-- A title on one line and another time on two lines: the two lines are compared together. -/
example : ∃ d', coreAnnotate coreExampleEnv {} [{ name := c!"a", value := .one c!"some title", matchMultiple := true }]
      (docOfWords [[c!"some", c!"title"], [c!"xyz"], [c!"other", c!"text"], [c!"some"], [c!"title"]]) = .ok d' ∧
    docTags d' = [some c!"a", some c!"a", none, none, none, some c!"a", some c!"a"] := exists_of_okAnd (by decide +kernel)

/-- For a list of texts the lines compared together are no longer neighbours after the first match: the same
title is then not found on two lines, of which only the second one is annotated. -/
theorem C89_list_misaligned : ∃ d', coreAnnotate coreExampleEnv {}
      [{ name := c!"a", value := .many [c!"some title", c!"other text"], matchMultiple := true }]
      (docOfWords [[c!"some", c!"title"], [c!"xyz"], [c!"other", c!"text"], [c!"some"], [c!"title"]]) = .ok d' ∧
    docTags d' = [some c!"a", some c!"a", none, some c!"a", some c!"a", none, some c!"a"] :=
  exists_of_okAnd (by decide +kernel)

/-! ### C90 Lists of texts with bonding -/

/-- The matches of a list of texts are those of all its texts. With bonding a single match is given up, except
for authors. -/
theorem C90_bonding (env : CoreEnv) (cfg : CoreCfg) (isSub : Bool) (text : CoreSeq → Str) (name : Str) (bonding : Bool)
    (pairs : List (CoreSeq × Option CoreSeq)) (matched : List Nat) (ss : List Str) (found : List SeqMatch)
    (matched' : List Nat) (used : List (Option Nat))
    (h : findNext env cfg isSub text name bonding pairs matched (.many ss) = .ok (found, matched', used)) :
    ∃ all, findTexts env cfg isSub text pairs matched ss = .ok (all, matched', used) ∧
      (bonding = true → name ≠ c!"author" → (2 ≤ all.length → found = all) ∧ (all.length < 2 → found = [])) ∧
      (bonding = false ∨ name = c!"author" → found = all) := by
  simp only [findNext] at h
  split at h
  · cases h
  · rename_i all m u hr
    simp only [Except.ok.injEq, Prod.mk.injEq] at h
    obtain ⟨h1, rfl, rfl⟩ := h
    refine ⟨all, hr, fun hb hname => ⟨fun hl => ?_, fun hl => ?_⟩, fun hb => ?_⟩
    · rw [← h1, if_pos]
      simp only [Bool.or_eq_true, decide_eq_true_eq]
      exact Or.inl (Or.inr hl)
    · rw [← h1, if_neg]
      simp only [hb, Bool.not_true, Bool.false_or, Bool.or_eq_true, decide_eq_true_eq, beq_iff_eq, not_or]
      exact ⟨by omega, hname⟩
    · rw [← h1, if_pos]
      rcases hb with hb | hb <;> simp [hb]

/-- One of two names is not in the document: with bonding it is annotated for authors only. -/
example : (∃ d', coreAnnotate coreExampleEnv {} [{ name := c!"author", value := .many [c!"abc", c!"xyz"], bonding := true }]
      (docOfWords [[c!"by", c!"abc"]]) = .ok d' ∧ docTags d' = [none, some c!"author"]) ∧
    (∃ d', coreAnnotate coreExampleEnv {} [{ name := c!"name", value := .many [c!"abc", c!"xyz"], bonding := true }]
      (docOfWords [[c!"by", c!"abc"]]) = .ok d' ∧ docTags d' = [none, none]) ∧
    (∃ d', coreAnnotate coreExampleEnv {} [{ name := c!"name", value := .many [c!"abc", c!"xyz"] }]
      (docOfWords [[c!"by", c!"abc"]]) = .ok d' ∧ docTags d' = [none, some c!"name"]) :=
  ⟨exists_of_okAnd (by decide +kernel), exists_of_okAnd (by decide +kernel), exists_of_okAnd (by decide +kernel)⟩

/-! ### C91 Sub annotations -/

/-- Sub annotations with a single text each, the normalised texts of which the matcher finds as a whole in
the text of the tokens annotated, or not at all: each token gets the sub tag of the last sub annotation
overlapping it, with the begin prefix if it is the first token overlapping it, and keeps its sub tag if there
is none. -/
theorem C91_found (env : CoreEnv) (cfg : CoreCfg) (h1 : cfg.choiceFilter.bScore ≤ 1) (tokens : List Nat)
    (hnd : tokens.Nodup) (d : Doc) (text : Nat → Str) (htext : text = fun i => normaliseStr env.lower (d.getText env.cc i))
    (subs : List CoreSub) (place : CoreSub → Option (Nat × Nat))
    (hplace : ∀ s ∈ subs, SubPlaced env cfg (joinStr [' '] (tokens.map text)) s (place s)) :
    ∃ d', applySubs env cfg ⟨tokens, 0⟩ d [] subs = .ok d' ∧ ∀ j, d'.getSubTag j =
      match (subs.filter (fun s => decide (j ∈ tokensAt text tokens (place s)))).getLast? with
      | none => d.getSubTag j
      | some s => newTag cfg.useBeginPrefix (decide ((tokensAt text tokens (place s)).head? = some j)) s.name :=
  applySubs_placed env cfg h1 tokens hnd text subs place hplace d [] (by simp) htext

/-- In particular sub annotations no token of which belongs to a later one get their sub tag, exactly. -/
theorem C91_apart (env : CoreEnv) (cfg : CoreCfg) (h1 : cfg.choiceFilter.bScore ≤ 1) (tokens : List Nat)
    (hnd : tokens.Nodup) (d : Doc) (text : Nat → Str) (htext : text = fun i => normaliseStr env.lower (d.getText env.cc i))
    (before after : List CoreSub) (s : CoreSub) (place : CoreSub → Option (Nat × Nat))
    (hplace : ∀ x ∈ before ++ s :: after, SubPlaced env cfg (joinStr [' '] (tokens.map text)) x (place x))
    (hapart : ∀ x ∈ after, ∀ j ∈ tokensAt text tokens (place s), j ∉ tokensAt text tokens (place x)) :
    ∃ d', applySubs env cfg ⟨tokens, 0⟩ d [] (before ++ s :: after) = .ok d' ∧
      ∀ j ∈ tokensAt text tokens (place s), d'.getSubTag j =
        newTag cfg.useBeginPrefix (decide ((tokensAt text tokens (place s)).head? = some j)) s.name := by
  obtain ⟨d', hd', hall⟩ := C91_found env cfg h1 tokens hnd d text htext _ place hplace
  refine ⟨d', hd', fun j hj => ?_⟩
  rw [hall j, List.filter_append, List.filter_cons_of_pos (by simpa using hj),
    (List.filter_eq_nil_iff (l := after)).2 (fun x hx => by simpa using hapart x hx j hj), List.getLast?_concat]

/-- The second sub annotation overlaps the first one, and takes over the token both overlap; the third one is
not there. -/
example : let d := docOfWords [[c!"on", c!"some", c!"title"]]
    ∃ d', applySubs coreExampleEnv { useBeginPrefix := true } ⟨[0, 1, 2], 0⟩ d []
      [{ name := c!"x", value := .one c!"on some" }, { name := c!"y", value := .one c!"some title" },
        { name := c!"z", value := .one c!"wyq" }] = .ok d' ∧
      [0, 1, 2].map d'.getSubTag = [some c!"b-x", some c!"b-y", some c!"i-y"] :=
  exists_of_okAnd (by decide +kernel)

/-- These sub annotations are placed as assumed. -/
example : let d := docOfWords [[c!"on", c!"some", c!"title"]]
    let text := fun i => normaliseStr coreExampleEnv.lower (d.getText coreExampleEnv.cc i)
    let whole := joinStr [' '] ([0, 1, 2].map text)
    SubPlaced coreExampleEnv { useBeginPrefix := true } whole { name := c!"x", value := .one c!"on some" } (some (0, 7)) ∧
    SubPlaced coreExampleEnv { useBeginPrefix := true } whole { name := c!"y", value := .one c!"some title" } (some (3, 13)) ∧
    SubPlaced coreExampleEnv { useBeginPrefix := true } whole { name := c!"z", value := .one c!"wyq" } none ∧
    tokensAt text [0, 1, 2] (some (0, 7)) = [0, 1] ∧ tokensAt text [0, 1, 2] (some (3, 13)) = [1, 2] :=
  ⟨⟨by decide, _, rfl, by decide +kernel⟩, ⟨by decide, _, rfl, by decide +kernel⟩,
    ⟨by decide, _, rfl, by decide +kernel⟩, by decide +kernel, by decide +kernel⟩

end Verif
