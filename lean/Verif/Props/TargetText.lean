/-
C45, C74: white space of target texts, extraction of parts by a regular expression.
-/
import Verif.Lemmas.ExtractRegex

namespace Verif

open Spec

/-- C45: every maximal run of spaces, tabs and line breaks becomes one line feed if it contains a
line break and one space otherwise; nothing else is changed. -/
theorem C45_collapse (s : Str) : stripWhitespace s = collapseWhitespace s := stripWhitespace_collapse s

/-- C45: the bound on the number of rounds in the model of the loop is never reached: a further
round would not change the text. -/
theorem C45_loop_finished (old new : Str) (h : (old, new) ∈ whitespaceReplacements) (s : Str) :
    strReplace old new (replaceRecursive old new s) = replaceRecursive old new s := by
  have h1 : ∀ a c : Char, c ≠ a → strReplace [a] [c] (replaceRecursive [a] [c] s) = replaceRecursive [a] [c] s := by
    intro a c hac
    rw [replaceRecursive_one a c hac, strReplace_one, List.map_map]
    apply List.map_congr_left
    intro x _
    by_cases hx : x = a
    · simp [hx, hac]
    · simp [hx]
  simp only [whitespaceReplacements, List.mem_cons, List.not_mem_nil, or_false, Prod.mk.injEq] at h
  rcases h with ⟨rfl, rfl⟩ | ⟨rfl, rfl⟩ | ⟨rfl, rfl⟩ | ⟨rfl, rfl⟩ | ⟨rfl, rfl⟩ | ⟨rfl, rfl⟩
  · exact h1 _ _ (by decide)
  · exact replaceRecursive_fix2 _ _ _ s
  · exact h1 _ _ (by decide)
  · exact replaceRecursive_fix2 _ _ _ s
  · exact replaceRecursive_fix2 _ _ _ s
  · exact replaceRecursive_fix2 _ _ _ s

/-- C45: the result has no tabs, no carriage returns, and no two neighbouring white space
characters. -/
theorem C45_no_runs (s : Str) : '\t' ∉ stripWhitespace s ∧ '\r' ∉ stripWhitespace s ∧
    ∀ u v x y, stripWhitespace s = u ++ x :: y :: v → isBlankChar x = true → isBlankChar y = false := by
  have h := collapsed_stripWhitespace s
  refine ⟨h.1, h.2.1, ?_⟩
  intro u v x y he hx
  rw [he] at h
  clear he
  induction u with
  | nil => exact collapsed_blank h hx
  | cons c u ih => exact ih (collapsed_tail h)

/-- C45: normalising twice is normalising once. -/
theorem C45_idempotent (s : Str) : stripWhitespace (stripWhitespace s) = stripWhitespace s := by
  rw [C45_collapse (stripWhitespace s)]
  exact collapseFrom_collapsed _ (collapsed_stripWhitespace s)

theorem filter_runText (p : Option Bool) : (runText p).filter (fun c => !isBlankChar c) = [] := by
  rcases p with _ | _ | _ <;> rfl

theorem filter_collapseFrom (p : Option Bool) (s : Str) :
    (collapseFrom p s).filter (fun c => !isBlankChar c) = s.filter (fun c => !isBlankChar c) := by
  induction s generalizing p with
  | nil => exact filter_runText p
  | cons c s ih =>
    simp only [collapseFrom]
    cases hc : isBlankChar c with
    | true => simp [hc, ih]
    | false => simp [hc, ih, filter_runText]

/-- C45: all other characters are kept, in order. -/
theorem C45_others_kept (s : Str) :
    (stripWhitespace s).filter (fun c => !isBlankChar c) = s.filter (fun c => !isBlankChar c) := by
  rw [C45_collapse]; exact filter_collapseFrom none s

/-- Non-vacuity of the C45 theorems. -/
example : stripWhitespace c!"a \t b\r\n\n  c\n d  " = c!"a b\nc\nd " := by decide +kernel

/-- C74: the matches are among the results, in order, and each result is a part of the value. -/
theorem C74_matches_and_parts (cc : CharClass) (s : Str) (spans : List (Nat × Nat)) :
    (spans.map (fun m => sliceStr s m.1 m.2)).Sublist (extractUsingRegex cc s spans) ∧
      ∀ t ∈ extractUsingRegex cc s spans, t <:+: s := by
  cases spans with
  | nil => exact ⟨List.nil_sublist _, by intro t ht; simp only [extractUsingRegex, List.mem_singleton] at ht; rw [ht]; exact List.infix_refl _⟩
  | cons m ms =>
    have hp : ((m :: ms).map (fun m => sliceStr s m.1 m.2)).Sublist (extractPieces cc s (m :: ms)) :=
      (extractLoop_matches cc s _ 0).trans (List.sublist_append_left _ _)
    have hi : ∀ t ∈ extractPieces cc s (m :: ms), t <:+: s := by
      intro t ht
      rcases List.mem_append.mp ht with ht | ht
      · exact extractLoop_infix cc s _ _ t ht
      · split at ht
        · rw [List.mem_singleton] at ht; rw [ht]
          exact (strip_infix _ _).trans (List.drop_suffix _ _).isInfix
        · exact absurd ht List.not_mem_nil
    rw [extractUsingRegex_cons]
    split
    · exact ⟨hp, hi⟩
    · refine ⟨hp.trans (List.sublist_append_left _ _), ?_⟩
      intro t ht
      rcases List.mem_append.mp ht with ht | ht
      · exact hi t ht
      · rw [List.mem_singleton] at ht; rw [ht]; exact List.infix_refl _

/-- C74: a value without a match is kept as it is. -/
theorem C74_no_match (cc : CharClass) (s : Str) : extractUsingRegex cc s [] = [s] := rfl

/-- C74 (partial): if every match is followed by white space, by the next match or by the end of the
value, then apart from white space the parts make up the whole value; the value itself is added
as the last result unless there is a single part.  Missing: without the condition the character
following a match is lost (`C74_character_lost`). -/
theorem C74_parts_complete_partial (cc : CharClass) (s : Str) (m : Nat × Nat) (ms : List (Nat × Nat))
    (hs : SpansFrom s.length 0 (m :: ms)) (hf : AllFollowedBySpace cc s (m :: ms)) :
    ∃ parts, nonSpace cc parts.flatten = nonSpace cc s ∧
      extractUsingRegex cc s (m :: ms) = if parts.length = 1 then parts else parts ++ [s] :=
  ⟨extractPieces cc s (m :: ms), by
    rw [extractPieces_flatten, extractLoop_nonSpace cc s _ 0 0 hs hf (.inl rfl)]; rfl,
    extractUsingRegex_cons cc s m ms⟩

/-- C74 (partial): in any case the parts contain no character twice and none out of order. -/
theorem C74_parts_in_order_partial (cc : CharClass) (s : Str) (m : Nat × Nat) (ms : List (Nat × Nat))
    (hs : SpansFrom s.length 0 (m :: ms)) :
    ∃ parts, (nonSpace cc parts.flatten).Sublist (nonSpace cc s) ∧
      extractUsingRegex cc s (m :: ms) = if parts.length = 1 then parts else parts ++ [s] :=
  ⟨extractPieces cc s (m :: ms), by
    rw [extractPieces_flatten]
    exact extractLoop_nonSpace_sublist cc s _ 0 0 hs (Nat.le_refl _),
    extractUsingRegex_cons cc s m ms⟩

/-- C74: which characters the parts have, apart from white space: all but those directly behind a match, unless
they are part of the next match. -/
theorem C74_exact (cc : CharClass) (s : Str) (m : Nat × Nat) (ms : List (Nat × Nat))
    (hs : SpansFrom s.length 0 (m :: ms)) :
    ∃ parts, nonSpace cc parts.flatten = nonSpace cc (charsAt s (fun i => !behindMatch (m :: ms) i)) ∧
      extractUsingRegex cc s (m :: ms) = if parts.length = 1 then parts else parts ++ [s] :=
  ⟨extractPieces cc s (m :: ms), by
    rw [extractPieces_flatten, extractLoop_exact cc s _ 0 0 false hs (Nat.zero_le _) rfl]
    unfold charsIn charsAt keptFrom behindMatch
    rw [List.range_eq_range']
    simp only [Bool.false_and, Bool.false_or, Nat.sub_zero],
    extractUsingRegex_cons cc s m ms⟩

/-- The `(` is lost, in `C74_character_lost`. -/
example : charsAt c!"12(3)" (fun i => !behindMatch [(0, 2)] i) = c!"123)" := by decide +kernel

/-- Non-vacuity of the C74 theorems: two numbers in a text. -/
example : SpansFrom c!"vol 12 no 3".length 0 [(4, 6), (10, 11)] ∧
    extractUsingRegex asciiClass c!"vol 12 no 3" [(4, 6), (10, 11)] =
      [c!"vol", c!"12", c!"no", c!"3", c!"vol 12 no 3"] := by
  refine ⟨by simp [SpansFrom], by decide +kernel⟩

example : AllFollowedBySpace asciiClass c!"vol 12 no 3" [(4, 6), (10, 11)] := by
  refine ⟨.inl ?_, .inl ?_, trivial⟩
  · intro c hc; simp at hc; subst hc; decide
  · intro c hc; simp at hc

/-- C74 (disagreement): the character following a match is dropped, here the `(` and the `a`. -/
theorem C74_character_lost :
    extractUsingRegex asciiClass c!"12(3)" [(0, 2)] = [c!"12", c!"3)", c!"12(3)"] ∧
    extractUsingRegex asciiClass c!"12a" [(0, 2)] = [c!"12"] := by decide +kernel

end Verif
