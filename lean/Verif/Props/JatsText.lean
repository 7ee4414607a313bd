/-
C48, C49, C50: identifiers, quotes and URLs in references.
-/
import Verif.Lemmas.JatsText
import Verif.Lemmas.Ok

namespace Verif

open Spec

/-- C48 (partial): looking for a DOI does not fail for any text, and the range found is inside of
the text, is not empty and has the form of a DOI.  Missing: the range can contain a URL or a
duplicated DOI (`C48_url_inside`, `C48_duplicate_left`). -/
theorem C48_doi_range_partial (env : JatsTextEnv) (hcc : DigitsPlain env.cc) (h10 : ∀ c ∈ c!"10.", env.cc.isSpace c = false)
    (ht : TruncatesAtGap env) (text : Str) :
    findDoi env text = .ok none ∨ ∃ a b, findDoi env text = .ok (some (a, b)) ∧ a < b ∧ b ≤ text.length ∧
      IsDoi env.cc (sliceStr text a b) := by
  rcases findDoi_spec env hcc h10 ht text with h | ⟨a, b, h1, h2, h3, h4, -⟩
  · exact .inl h
  · exact .inr ⟨a, b, h1, h2, h3, h4⟩

/-- C48: the DOI found is never longer than what the pattern for DOIs matches. -/
theorem C48_within_match (env : JatsTextEnv) (hcc : DigitsPlain env.cc) (h10 : ∀ c ∈ c!"10.", env.cc.isSpace c = false)
    (ht : TruncatesAtGap env) (text : Str) (a b : Nat) (h : findDoi env text = .ok (some (a, b))) :
    ∃ e, doiSearch env.cc none 0 text = some (a, e) ∧ b ≤ e ∧ e ≤ text.length := by
  rcases findDoi_spec env hcc h10 ht text with h' | ⟨a', b', h1, -, -, -, e, h2, h3⟩
  · rw [h] at h'; cases h'
  · rw [h] at h1; cases h1
    exact ⟨e, h2, h3, (doiSearch_bounds hcc h2).2⟩

/-- C48: a second DOI that is a part of the text before it is cut off. -/
theorem C48_duplicate_removed (env : JatsTextEnv) (p path : Str) (o e : Nat) (hp : '/' ∉ p)
    (hs : doiSearch env.cc none 0 path = some (o, e)) (hd : path.drop o <:+: p ++ '/' :: path.take o) :
    removeDuplicateDoi env (p ++ '/' :: path) = .ok (rstrip env.cc (p ++ '/' :: path.take o)) := by
  unfold removeDuplicateDoi
  rw [splitOnce_append '/' p path hp]
  simp only [hs]
  rw [if_pos ((strIn_iff ..).mpr hd)]

/-- Parameters for the examples: tokens are not truncated. -/
def jatsTextExampleEnv : JatsTextEnv where
  cc := asciiClass
  isPunct c := c = '.' || c = '/' || c = '-'
  truncateAt s := if s = c!"10.1234/a PubMed" then some 9 else none
  titleSpan _ := none

/-- Non-vacuity of the C48 theorems. -/
example : DigitsPlain asciiClass ∧ (∀ c ∈ c!"10.", asciiClass.isSpace c = false) ∧ TruncatesAtGap jatsTextExampleEnv := by
  refine ⟨⟨?_, by decide, by decide⟩, by decide, ?_⟩
  · intro c hc
    have hv : '0' ≤ c ∧ c ≤ '9' := by simpa [asciiClass] using hc
    have h1 : 48 ≤ c.val.toNat ∧ c.val.toNat ≤ 57 := ⟨hv.1, hv.2⟩
    have key : ∀ d : Char, d.val.toNat < 48 ∨ 57 < d.val.toNat → c ≠ d := by
      intro d hd he; subst he; omega
    refine ⟨?_, key _ (by decide), key _ (by decide), key _ (by decide), key _ (by decide), key _ (by decide)⟩
    simp only [asciiClass, Bool.or_eq_false_iff, decide_eq_false_iff_not]
    exact ⟨⟨⟨key _ (by decide), key _ (by decide)⟩, key _ (by decide)⟩, key _ (by decide)⟩
  · intro s i h
    simp only [jatsTextExampleEnv] at h
    split at h
    · next hs => cases h; subst hs; exact ⟨' ', by decide, .inl (by decide)⟩
    · cases h

/-- Non-vacuity: DOIs that are found, truncated, and freed of repetitions. -/
example : findDoi jatsTextExampleEnv c!"doi:10.1234/a PubMed" = .ok (some (4, 13)) ∧
    findDoi jatsTextExampleEnv c!"10.1234/abc 10.1234/abc" = .ok (some (0, 11)) ∧
    findDoi jatsTextExampleEnv c!"10.1234/abc-d abcd [pii]." = .ok (some (0, 13)) ∧
    findDoi jatsTextExampleEnv c!"doi 9.1234/abc" = .ok none := by decide +kernel

/-- C48 (disagreement): the range can contain a URL. -/
theorem C48_url_inside :
    findDoi jatsTextExampleEnv c!"10.1234/a http://b.c" = .ok (some (0, 20)) ∧
      c!"http://" <:+: sliceStr c!"10.1234/a http://b.c" 0 20 :=
  ⟨by decide +kernel, ⟨c!"10.1234/a ", c!"b.c", by decide⟩⟩

/-- C48 (disagreement): if a DOI is repeated twice, all of the repetitions are kept. -/
theorem C48_duplicate_left :
    findDoi jatsTextExampleEnv c!"10.1234/a 10.1234/a 10.1234/a" = .ok (some (0, 29)) := by decide +kernel

/-- C48: a DOI that contains another one is cut there exactly if the second part is contained in
the first, possibly up to punctuation and white space. -/
theorem C48_repetition (env : JatsTextEnv) (p path : Str) (o e : Nat) (hp : '/' ∉ p)
    (hs : doiSearch env.cc none 0 path = some (o, e)) :
    (path.drop o <:+: p ++ '/' :: path.take o ∨ solid env (path.drop o) <:+: solid env (p ++ '/' :: path.take o)) ∧
        removeDuplicateDoi env (p ++ '/' :: path) = .ok (rstrip env.cc (p ++ '/' :: path.take o)) ∨
      (¬ path.drop o <:+: p ++ '/' :: path.take o ∧ ¬ solid env (path.drop o) <:+: solid env (p ++ '/' :: path.take o)) ∧
        removeDuplicateDoi env (p ++ '/' :: path) = .ok (p ++ '/' :: path) := by
  have hsolid : ∀ s, removePunctOrSpace env s = solid env s := by
    intro s
    unfold removePunctOrSpace solid
    congr 1
    funext c
    cases env.isPunct c <;> cases env.cc.isSpace c <;> rfl
  unfold removeDuplicateDoi
  rw [splitOnce_append '/' p path hp]
  simp only [hs]
  by_cases h1 : path.drop o <:+: p ++ '/' :: path.take o
  · rw [if_pos ((strIn_iff ..).mpr h1)]
    exact .inl ⟨.inl h1, rfl⟩
  · rw [if_neg (fun h => h1 ((strIn_iff ..).mp h)), hsolid, hsolid]
    by_cases h2 : solid env (path.drop o) <:+: solid env (p ++ '/' :: path.take o)
    · rw [if_pos ((strIn_iff ..).mpr h2)]
      exact .inl ⟨.inr h2, rfl⟩
    · rw [if_neg (fun h => h2 ((strIn_iff ..).mp h))]
      exact .inr ⟨⟨h1, h2⟩, rfl⟩

theorem rsplitSpace_append (a b : Str) (hb : ' ' ∉ b) : rsplitSpace (a ++ ' ' :: b) = some (a, b) := by
  unfold rsplitSpace
  rw [if_pos (by simp)]
  have h : ((a ++ ' ' :: b).reverse.takeWhile (fun c => decide (c ≠ ' '))).reverse = b := by
    rw [List.reverse_append, List.reverse_cons, List.append_assoc]
    rw [List.takeWhile_append_of_pos (by
      intro x hx
      have hx : x ∈ b := by simpa using hx
      simp only [decide_eq_true_eq]
      rintro rfl
      exact hb hx)]
    simp
  simp only [h]
  congr 2
  rw [List.length_append, List.length_cons, show a.length + (b.length + 1) - b.length - 1 = a.length by omega, List.take_left]

/-- C48: a PII behind a DOI, marked as such, is removed exactly if it has at least three characters
and is contained in the DOI, possibly up to punctuation.  The mark itself is always removed. -/
theorem C48_pii (env : JatsTextEnv) (doi start dup : Str) (hdup : ' ' ∉ dup)
    (hd : rstrip env.cc doi = start ++ ' ' :: dup) :
    (3 ≤ dup.length ∧ (dup <:+: start ∨ 3 ≤ (unpunctuated env dup).length ∧ unpunctuated env dup <:+: unpunctuated env start)) ∧
        stripPiiFromDoi env (doi ++ c!"[pii]") = rstrip env.cc start ∨
      ¬ (3 ≤ dup.length ∧ (dup <:+: start ∨ 3 ≤ (unpunctuated env dup).length ∧ unpunctuated env dup <:+: unpunctuated env start)) ∧
        stripPiiFromDoi env (doi ++ c!"[pii]") = rstrip env.cc doi := by
  have hun : ∀ s, removePunct env s = unpunctuated env s := by
    intro s
    unfold removePunct unpunctuated
    congr 1
    funext c
    cases env.isPunct c <;> rfl
  have hend : endsWith c!"[pii]" (doi ++ c!"[pii]") = true := by
    unfold endsWith
    exact List.isSuffixOf_iff_suffix.mpr ⟨doi, rfl⟩
  have htake : (doi ++ c!"[pii]").take ((doi ++ c!"[pii]").length - 5) = doi := by
    rw [List.length_append, show (c!"[pii]" : Str).length = 5 from rfl, Nat.add_sub_cancel, List.take_left]
  unfold stripPiiFromDoi
  rw [hend]
  simp only [Bool.not_true, Bool.false_eq_true, if_false]
  rw [htake, hd, rsplitSpace_append start dup hdup]
  simp only [hun]
  by_cases h1 : dup.length < 3
  · rw [if_pos h1]
    exact .inr ⟨fun h => absurd h.1 (by omega), rfl⟩
  · rw [if_neg h1]
    by_cases h2 : dup <:+: start
    · rw [if_pos ((strIn_iff ..).mpr h2)]
      exact .inl ⟨⟨by omega, .inl h2⟩, rfl⟩
    · rw [if_neg (fun h => h2 ((strIn_iff ..).mp h))]
      by_cases h3 : (unpunctuated env dup).length < 3
      · rw [if_pos h3]
        refine .inr ⟨?_, rfl⟩
        rintro ⟨_, h | ⟨h, _⟩⟩
        · exact h2 h
        · omega
      · rw [if_neg h3]
        by_cases h4 : unpunctuated env dup <:+: unpunctuated env start
        · rw [if_pos ((strIn_iff ..).mpr h4)]
          exact .inl ⟨⟨by omega, .inr ⟨by omega, h4⟩⟩, rfl⟩
        · rw [if_neg (fun h => h4 ((strIn_iff ..).mp h))]
          refine .inr ⟨?_, rfl⟩
          rintro ⟨_, h | ⟨_, h⟩⟩
          · exact h2 h
          · exact h4 h

/-- Non-vacuity of `C48_pii` and `C48_repetition`. -/
example : stripPiiFromDoi jatsTextExampleEnv c!"10.1234/abc-d abcd [pii]" = c!"10.1234/abc-d" ∧
    stripPiiFromDoi jatsTextExampleEnv c!"10.1234/abc-d abce [pii]" = c!"10.1234/abc-d abce" ∧
    doiSearch asciiClass none 0 c!"ab-c 10.1234/abc" = some (5, 16) ∧
    removeDuplicateDoi jatsTextExampleEnv c!"10.1234/ab-c 10.1234/abc" = .ok c!"10.1234/ab-c" := by decide +kernel

/-- C49: the range of a title loses characters only in pairs: it is the range matched by the
pattern, or without its first and last character, which are matching quotes around at least one
character. -/
theorem C49_title_quotes (env : JatsTextEnv) (text : Str) (a b : Nat)
    (h : (env.titleSpan text).getD (0, text.length) = (a, b)) :
    findArticleTitle env text = (a, b) ∨
      findArticleTitle env text = (a + 1, b - 1) ∧ a + 1 < b - 1 ∧
        ∃ x y, text[a]? = some x ∧ text[b - 1]? = some y ∧ QuotePair x y := by
  unfold findArticleTitle
  rw [h]
  simp only []
  split
  · next hq =>
    right
    unfold hasSurroundingQuotes at hq
    rw [Bool.and_eq_true, decide_eq_true_eq, List.any_eq_true] at hq
    obtain ⟨hlt, q, hq, hxy⟩ := hq
    rw [Bool.and_eq_true, decide_eq_true_eq, decide_eq_true_eq] at hxy
    exact ⟨rfl, by omega, q.1, q.2, hxy.1, hxy.2, hq⟩
  · exact .inl rfl

/-- C49: and it does lose them if there are such quotes. -/
theorem C49_title_quotes_removed (env : JatsTextEnv) (text : Str) (a b : Nat) (x y : Char)
    (h : (env.titleSpan text).getD (0, text.length) = (a, b)) (hlt : a + 2 < b)
    (hx : text[a]? = some x) (hy : text[b - 1]? = some y) (hq : QuotePair x y) :
    findArticleTitle env text = (a + 1, b - 1) := by
  unfold findArticleTitle
  rw [h]
  simp only []
  rw [if_pos]
  unfold hasSurroundingQuotes
  rw [Bool.and_eq_true, decide_eq_true_eq, List.any_eq_true]
  refine ⟨hlt, (x, y), hq, ?_⟩
  rw [Bool.and_eq_true, decide_eq_true_eq, decide_eq_true_eq]
  exact ⟨hx, hy⟩

/-- Non-vacuity of the C49 theorems. -/
example : findArticleTitle jatsTextExampleEnv c!"\"Title\"" = (1, 6) ∧
    findArticleTitle jatsTextExampleEnv c!"“Title”" = (1, 6) ∧
    findArticleTitle jatsTextExampleEnv c!"“Title’" = (0, 7) := by decide +kernel

/-- C50: the pieces a text is split into at URLs give the text again. -/
theorem C50_concatenation (url : Str) : (splitUrl url).flatten = url := (splitUrl_spec url).1

/-- C50: the text is cut exactly where a URL starts: no piece is empty, a URL starts at every piece
but the first, and nowhere inside of a piece. -/
theorem C50_cuts (url : Str) (a : List Str) (p : Str) (b : List Str) (h : splitUrl url = a ++ p :: b) :
    p ≠ [] ∧ (a ≠ [] → StartsUrl (p ++ b.flatten)) ∧
      ∀ k, 0 < k → k < p.length → ¬ StartsUrl (p.drop k ++ b.flatten) := (splitUrl_spec url).2 a p b h

/-- Non-vacuity of the C50 theorems. -/
example : splitUrl c!"see http://ahttps://b" = [c!"see ", c!"http://a", c!"https://b"] := by decide +kernel

/-- C115: the target of a link made from a text is the text without white space, with a scheme. -/
theorem C115_target (cc : CharClass) (text : Str) : LinkTarget cc text (fullCleanedUrl cc text) := by
  refine ⟨_, rfl, ?_⟩
  have hf : text.filter (fun c => !cc.isSpace c) = text.filter (fun c => decide (cc.isSpace c = false)) := by
    congr 1
    funext c
    cases cc.isSpace c <;> rfl
  unfold fullCleanedUrl
  simp only
  rw [hf]
  by_cases h : c!"://" <:+: text.filter (fun c => decide (cc.isSpace c = false))
  · rw [if_pos ((strIn_iff ..).mpr h)]
    exact .inl ⟨h, rfl⟩
  · rw [if_neg (fun hc => h ((strIn_iff ..).mp hc))]
    exact .inr ⟨h, rfl⟩

example : fullCleanedUrl asciiClass c!"doi. org/1" = c!"https://doi.org/1" ∧
    fullCleanedUrl asciiClass c!"http: //a" = c!"http://a" := by decide +kernel

end Verif
