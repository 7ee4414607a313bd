/-
C150: labels in front of identifiers in references.
-/
import Verif.Spec.ReferenceLabel
import Verif.Model.ReferencePatterns
import Verif.Model.Tools
import Verif.Props.JatsPatterns
import Verif.Props.Reference

namespace Verif
open Spec

theorem fits_labelEnd {cc : CharClass} {u x v : Str} : (labelEndRe cc).Fits cc u x v ↔
    (x = [] ∨ x = c!":" ∨ ∃ c, x = [c, ':'] ∧ cc.isSpace c = true) ∧ (v = [] ∨ v = ['\n']) := by
  unfold labelEndRe
  have h0 : ∀ u v, ¬ (Re.chr cc.isSpace).Fits cc u [] v := fun u v h => by
    obtain ⟨c, hc, _⟩ := Re.fits_chr.1 h
    cases hc
  have h1 : ∀ u x v, (Re.seq (.opt (.chr cc.isSpace)) (.lit exactly c!":")).Fits cc u x v ↔ x = c!":" ∨ ∃ c, x = [c, ':'] ∧ cc.isSpace c = true := by
    intro u x v
    simp only [Re.fits_seq, Re.fits_opt (h0 _ _), Re.fits_lit, sameLetters_exactly, Re.fits_chr]
    constructor
    · rintro ⟨y, z, rfl, rfl | ⟨c, rfl, hc⟩, rfl⟩
      · exact .inl rfl
      · exact .inr ⟨c, rfl, hc⟩
    · rintro (rfl | ⟨c, rfl, hc⟩)
      · exact ⟨[], c!":", rfl, .inl rfl, rfl⟩
      · exact ⟨[c], c!":", rfl, .inr ⟨c, rfl, hc⟩, rfl⟩
  have h2 : ∀ u v, ¬ (Re.seq (.opt (.chr cc.isSpace)) (.lit exactly c!":")).Fits cc u [] v := fun u v h => by
    rcases (h1 _ _ _).1 h with h | ⟨c, h, _⟩ <;> cases h
  simp only [Re.fits_seq, Re.fits_opt (h2 _ _), h1, Re.fits_eol]
  constructor
  · rintro ⟨y, _, rfl, h3, rfl, h4⟩
    rw [List.append_nil]
    exact ⟨h3, h4⟩
  · rintro ⟨h3, h4⟩
    exact ⟨x, [], by simp, h3, rfl, h4⟩

/-- A border of a word, a word and the end of the label. -/
theorem label_search {cc : CharClass} {r : Re} {word : Str → Prop} (hr : ∀ u x v, r.Fits cc u x v ↔ word x) (hne : ∀ x, word x → x ≠ []) (s : Str) :
    let p : Pattern := ⟨.empty, .seq .wordB (.seq r (labelEndRe cc)), .empty⟩
    ((p.search cc s).map (·.1) = none ↔ ∀ u l k n, ¬ LabelAtEnd cc word s u l k n) ∧
    ∀ a, (p.search cc s).map (·.1) = some a → ∃ u l k n, LabelAtEnd cc word s u l k n ∧ a = u.length ∧
      ∀ u' l' k' n', LabelAtEnd cc word s u' l' k' n' → u.length ≤ u'.length := by
  have hF : ∀ u x v, (Re.seq .wordB (.seq r (labelEndRe cc))).Fits cc u x v ↔ ∃ l k, x = l ++ k ∧ LabelAtEnd cc word (u ++ x ++ v) u l k v := by
    intro u x v
    have hst : ∀ l : Str, l ≠ [] → ∀ t, startsInWord cc (l ++ t) = startsInWord cc l := by
      intro l hl t
      cases l with
      | nil => exact absurd rfl hl
      | cons c l => rfl
    simp only [Re.fits_seq, Re.fits_wordB, hr, fits_labelEnd]
    constructor
    · rintro ⟨_, _, rfl, ⟨rfl, h1⟩, l, k, rfl, h2, h3, h4⟩
      refine ⟨l, k, rfl, by simp, h2, ?_, h3, h4⟩
      rw [List.append_assoc, hst l (hne l h2)] at h1
      exact wordEdge_iff.1 h1
    · rintro ⟨l, k, rfl, h⟩
      refine ⟨[], l ++ k, rfl, ⟨rfl, ?_⟩, l, k, rfl, h.word, h.colon, h.line⟩
      rw [List.append_assoc, hst l (hne l h.word)]
      exact wordEdge_iff.2 h.begins
  obtain ⟨h1, h2⟩ := group_search hF s
  refine ⟨?_, fun a h => ?_⟩
  · rw [Option.map_eq_none_iff, h1]
    constructor
    · intro h u l k n hl
      refine h u (l ++ k) n (by rw [hl.text]; simp) ⟨l, k, rfl, ?_⟩
      have e : u ++ (l ++ k) ++ n = s := by rw [hl.text]; simp
      rw [e]; exact hl
    · rintro h u x v e ⟨l, k, rfl, hl⟩
      rw [← e] at hl
      exact h u l k v hl
  · obtain ⟨⟨a', b⟩, hab, rfl⟩ := Option.map_eq_some_iff.1 h
    obtain ⟨u, x, v, e, ⟨l, k, rfl, hl⟩, e1, _, hm, _⟩ := h2 a' b hab
    rw [← e] at hl
    refine ⟨u, l, k, v, hl, e1, fun u' l' k' n' hl' => ?_⟩
    refine hm u' (l' ++ k') n' (by rw [hl'.text]; simp) ⟨l', k', rfl, ?_⟩
    have e' : u' ++ (l' ++ k') ++ n' = s := by rw [hl'.text]; simp
    rw [e']; exact hl'

/-- **C150.** Searching with the pattern of a sub tag of identifiers finds something exactly if the text ends with a label for it,
perhaps with a colon and a line break behind it, and then the label. -/
theorem C150_search (cc : CharClass) (same : Char → Char → Bool) (v : Str) (hv : v ∈ identifierTags) (withLabels : Bool) (s : Str) :
    ∃ pattern, (referenceCfg withLabels).prefixRegex.get? v = some pattern ∧
      ((refEnvOf cc same).search pattern s = none ↔ ∀ u l k n, ¬ LabelAtEnd cc (LabelWord same v) s u l k n) ∧
      ∀ a, (refEnvOf cc same).search pattern s = some a → ∃ u l k n, LabelAtEnd cc (LabelWord same v) s u l k n ∧ a = u.length ∧
        ∀ u' l' k' n', LabelAtEnd cc (LabelWord same v) s u' l' k' n' → u.length ≤ u'.length := by
  have hd : ∀ x, TwoLetters x → x ≠ [] := by
    rintro x ⟨h, _⟩ rfl
    cases h
  have hs : ∀ t : Str, t ≠ [] → ∀ x, SameLetters same t x → x ≠ [] := by
    rintro t ht x h rfl
    have := sameLetters_length h
    exact ht (List.length_eq_zero_iff.1 this.symm)
  have hw : (v ≠ c!"reference-doi" → v ≠ c!"reference-pii" → LabelWord same v = TwoLetters) := by
    intro h1 h2
    funext l
    have h3 : v ∈ [c!"reference-issn", c!"reference-isbn", c!"reference-pmid", c!"reference-pmcid", c!"reference-arxiv"] := by
      simp only [identifierTags, List.mem_cons, List.not_mem_nil, or_false] at hv ⊢
      rcases hv with h | h | h | h | h | h | h
      · exact .inl h
      · exact .inr (.inl h)
      · exact absurd h h1
      · exact absurd h h2
      · exact .inr (.inr (.inl h))
      · exact .inr (.inr (.inr (.inl h)))
      · exact .inr (.inr (.inr (.inr h)))
    simp only [LabelWord, h1, h2, false_and, false_or, h3, true_and]
  have key : ∀ pattern, (referenceCfg withLabels).prefixRegex.get? v = some pattern → ∀ r : Re, (∀ u x w, r.Fits cc u x w ↔ LabelWord same v x) →
      (refEnvOf cc same).search pattern s = ((Pattern.search cc ⟨.empty, .seq .wordB (.seq r (labelEndRe cc)), .empty⟩ s).map (·.1)) →
      (∀ x, LabelWord same v x → x ≠ []) →
      ∃ pattern, (referenceCfg withLabels).prefixRegex.get? v = some pattern ∧
      ((refEnvOf cc same).search pattern s = none ↔ ∀ u l k n, ¬ LabelAtEnd cc (LabelWord same v) s u l k n) ∧
      ∀ a, (refEnvOf cc same).search pattern s = some a → ∃ u l k n, LabelAtEnd cc (LabelWord same v) s u l k n ∧ a = u.length ∧
        ∀ u' l' k' n', LabelAtEnd cc (LabelWord same v) s u' l' k' n' → u.length ≤ u'.length := by
    intro pattern hp r hr he hne
    refine ⟨pattern, hp, ?_⟩
    rw [he]
    exact label_search hr hne s
  have hdef : v ≠ c!"reference-doi" → v ≠ c!"reference-pii" → (referenceCfg withLabels).prefixRegex.get? v = some c!"\\b[a-zA-Z]{2,}(\\s?:)?$" →
      ∃ pattern, (referenceCfg withLabels).prefixRegex.get? v = some pattern ∧
      ((refEnvOf cc same).search pattern s = none ↔ ∀ u l k n, ¬ LabelAtEnd cc (LabelWord same v) s u l k n) ∧
      ∀ a, (refEnvOf cc same).search pattern s = some a → ∃ u l k n, LabelAtEnd cc (LabelWord same v) s u l k n ∧ a = u.length ∧
        ∀ u' l' k' n', LabelAtEnd cc (LabelWord same v) s u' l' k' n' → u.length ≤ u'.length := by
    intro h1 h2 hp
    refine key _ hp (.rep (.chr isLetterAZ) 2 none true) (fun u x w => ?_) ?_ ?_
    · rw [hw h1 h2, Re.fits_rep_chr]
      simp only [TwoLetters, isLetterAZ, Bool.or_eq_true, Bool.and_eq_true, decide_eq_true_eq]
      exact ⟨fun h => ⟨h.1, h.2.2⟩, fun h => ⟨h.1, fun _ e => (nomatch e), h.2⟩⟩
    · rfl
    · rw [hw h1 h2]; exact hd
  have hv' := hv
  simp only [identifierTags, List.mem_cons, List.not_mem_nil, or_false] at hv'
  rcases hv' with rfl | rfl | rfl | rfl | rfl | rfl | rfl
  · exact hdef (by decide) (by decide) rfl
  · exact hdef (by decide) (by decide) rfl
  · have hW : ∀ x, LabelWord same c!"reference-doi" x ↔ SameLetters same c!"DOI" x := by
      intro x
      unfold LabelWord
      constructor
      · rintro (⟨_, h⟩ | ⟨h, _⟩ | ⟨h, _⟩)
        · exact h
        · exact absurd h (by decide)
        · exact absurd h (by decide)
      · exact fun h => .inl ⟨rfl, h⟩
    refine key _ rfl (.lit same c!"DOI") (fun u x w => by rw [Re.fits_lit, hW]) ?_ (fun x h => hs c!"DOI" (by decide) x ((hW x).1 h))
    unfold refEnvOf
    dsimp only
    rw [if_neg (by decide), if_pos rfl]
    rfl
  · have hW : ∀ x, LabelWord same c!"reference-pii" x ↔ SameLetters same c!"PII" x := by
      intro x
      unfold LabelWord
      constructor
      · rintro (⟨h, _⟩ | ⟨_, h⟩ | ⟨h, _⟩)
        · exact absurd h (by decide)
        · exact h
        · exact absurd h (by decide)
      · exact fun h => .inr (.inl ⟨rfl, h⟩)
    refine key _ rfl (.lit same c!"PII") (fun u x w => by rw [Re.fits_lit, hW]) ?_ (fun x h => hs c!"PII" (by decide) x ((hW x).1 h))
    unfold refEnvOf
    dsimp only
    rw [if_neg (by decide), if_neg (by decide), if_pos rfl]
    rfl
  · exact hdef (by decide) (by decide) rfl
  · exact hdef (by decide) (by decide) rfl
  · exact hdef (by decide) (by decide) rfl

theorem labelWord_ne {same : Char → Char → Bool} {v l : Str} (h : LabelWord same v l) : l ≠ [] := by
  rintro rfl
  rcases h with ⟨_, h⟩ | ⟨_, h⟩ | ⟨_, h, _⟩
  · exact absurd (sameLetters_length h) (by decide)
  · exact absurd (sameLetters_length h) (by decide)
  · cases h

/-- **C150.** Untagged tokens before an identifier, with `--include-idno-prefix`. If their text ends with a label for it, the tokens from
the first character of the label on become part of the identifier. Otherwise the identifier remains as it is. -/
theorem C150_prefix {cc : CharClass} {same : Char → Char → Bool} {a g b : List RefTok} {x : RefTok} {xs : List RefTok} {v : Str}
    {out : List (Option Str)} (hv : v ∈ identifierTags)
    (h : prefixExtended (refEnvOf cc same) (referenceCfg true).prefixRegex (referenceCfg true).prefixTags (a ++ g ++ (x :: xs) ++ b) = .ok out)
    (hp : ∀ y ∈ a ++ g ++ (x :: xs) ++ b, Spec.ProperTag y.1) (ht : ∀ y ∈ a ++ g ++ (x :: xs) ++ b, y.2.1 ≠ [])
    (hg : Spec.MaximalRun none (a.map (·.1)) (g.map (·.1)) (((x :: xs) ++ b).map (·.1)))
    (hr : Spec.MaximalRun (some v) ((a ++ g).map (·.1)) ((x :: xs).map (·.1)) (b.map (·.1))) :
    (∀ u₀ l₀ k₀ n₀, LabelAtEnd cc (LabelWord same v) (gapText g) u₀ l₀ k₀ n₀ →
      ∃ u l k n, LabelAtEnd cc (LabelWord same v) (gapText g) u l k n ∧
        (∀ u' l' k' n', LabelAtEnd cc (LabelWord same v) (gapText g) u' l' k' n' → u.length ≤ u'.length) ∧
        ∃ g1 t g2, g = g1 ++ t :: g2 ∧ (gapText g1).length ≤ u.length ∧ u.length < (gapText (g1 ++ [t])).length ∧
          Spec.part out a.length (g.length + (xs.length + 1)) =
            List.replicate g1.length none ++ x.1 :: List.replicate g2.length (Spec.insideTag x.1) ++
              Spec.insideTag x.1 :: xs.map (·.1)) ∧
    ((∀ u l k n, ¬ LabelAtEnd cc (LabelWord same v) (gapText g) u l k n) →
      Spec.part out a.length (g.length + (xs.length + 1)) = List.replicate g.length none ++ x.1 :: xs.map (·.1)) := by
  obtain ⟨pattern, hpat, hn, hs⟩ := C150_search cc same v hv true (gapText g)
  obtain ⟨h1, h2⟩ := C70_prefix h hp ht hg hr
  constructor
  · intro u₀ l₀ k₀ n₀ h₀
    cases hse : (refEnvOf cc same).search pattern (gapText g) with
    | none => exact absurd h₀ (hn.1 hse u₀ l₀ k₀ n₀)
    | some start =>
      obtain ⟨u, l, k, n, hl, rfl, hm⟩ := hs _ hse
      refine ⟨u, l, k, n, hl, hm, h1 _ ⟨v, pattern, rfl, hv, hpat, hse, ?_⟩⟩
      have := List.length_pos_iff.2 (labelWord_ne hl.word)
      rw [hl.text]
      simp only [List.length_append]
      omega
  · intro hno
    refine h2 ?_
    rintro start ⟨v', pattern', e, _, hpat', hse, _⟩
    obtain rfl := Option.some.inj e
    rw [hpat] at hpat'
    obtain rfl := Option.some.inj hpat'
    rw [hn.2 hno] at hse
    cases hse

/-- Whether the letters differ at most in case, for ASCII letters. -/
def exSameAscii (a b : Char) : Bool := a.toLower == b.toLower

/-- The hypotheses are met: the label `doi :` becomes part of the DOI, the `see` before it does not. -/
example :
    let toks : List RefTok := [(some c!"b-reference-author", c!"Doe", some c!" "), (none, c!"see", some c!" "), (none, c!"doi", some c!" "), (none, c!":", some c!" "),
      (some c!"b-reference-doi", c!"10", some []), (some c!"i-reference-doi", c!".1", some [])]
    prefixExtended (refEnvOf asciiClass exSameAscii) (referenceCfg true).prefixRegex (referenceCfg true).prefixTags toks =
      .ok [some c!"b-reference-author", none, some c!"b-reference-doi", some c!"i-reference-doi", some c!"i-reference-doi", some c!"i-reference-doi"] := by
  rfl

example : LabelAtEnd asciiClass (LabelWord exSameAscii c!"reference-doi") (gapText [(none, c!"see", some c!" "), (none, c!"doi", some c!" "), (none, c!":", some c!" ")])
    c!"see " c!"doi" c!" :" [] := by
  refine ⟨rfl, .inl ⟨rfl, ?_⟩, ?_, .inr (.inr ⟨' ', rfl, rfl⟩), .inl rfl⟩
  · exact ⟨by decide +kernel, by decide +kernel, by decide +kernel, trivial⟩
  · exact wordEdge_iff.1 (by decide +kernel)

/-- For a PMID any word counts, also one that is no label. -/
example : (refEnvOf asciiClass exSameAscii).search c!"\\b[a-zA-Z]{2,}(\\s?:)?$" c!"2001, Nature" = some 6 ∧
    (refEnvOf asciiClass exSameAscii).search c!"\\b[a-zA-Z]{2,}(\\s?:)?$" c!"2001, Nature." = none ∧
    (refEnvOf asciiClass exSameAscii).search c!"(?i)\\bDOI(\\s?:)?$" c!"xDOI:" = none := by
  decide +kernel

end Verif
