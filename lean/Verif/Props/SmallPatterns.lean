/-
The functions of the model for page numbers and page headers (C31), words at the ends of texts (C75) and tag expressions (C56) do what the
regular expressions of the code do.
-/
import Verif.Model.SmallPatterns
import Verif.Lemmas.RegexFits
import Verif.Lemmas.SegPages
import Verif.Props.TagExpression
import Verif.Props.TargetAnnotations

namespace Verif
open Spec

theorem Pattern.matchStart_fits {cc : CharClass} {p : Pattern} {s : Str} {a b : Nat} (h : p.matchStart cc s = some (a, b)) :
    ∃ y x z v, s = y ++ x ++ z ++ v ∧ a = y.length ∧ b = y.length + x.length ∧ p.Fits cc [] y x z v := by
  unfold Pattern.matchStart at h
  obtain ⟨j, hd⟩ := (Pattern.mem_all (Nat.zero_le _)).1 (List.mem_of_head? h)
  obtain ⟨u, y, x, z, v, e, e1, e2, e3, hf⟩ := Pattern.den_split (Nat.zero_le _) hd
  obtain rfl := List.length_eq_zero_iff.1 e1.symm
  exact ⟨y, x, z, v, by rw [e]; rfl, by rw [e2]; simp, by rw [e3]; simp, hf⟩

theorem Pattern.matchStart_isSome {cc : CharClass} {p : Pattern} {s : Str} :
    (p.matchStart cc s).isSome = true ↔ ∃ y x z v, s = y ++ x ++ z ++ v ∧ p.Fits cc [] y x z v := by
  constructor
  · intro h
    obtain ⟨⟨a, b⟩, hab⟩ := Option.isSome_iff_exists.1 h
    obtain ⟨y, x, z, v, e, _, _, hf⟩ := Pattern.matchStart_fits hab
    exact ⟨y, x, z, v, e, hf⟩
  · rintro ⟨y, x, z, v, rfl, hf⟩
    have hd := Pattern.den_iff.2 hf
    rw [List.nil_append] at hd
    have hm := (Pattern.mem_all (p := p) (cc := cc) (Nat.zero_le _)).2 ⟨_, hd⟩
    unfold Pattern.matchStart
    cases hl : p.all cc (y ++ x ++ z ++ v) 0 with
    | nil =>
      simp only [List.length_nil] at hm
      rw [hl] at hm
      cases hm
    | cons q l => rfl

theorem Pattern.search_isSome {cc : CharClass} {p : Pattern} {s : Str} :
    (p.search cc s).isSome = true ↔ ∃ u y x z v, s = u ++ y ++ x ++ z ++ v ∧ p.Fits cc u y x z v := by
  rw [← Bool.not_eq_false, Option.isSome_eq_false_iff, Option.isNone_iff_eq_none, Pattern.search_none_iff]
  constructor
  · intro h
    refine Classical.byContradiction fun hc => h ?_
    exact fun u y x z v e hf => hc ⟨u, y, x, z, v, e, hf⟩
  · rintro ⟨u, y, x, z, v, e, hf⟩ h
    exact h u y x z v e hf

/-- **C31.** Page numbers are the texts the regular expression of the code matches. -/
theorem C31_pattern (cc : CharClass) (env : SegEnv) (hn : env.isDigit '\n' = false) (s : Str) :
    isPageNumberText env s = ((pageNumberPattern env).matchStart cc s).isSome := by
  rw [Bool.eq_iff_iff, isPageNumberText_spec hn, Pattern.matchStart_isSome]
  unfold pageNumberPattern Pattern.Fits IsNumber
  simp only [Re.fits_bol, Re.fits_plus, Re.fits_eol]
  constructor
  · rintro ⟨ds, h1, h2, rfl | rfl⟩
    · exact ⟨[], s, [], [], by simp, ⟨trivial, rfl⟩, ⟨h1, h2⟩, rfl, .inl rfl⟩
    · exact ⟨[], ds, [], ['\n'], by simp, ⟨trivial, rfl⟩, ⟨h1, h2⟩, rfl, .inr rfl⟩
  · rintro ⟨_, x, _, v, rfl, ⟨_, rfl⟩, ⟨h1, h2⟩, rfl, rfl | rfl⟩
    · exact ⟨x, h1, h2, .inl (by simp)⟩
    · exact ⟨x, h1, h2, .inr (by simp)⟩

theorem fitsTimes_single {cc : CharClass} {a : Re} {p : Char → Bool} (ha : ∀ u x v, a.Fits cc u x v ↔ ∃ c, x = [c] ∧ p c = true) (n : Nat) (u x v : Str) :
    FitsTimes (a.Fits cc) n u x v ↔ FitsTimes ((Re.chr p).Fits cc) n u x v := by
  have : a.Fits cc = (Re.chr p).Fits cc := by
    funext u x v
    exact propext ((ha u x v).trans Re.fits_chr.symm)
  rw [this]

/-- **C31.** Page headers: the count, and the regular expressions of the code. -/
theorem C31_header_pattern (cc : CharClass) (env : SegEnv) (hs : env.isSpace '\n' = true) (s : Str) (count minCount : Nat) :
    isPageHeaderText env s count minCount =
      (decide (minCount ≤ count) && !((digitsPattern env).matchStart cc s).isSome && ((spacePattern env).search cc s).isSome) := by
  have h1 : ((digitsPattern env).matchStart cc s).isSome = (!s.isEmpty && s.all (fun c => env.isDigit c || env.isSpace c || c = '.')) := by
    rw [Bool.eq_iff_iff, Pattern.matchStart_isSome]
    have ha : ∀ u x v, (Re.alt (.alt (.chr env.isDigit) (.chr env.isSpace)) (.lit exactly c!".")).Fits cc u x v ↔
        ∃ c, x = [c] ∧ (env.isDigit c || env.isSpace c || decide (c = '.')) = true := by
      intro u x v
      simp only [Re.fits_alt, Re.fits_chr, Re.fits_lit, sameLetters_exactly, Bool.or_eq_true, decide_eq_true_eq]
      constructor
      · rintro ((⟨c, rfl, h⟩ | ⟨c, rfl, h⟩) | rfl)
        · exact ⟨c, rfl, .inl (.inl h)⟩
        · exact ⟨c, rfl, .inl (.inr h)⟩
        · exact ⟨'.', rfl, .inr rfl⟩
      · rintro ⟨c, rfl, (h | h) | rfl⟩
        · exact .inl (.inl ⟨c, rfl, h⟩)
        · exact .inl (.inr ⟨c, rfl, h⟩)
        · exact .inr rfl
    have hrep : ∀ u x v, (Re.rep (.alt (.alt (.chr env.isDigit) (.chr env.isSpace)) (.lit exactly c!".")) 1 none true).Fits cc u x v ↔
        x ≠ [] ∧ ∀ c ∈ x, (env.isDigit c || env.isSpace c || decide (c = '.')) = true := by
      intro u x v
      rw [← Re.fits_plus (cc := cc) (u := u) (v := v), Re.plus, Re.fits_rep, Re.fits_rep]
      simp only [fitsTimes_single ha]
    unfold digitsPattern Pattern.Fits
    simp only [Re.fits_bol, Re.fits_eol, hrep, Bool.and_eq_true, Bool.not_eq_true', List.isEmpty_eq_false_iff, List.all_eq_true]
    constructor
    · rintro ⟨_, x, _, v, rfl, ⟨_, rfl⟩, ⟨h1, h2⟩, rfl, rfl | rfl⟩
      · simp only [List.nil_append, List.append_nil]
        exact ⟨h1, h2⟩
      · simp only [List.nil_append, List.append_nil]
        refine ⟨by simp, fun c hc => ?_⟩
        rcases List.mem_append.1 hc with hc | hc
        · exact h2 c hc
        · rw [List.mem_singleton.1 hc, hs]; simp
    · rintro ⟨h1, h2⟩
      exact ⟨[], s, [], [], by simp, ⟨trivial, rfl⟩, ⟨h1, h2⟩, rfl, .inl rfl⟩
  have h2 : ((spacePattern env).search cc s).isSome = s.any env.isSpace := by
    rw [Bool.eq_iff_iff, Pattern.search_isSome, List.any_eq_true]
    unfold spacePattern Pattern.Fits
    simp only [Re.fits_empty, Re.fits_chr]
    constructor
    · rintro ⟨u, _, _, _, v, rfl, rfl, ⟨c, rfl, h⟩, rfl⟩
      exact ⟨c, by simp, h⟩
    · rintro ⟨c, hc, h⟩
      obtain ⟨u, v, rfl⟩ := List.append_of_mem hc
      exact ⟨u, [], [c], [], v, by simp, rfl, ⟨c, rfl, h⟩, rfl⟩
  rw [h1, h2]
  unfold isPageHeaderText
  by_cases hc : count < minCount
  · rw [if_pos hc, decide_eq_false (by omega)]; rfl
  · rw [if_neg hc, decide_eq_true (by omega), Bool.true_and]
    generalize (!s.isEmpty && s.all _) = b
    generalize s.any _ = d
    cases b <;> cases d <;> rfl

/-- **C75.** Texts that end or start with a word are those the regular expressions of the code match. -/
theorem C75_pattern (cc : CharClass) (hn : cc.isWord '\n' = false) (s : Str) :
    isEndsWithWord cc s = ((endsWithWordPattern cc).matchStart cc s).isSome ∧
    isStartsWithWord cc s = ((startsWithWordPattern cc).matchStart cc s).isSome := by
  rw [Bool.eq_iff_iff, Bool.eq_iff_iff (a := isStartsWithWord cc s), isEndsWithWord_iff, isStartsWithWord_iff, Pattern.matchStart_isSome, Pattern.matchStart_isSome]
  unfold endsWithWordPattern startsWithWordPattern Pattern.Fits EndsInOneLine StartsWithWord
  simp only [Re.fits_bol, Re.fits_empty, Re.fits_star, Re.fits_chr, Re.fits_seq, Re.fits_eol, decide_eq_true_eq]
  constructor
  · constructor
    · rintro ⟨a, c, hc, hl, h⟩
      have ha : ∀ d ∈ a, d ≠ '\n' := fun d hd e => hl (List.mem_append_left _ (e ▸ hd))
      rcases h with rfl | rfl
      · exact ⟨[], a, [c], [], by simp, rfl, ha, [c], [], rfl, ⟨c, rfl, hc⟩, rfl, .inl rfl⟩
      · exact ⟨[], a, [c], ['\n'], by simp, rfl, ha, [c], [], rfl, ⟨c, rfl, hc⟩, rfl, .inr rfl⟩
    · rintro ⟨_, x, _, v, rfl, rfl, hx, _, _, rfl, ⟨c, rfl, hc⟩, rfl, hv⟩
      refine ⟨x, c, hc, fun h => ?_, ?_⟩
      · rcases List.mem_append.1 h with h | h
        · exact hx _ h rfl
        · rw [← List.mem_singleton.1 h, hn] at hc
          cases hc
      · rcases hv with rfl | rfl
        · exact .inl (by simp)
        · exact .inr (by simp)
  · constructor
    · rintro ⟨d, b, hd, rfl⟩
      exact ⟨[], [d], [], b, by simp, ⟨trivial, rfl⟩, ⟨d, rfl, hd⟩, fun c hc => (nomatch hc)⟩
    · rintro ⟨_, _, z, v, rfl, ⟨_, rfl⟩, ⟨c, rfl, hc⟩, _⟩
      exact ⟨c, z ++ v, hc, by simp⟩

/-! ### Tag expressions -/

theorem fits_tagOpen {cc : CharClass} {u x v : Str} : tagOpenRe.Fits cc u x v ↔ x = c!"[" ∨ x = c!"[@" := by
  unfold tagOpenRe
  have h0 : ∀ u v, ¬ (Re.lit exactly c!"@").Fits cc u [] v := fun u v h => by
    rw [Re.fits_lit, sameLetters_exactly] at h
    cases h
  simp only [Re.fits_seq, Re.fits_opt (h0 _ _), Re.fits_lit, sameLetters_exactly]
  constructor
  · rintro ⟨_, z, rfl, rfl, rfl | rfl⟩
    · exact .inl rfl
    · exact .inr rfl
  · rintro (rfl | rfl)
    · exact ⟨c!"[", [], rfl, rfl, .inl rfl⟩
    · exact ⟨c!"[", c!"@", rfl, rfl, .inr rfl⟩

theorem fits_tagQuote {cc : CharClass} {u x v : Str} : tagQuoteRe.Fits cc u x v ↔ x = c!"=\"" := by
  unfold tagQuoteRe
  rw [Re.fits_lit, sameLetters_exactly]
  exact eq_comm

theorem fits_tagClose {cc : CharClass} {u x v : Str} : tagCloseRe.Fits cc u x v ↔ x = c!"\"]" := by
  unfold tagCloseRe
  rw [Re.fits_lit, sameLetters_exactly]
  exact eq_comm

theorem fits_tagName {cc : CharClass} {u x v : Str} : tagNameRe.Fits cc u x v ↔ x ≠ [] ∧ '[' ∉ x := by
  unfold tagNameRe
  simp only [Re.fits_plus, decide_eq_true_eq]
  exact ⟨fun h => ⟨h.1, fun hx => h.2 _ hx rfl⟩, fun h => ⟨h.1, fun c hc e => h.2 (e ▸ hc)⟩⟩

theorem fits_tagKey {cc : CharClass} {u x v : Str} : tagKeyRe.Fits cc u x v ↔ x ≠ [] ∧ '=' ∉ x := by
  unfold tagKeyRe
  simp only [Re.fits_plus, decide_eq_true_eq]
  exact ⟨fun h => ⟨h.1, fun hx => h.2 _ hx rfl⟩, fun h => ⟨h.1, fun c hc e => h.2 (e ▸ hc)⟩⟩

theorem fits_tagValue {cc : CharClass} {u x v : Str} : tagValueRe.Fits cc u x v ↔ x ≠ [] ∧ '\n' ∉ x := by
  unfold tagValueRe
  simp only [Re.fits_plus, decide_eq_true_eq]
  exact ⟨fun h => ⟨h.1, fun hx => h.2 _ hx rfl⟩, fun h => ⟨h.1, fun c hc e => h.2 (e ▸ hc)⟩⟩

/-- The parts of a tag expression with an attribute; the `@` may be counted as part of the name of the attribute. -/
structure TagParts (s tag at' k v lf : Str) : Prop where
  text : s = tag ++ c!"[" ++ at' ++ k ++ c!"=\"" ++ v ++ c!"\"]" ++ lf
  name : tag ≠ [] ∧ '[' ∉ tag
  sign : at' = [] ∨ at' = c!"@"
  key : k ≠ [] ∧ '=' ∉ k
  value : v ≠ [] ∧ '\n' ∉ v
  line : lf = [] ∨ lf = c!"\n"

theorem TagParts.expression {s tag at' k v lf : Str} (h : TagParts s tag at' k v lf) :
    ∃ k', TagExpression s tag [(k', v)] ∧ (at' = c!"@" ∨ k = c!"@" ∨ k.head? ≠ some '@' → k' = k) := by
  obtain ⟨e, ⟨t1, t2⟩, hs, ⟨k1, k2⟩, ⟨v1, v2⟩, hl⟩ := h
  rcases hs with rfl | rfl
  · by_cases hk : k = c!"@" ∨ k.head? ≠ some '@'
    · refine ⟨k, ?_, fun _ => rfl⟩
      rw [e]
      exact .withAttribute tag [] k v lf t1 t2 k1 k2 v1 v2 (.inr ⟨rfl, hk⟩) hl
    · have hk' : k ≠ c!"@" ∧ k.head? = some '@' := ⟨fun h => hk (.inl h), Classical.byContradiction fun h => hk (.inr h)⟩
      match k, hk' with
      | c :: k, hk' =>
        obtain rfl := Option.some.inj hk'.2
        refine ⟨k, ?_, ?_⟩
        · have := TagExpression.withAttribute tag c!"@" k v lf t1 t2 (fun h => hk'.1 (by rw [h])) (fun h => k2 (List.mem_cons_of_mem _ h)) v1 v2 (.inl rfl) hl
          rw [e]
          simpa using this
        · rintro (h | h | h)
          · cases h
          · exact absurd h hk'.1
          · exact absurd hk'.2 h
  · refine ⟨k, ?_, fun _ => rfl⟩
    rw [e]
    exact .withAttribute tag c!"@" k v lf t1 t2 k1 k2 v1 v2 (.inl rfl) hl

theorem fits_tagKeyPattern {cc : CharClass} {y x z w : Str} : tagKeyPattern.Fits cc [] y x z w ↔
    ∃ tag at' v, TagParts (y ++ x ++ z ++ w) tag at' x v w ∧ y = tag ++ c!"[" ++ at' := by
  unfold tagKeyPattern Pattern.Fits
  simp only [Re.fits_seq, Re.fits_bol, fits_tagName, fits_tagOpen, fits_tagKey, fits_tagQuote, fits_tagValue, fits_tagClose, Re.fits_eol]
  constructor
  · rintro ⟨⟨_, _, rfl, ⟨_, rfl⟩, tag, o, rfl, ht, ho⟩, hk, _, _, rfl, rfl, v, _, rfl, hv, _, _, rfl, rfl, rfl, hw⟩
    rcases ho with rfl | rfl
    · exact ⟨tag, [], v, ⟨by simp, ht, .inl rfl, hk, hv, hw⟩, by simp⟩
    · exact ⟨tag, c!"@", v, ⟨by simp, ht, .inr rfl, hk, hv, hw⟩, by simp⟩
  · rintro ⟨tag, at', v, h, rfl⟩
    have e : z = c!"=\"" ++ (v ++ (c!"\"]" ++ [])) := by
      have := h.text
      simp only [List.append_assoc, List.append_cancel_left_eq] at this
      rw [← List.append_assoc, ← List.append_assoc, List.append_cancel_right_eq] at this
      rw [this]
      simp
    refine ⟨⟨[], _, rfl, ⟨trivial, rfl⟩, tag, c!"[" ++ at', by simp, h.name, ?_⟩, h.key, _, _, e, rfl, v, _, rfl, h.value, _, _, rfl, rfl, rfl, h.line⟩
    rcases h.sign with rfl | rfl
    · exact .inl rfl
    · exact .inr rfl

theorem fits_tagValuePattern {cc : CharClass} {y x z w : Str} (h : tagValuePattern.Fits cc [] y x z w) :
    ∃ tag at' k, TagParts (y ++ x ++ z ++ w) tag at' k x w := by
  unfold tagValuePattern Pattern.Fits at h
  simp only [Re.fits_seq, Re.fits_bol, fits_tagName, fits_tagOpen, fits_tagKey, fits_tagQuote, fits_tagValue, fits_tagClose, Re.fits_eol] at h
  obtain ⟨⟨_, _, rfl, ⟨_, rfl⟩, tag, _, rfl, ht, o, _, rfl, ho, k, _, rfl, hk, rfl⟩, hv, _, _, rfl, rfl, rfl, hw⟩ := h
  rcases ho with rfl | rfl
  · exact ⟨tag, [], k, ⟨by simp, ht, .inl rfl, hk, hv, hw⟩⟩
  · exact ⟨tag, c!"@", k, ⟨by simp, ht, .inr rfl, hk, hv, hw⟩⟩

theorem tagParts_valuePattern {cc : CharClass} {s tag at' k v lf : Str} (h : TagParts s tag at' k v lf) :
    tagValuePattern.Fits cc [] (tag ++ c!"[" ++ at' ++ k ++ c!"=\"") v c!"\"]" lf := by
  unfold tagValuePattern Pattern.Fits
  simp only [Re.fits_seq, Re.fits_bol, fits_tagName, fits_tagOpen, fits_tagKey, fits_tagQuote, fits_tagValue, fits_tagClose, Re.fits_eol]
  refine ⟨⟨[], _, rfl, ⟨trivial, rfl⟩, tag, c!"[" ++ at' ++ (k ++ c!"=\""), by simp, h.name, c!"[" ++ at', k ++ c!"=\"", by simp, ?_, k, _, rfl, h.key, rfl⟩, h.value, _, _,
    (List.append_nil _).symm, rfl, rfl, h.line⟩
  rcases h.sign with rfl | rfl
  · exact .inl rfl
  · exact .inr rfl

theorem fits_tagNamePattern {cc : CharClass} {y x z w : Str} (h : tagNamePattern.Fits cc [] y x z w) :
    y = [] ∧ (x ≠ [] ∧ '[' ∉ x) ∧ (w = [] ∨ w = ['\n']) ∧ (z = [] ∨ ∃ at' k v, TagParts (y ++ x ++ z ++ w) x at' k v w) := by
  unfold tagNamePattern Pattern.Fits at h
  have h0 : ∀ u v, ¬ (Re.seq tagOpenRe (.seq tagKeyRe (.seq tagQuoteRe (.seq tagValueRe tagCloseRe)))).Fits cc u [] v := fun u v h => by
    rw [Re.fits_seq] at h
    obtain ⟨a, b, e, h1, _⟩ := h
    obtain ⟨rfl, -⟩ := List.append_eq_nil_iff.1 e.symm
    rw [fits_tagOpen] at h1
    rcases h1 with h1 | h1 <;> cases h1
  simp only [Re.fits_seq (a := Re.opt _), Re.fits_bol, fits_tagName, Re.fits_eol, Re.fits_opt (h0 _ _)] at h
  obtain ⟨⟨_, rfl⟩, hx, z, _, rfl, hz, rfl, hw⟩ := h
  refine ⟨rfl, hx, hw, ?_⟩
  rcases hz with rfl | hz
  · exact .inl rfl
  · simp only [Re.fits_seq, fits_tagOpen, fits_tagKey, fits_tagQuote, fits_tagValue, fits_tagClose] at hz
    obtain ⟨o, _, rfl, ho, k, _, rfl, hk, _, _, rfl, rfl, v, _, rfl, hv, rfl⟩ := hz
    rcases ho with rfl | rfl
    · exact .inr ⟨[], k, v, by simp, hx, .inl rfl, hk, hv, hw⟩
    · exact .inr ⟨c!"@", k, v, by simp, hx, .inr rfl, hk, hv, hw⟩

theorem namePattern_name {cc : CharClass} {tag : Str} (h : tag ≠ [] ∧ '[' ∉ tag) : tagNamePattern.Fits cc [] [] tag [] [] := by
  unfold tagNamePattern Pattern.Fits
  refine ⟨Re.fits_bol.2 ⟨rfl, rfl⟩, fits_tagName.2 h, Re.fits_seq.2 ⟨[], [], rfl, ?_, Re.fits_eol.2 ⟨rfl, .inl rfl⟩⟩⟩
  rw [Re.opt, Re.fits_rep]
  exact ⟨0, Nat.zero_le _, fun _ _ => Nat.zero_le _, rfl⟩

theorem tagParts_namePattern {cc : CharClass} {s tag at' k v lf : Str} (h : TagParts s tag at' k v lf) :
    tagNamePattern.Fits cc [] [] tag (c!"[" ++ at' ++ k ++ c!"=\"" ++ v ++ c!"\"]") lf := by
  unfold tagNamePattern Pattern.Fits
  refine ⟨Re.fits_bol.2 ⟨rfl, rfl⟩, fits_tagName.2 h.name, Re.fits_seq.2 ⟨_, [], (List.append_nil _).symm, ?_, Re.fits_eol.2 ⟨rfl, h.line⟩⟩⟩
  rw [Re.opt, Re.fits_rep]
  refine ⟨1, Nat.zero_le _, fun n hn => (by cases hn; exact Nat.le_refl _), _, [], (List.append_nil _).symm, by simp, ?_, rfl⟩
  simp only [Re.fits_seq, fits_tagOpen, fits_tagKey, fits_tagQuote, fits_tagValue, fits_tagClose]
  refine ⟨c!"[" ++ at', k ++ (c!"=\"" ++ (v ++ c!"\"]")), by simp, ?_, k, _, rfl, h.key, _, _, rfl, rfl, v, _, rfl, h.value, rfl⟩
  rcases h.sign with rfl | rfl
  · exact .inl rfl
  · exact .inr rfl

theorem matchGroup_of {cc : CharClass} {p : Pattern} {s t : Str} (hex : ∃ y x z v, s = y ++ x ++ z ++ v ∧ p.Fits cc [] y x z v)
    (huniq : ∀ y x z v, s = y ++ x ++ z ++ v → p.Fits cc [] y x z v → (p.all cc s 0).head? = some (y.length, y.length + x.length) → x = t) :
    p.matchGroup cc s = some t := by
  obtain ⟨⟨a, b⟩, hab⟩ := Option.isSome_iff_exists.1 (Pattern.matchStart_isSome.2 hex)
  obtain ⟨y, x, z, v, e, rfl, rfl, hf⟩ := Pattern.matchStart_fits hab
  obtain rfl := huniq y x z v e hf hab
  unfold Pattern.matchGroup
  rw [hab, e]
  simp

theorem matchGroup_none {cc : CharClass} {p : Pattern} {s : Str} (h : ∀ y x z v, s = y ++ x ++ z ++ v → ¬ p.Fits cc [] y x z v) :
    p.matchGroup cc s = none := by
  cases hm : p.matchGroup cc s with
  | none => rfl
  | some t =>
    unfold Pattern.matchGroup at hm
    obtain ⟨⟨a, b⟩, hab, _⟩ := Option.map_eq_some_iff.1 hm
    obtain ⟨y, x, z, v, e, _, _, hf⟩ := Pattern.matchStart_fits hab
    exact absurd hf (h y x z v e)

/-- Among the ends of a name only the one in front of the bracket goes on. -/
theorem longest_keyPre {cc : CharClass} : tagKeyPattern.pre.LongestFirst cc := by
  unfold tagKeyPattern
  refine Re.longest_seq (fun s i => ?_) (fun s i => ?_)
  · simp only [Re.run]
    split <;> simp
  · have hopen : tagOpenRe.LongestFirst cc := Re.longest_seq (Re.single_lit _) (Re.longest_opt (Re.single_lit _))
    show ((tagNameRe.run cc s i).flatMap (tagOpenRe.run cc s)).Pairwise _
    rw [List.pairwise_flatMap]
    refine ⟨fun k _ => hopen s k, ?_⟩
    by_cases hi : i ≤ s.length
    · refine (Re.longest_rep (cc := cc) s i).imp_of_mem fun {a b} ha hb hlt x _ y hy => ?_
      have da := (Re.mem_run (r := tagNameRe) hi).1 ha
      have db := (Re.mem_run (r := tagNameRe) hi).1 hb
      have ba := da.bounds hi
      have bb := db.bounds hi
      have dy := (Re.mem_run bb.2).1 hy
      have hby := dy.bounds bb.2
      exfalso
      obtain ⟨u, n, v, e, e1, e2⟩ := split_at ba.1 ba.2
      obtain ⟨u', o, v', e', e1', e2'⟩ := split_at hby.1 hby.2
      have fa : tagNameRe.Fits cc u n v := by unfold Re.Fits; rw [← e, ← e2, ← e1]; exact da
      have fy : tagOpenRe.Fits cc u' o v' := by unfold Re.Fits; rw [← e', ← e2', ← e1']; exact dy
      have h1 : s[b]? = some '[' := by
        rw [e', e1']
        rcases fits_tagOpen.1 fy with rfl | rfl <;> simp
      have h2 : s[b]? = n[b - u.length]? := by
        rw [e, List.append_assoc, List.getElem?_append_right (by omega), List.getElem?_append_left (by omega)]
      rw [h1] at h2
      exact (fits_tagName.1 fa).2 (List.mem_of_getElem? h2.symm)
    · have : tagNameRe.run cc s i = [] := by
        unfold tagNameRe Re.plus
        simp only [Re.run]
        rw [show s.length + 1 - i = 0 by omega]
        rfl
      rw [this]
      exact .nil

/-- **C56.** Parsing a tag expression gives what the groups of the regular expression of the code give. -/
theorem C56_pattern (cc : CharClass) (s : Str) :
    parseTagExpression s =
      match tagNamePattern.matchGroup cc s with
      | none => .error .valueError
      | some tag =>
        match tagKeyPattern.matchGroup cc s, tagValuePattern.matchGroup cc s with
        | some k, some v => .ok (tag, [(k, v)])
        | _, _ => .ok (tag, []) := by
  cases hp : parseTagExpression s with
  | error e =>
    have hno : ∀ tag attrib, ¬ TagExpression s tag attrib := fun tag attrib h => by
      rw [(C56_expression s tag attrib).2 h] at hp
      cases hp
    rw [matchGroup_none (p := tagNamePattern)]
    · have := C56_not_understood s hno
      rw [hp] at this
      exact this
    · rintro y x z w e hf
      obtain ⟨rfl, hx, hw, hz⟩ := fits_tagNamePattern hf
      rcases hz with rfl | ⟨at', k, v, h⟩
      · refine hno s [] (.name s ?_ ?_)
        · rw [e]; simp [hx.1]
        · rw [e]
          rcases hw with rfl | rfl
          · simpa using hx.2
          · simpa using hx.2
      · rw [← e] at h
        obtain ⟨k', h', _⟩ := h.expression
        exact hno _ _ h'
  | ok r =>
    obtain ⟨tag, attrib⟩ := r
    have hte := (C56_expression s tag attrib).1 hp
    cases hte with
    | name _ ht hb =>
      have hnm : tagNamePattern.matchGroup cc s = some s := by
        refine matchGroup_of ⟨[], s, [], [], by simp, namePattern_name ⟨ht, hb⟩⟩ fun y x z w e hf hh => ?_
        obtain ⟨rfl, hx, hw, hz⟩ := fits_tagNamePattern hf
        have hlong := Pattern.longest_group (p := tagNamePattern) Re.longest_rep (Nat.zero_le _) hh (b' := s.length) (j := s.length) (by
          have := Pattern.den_iff.2 (namePattern_name (cc := cc) ⟨ht, hb⟩)
          simpa using this)
        have := congrArg List.length e
        simp only [List.length_append, List.length_nil] at this hlong
        obtain rfl := List.length_eq_zero_iff.1 (show z.length = 0 by omega)
        obtain rfl := List.length_eq_zero_iff.1 (show w.length = 0 by omega)
        rw [e]; simp
      have hk : tagKeyPattern.matchGroup cc s = none := by
        refine matchGroup_none fun y x z w e hf => ?_
        obtain ⟨t, at', v, h, _⟩ := fits_tagKeyPattern.1 hf
        rw [← e] at h
        exact hb (by rw [h.text]; simp)
      rw [hnm, hk]
    | withAttribute _ at' k v lf ht hb hk he hv hn hat hlf =>
      generalize hs : tag ++ c!"[" ++ at' ++ k ++ c!"=\"" ++ v ++ c!"\"]" ++ lf = s at hp
      have hparts : TagParts s tag at' k v lf := ⟨hs.symm, ⟨ht, hb⟩, hat.elim .inr (fun h => .inl h.1), ⟨hk, he⟩, ⟨hv, hn⟩, hlf⟩
      have huniq : ∀ t a, TagExpression s t a → t = tag ∧ a = [(k, v)] := fun t a h => by
        rw [(C56_expression s t a).2 h] at hp
        obtain ⟨h1, h2⟩ := Prod.mk.inj (Except.ok.inj hp)
        exact ⟨h1, h2⟩
      have hnm : tagNamePattern.matchGroup cc s = some tag := by
        refine matchGroup_of ⟨[], tag, _, lf, by rw [← hs]; simp, tagParts_namePattern hparts⟩ fun y x z w e hf _ => ?_
        obtain ⟨rfl, hx, hw, hz⟩ := fits_tagNamePattern hf
        rcases hz with rfl | ⟨a1, k1, v1, h1⟩
        · have h2 : '[' ∈ s := by rw [← hs]; simp
          rw [e] at h2
          rcases hw with rfl | rfl
          · exact absurd (by simpa using h2) hx.2
          · exact absurd (by simpa using h2) hx.2
        · rw [← e] at h1
          obtain ⟨k', h', _⟩ := h1.expression
          exact (huniq _ _ h').1
      have hvl : tagValuePattern.matchGroup cc s = some v := by
        refine matchGroup_of ⟨_, v, _, lf, by rw [← hs], tagParts_valuePattern hparts⟩ fun y x z w e hf _ => ?_
        obtain ⟨t1, a1, k1, h1⟩ := fits_tagValuePattern hf
        rw [← e] at h1
        obtain ⟨k', h', _⟩ := h1.expression
        have := (huniq _ _ h').2
        simp only [List.cons.injEq, Prod.mk.injEq, and_true] at this
        exact this.2
      have hky : tagKeyPattern.matchGroup cc s = some k := by
        refine matchGroup_of ⟨tag ++ c!"[" ++ at', k, c!"=\"" ++ v ++ c!"\"]", lf, by rw [← hs]; simp, ?_⟩ fun y x z w e hf hh => ?_
        · refine fits_tagKeyPattern.2 ⟨tag, at', v, ?_, rfl⟩
          have e : tag ++ c!"[" ++ at' ++ k ++ (c!"=\"" ++ v ++ c!"\"]") ++ lf = s := by rw [← hs]; simp
          rw [e]
          exact hparts
        · obtain ⟨t1, a1, v1, h1, hy⟩ := fits_tagKeyPattern.1 hf
          rw [← e] at h1
          obtain ⟨k', h', hsame⟩ := h1.expression
          have h2 := (huniq _ _ h').2
          simp only [List.cons.injEq, Prod.mk.injEq, and_true] at h2
          rw [← h2.1]
          refine (hsame ?_).symm
          refine Classical.byContradiction fun hc => ?_
          have ha : a1 = [] := h1.sign.resolve_right fun h => hc (.inl h)
          have hx1 : x ≠ c!"@" := fun h => hc (.inr (.inl h))
          have hx2 : x.head? = some '@' := Classical.byContradiction fun h => hc (.inr (.inr h))
          match x, hx1, hx2 with
          | c :: x', hx1, hx2 =>
            obtain rfl := Option.some.inj hx2
            have hf' : tagKeyPattern.Fits cc [] (y ++ ['@']) x' z w := by
              refine fits_tagKeyPattern.2 ⟨t1, c!"@", v1, ?_, by rw [hy, ha]; simp⟩
              have e' : y ++ ['@'] ++ x' ++ z ++ w = s := by rw [e]; simp
              rw [e']
              refine ⟨?_, h1.name, .inr rfl, ⟨fun h => hx1 (by rw [h]), fun h => h1.key.2 (List.mem_cons_of_mem _ h)⟩, h1.value, h1.line⟩
              rw [h1.text, ha]
              simp
            have hd := Pattern.den_iff.2 hf'
            have e' : [] ++ (y ++ ['@']) ++ x' ++ z ++ w = s := by rw [e]; simp
            rw [e'] at hd
            have := Pattern.longest_pre longest_keyPre (Nat.zero_le _) hh hd
            simp only [List.length_append, List.length_cons, List.length_nil] at this
            omega
      rw [hnm, hky, hvl]

/-- A name with an attribute, one without `@`, one with `@` in the name of the attribute, and texts that are none. -/
example : tagNamePattern.matchGroup asciiClass c!"note[@type=\"a\"b\"]" = some c!"note" ∧
    tagKeyPattern.matchGroup asciiClass c!"note[@@t=\"a\"b\"]" = some c!"@t" ∧
    tagValuePattern.matchGroup asciiClass c!"note[type=\"a\"b\"]\n" = some c!"a\"b" ∧
    tagNamePattern.matchGroup asciiClass c!"note[@type=\"\"]" = none := by
  decide +kernel

def exPatternEnv : SegEnv := ⟨asciiClass.isDigit, asciiClass.isSpace, fun _ => none⟩

example : ((pageNumberPattern exPatternEnv).matchStart asciiClass c!"12\n").isSome = true ∧
    ((pageNumberPattern exPatternEnv).matchStart asciiClass c!"12 ").isSome = false ∧
    ((digitsPattern exPatternEnv).matchStart asciiClass c!"1. 2").isSome = true ∧
    ((endsWithWordPattern asciiClass).matchStart asciiClass c!"a b\n").isSome = true ∧
    ((endsWithWordPattern asciiClass).matchStart asciiClass c!"a\nb").isSome = false ∧
    exPatternEnv.isDigit '\n' = false ∧ exPatternEnv.isSpace '\n' = true ∧ asciiClass.isWord '\n' = false := by
  decide +kernel

end Verif
