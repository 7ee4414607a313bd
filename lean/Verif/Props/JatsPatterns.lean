/-
C149: which identifiers are found in a text.
-/
import Verif.Spec.JatsPatterns
import Verif.Lemmas.RegexFits
import Verif.Model.JatsPatterns

namespace Verif
open Spec

/-! ### Lemmas -/

theorem noWordFirst_iff {cc : CharClass} {v : Str} : startsInWord cc v = false ↔ NoWordFirst cc v := by
  unfold startsInWord NoWordFirst
  cases v.head? <;> simp

theorem noWordLast_iff {cc : CharClass} {u : Str} : endsInWord cc u = false ↔ NoWordLast cc u := by
  unfold endsInWord NoWordLast
  cases u.getLast? <;> simp

theorem endsInWord_digits {cc : CharClass} (hw : WordClasses cc) {u d : Str} (hne : d ≠ []) (hd : ∀ c ∈ d, cc.isDigit c = true) :
    endsInWord cc (u ++ d) = true := by
  unfold endsInWord
  rw [List.getLast?_append, List.getLast?_eq_some_getLast hne]
  exact hw.digit _ (hd _ (List.getLast_mem hne))

theorem startsInWord_digits {cc : CharClass} (hw : WordClasses cc) {d v : Str} (hne : d ≠ []) (hd : ∀ c ∈ d, cc.isDigit c = true) :
    startsInWord cc (d ++ v) = true := by
  unfold startsInWord
  cases d with
  | nil => exact absurd rfl hne
  | cons c d => exact hw.digit _ (hd _ List.mem_cons_self)

/-- A label, a colon and white space. -/
theorem fits_label {cc : CharClass} {same : Char → Char → Bool} {label u p v : Str} :
    (Re.cat [.lit same label, reSpaces cc, .lit same c!":", reSpaces cc]).Fits cc u p v ↔
      ∃ l w k w', p = l ++ w ++ k ++ w' ∧ SameLetters same label l ∧ Spaces cc w ∧ SameLetters same c!":" k ∧ Spaces cc w' := by
  simp only [Re.cat, Re.fits_seq, Re.fits_lit, reSpaces, Re.fits_star]
  constructor
  · rintro ⟨l, _, rfl, h1, w, _, rfl, h2, k, w', rfl, h3, h4⟩
    exact ⟨l, w, k, w', by simp, h1, h2, h3, h4⟩
  · rintro ⟨l, w, k, w', rfl, h1, h2, h3, h4⟩
    exact ⟨l, w ++ (k ++ w'), by simp, h1, w, k ++ w', rfl, h2, k, w', rfl, h3, h4⟩

/-- The pattern for a number with a label. -/
def labelledPattern (cc : CharClass) (same : Char → Char → Bool) (label : Str) (lo hi : Nat) : Pattern where
  pre := .cat [.lit same label, reSpaces cc, .lit same c!":", reSpaces cc]
  grp := .rep (.chr cc.isDigit) lo (some hi) true
  post := .wordB

theorem fits_labelled {cc : CharClass} (hw : WordClasses cc) {same : Char → Char → Bool} {label : Str} {lo hi : Nat} (hlo : 0 < lo)
    {s u p d z v : Str} (hs : s = u ++ p ++ d ++ z ++ v) :
    (labelledPattern cc same label lo hi).Fits cc u p d z v ↔ z = [] ∧ Labelled cc same label lo hi s u p d v := by
  unfold Pattern.Fits labelledPattern
  simp only [fits_label, Re.fits_rep_chr, Re.fits_wordB]
  constructor
  · rintro ⟨h1, ⟨h2, h3, h4⟩, rfl, h5⟩
    refine ⟨rfl, by simpa using hs, h1, ⟨h2, h3 hi rfl, h4⟩, ?_⟩
    have hne : d ≠ [] := List.length_pos_iff.1 (by omega)
    rw [endsInWord_digits hw hne h4] at h5
    exact noWordFirst_iff.1 (by cases h : startsInWord cc v <;> simp_all)
  · rintro ⟨rfl, h⟩
    refine ⟨h.label, ⟨h.number.atLeast, fun _ e => (by cases e; exact h.number.atMost), h.number.digits⟩, rfl, ?_⟩
    have hne : d ≠ [] := List.length_pos_iff.1 (by have := h.number.atLeast; omega)
    rw [endsInWord_digits hw hne h.number.digits, noWordFirst_iff.2 h.ends]
    decide

/-- Numbers with a label: one is found exactly if there is one, and then the first. -/
theorem labelled_search {cc : CharClass} (hw : WordClasses cc) {same : Char → Char → Bool} {label : Str} {lo hi : Nat} (hlo : 0 < lo) (s : Str) :
    ((labelledPattern cc same label lo hi).search cc s = none ↔ ∀ u p d v, ¬ Labelled cc same label lo hi s u p d v) ∧
    ∀ a b, (labelledPattern cc same label lo hi).search cc s = some (a, b) →
      ∃ u p d v, Labelled cc same label lo hi s u p d v ∧ a = (u ++ p).length ∧ b = (u ++ p ++ d).length ∧
        ∀ u' p' d' v', Labelled cc same label lo hi s u' p' d' v' → u.length ≤ u'.length := by
  refine ⟨?_, fun a b h => ?_⟩
  · rw [Pattern.search_none_iff]
    constructor
    · intro h u p d v hl
      exact h u p d [] v (by simpa using hl.text) ((fits_labelled hw hlo (by simpa using hl.text)).2 ⟨rfl, hl⟩)
    · intro h u y x z v e hf
      exact h u y x v ((fits_labelled hw hlo e).1 hf).2
  · obtain ⟨u, p, d, z, v, e, e1, e2, hf, _, hm⟩ := Pattern.search_fits h
    refine ⟨u, p, d, v, ((fits_labelled hw hlo e).1 hf).2, by simpa using e1, by simp; omega, fun u' p' d' v' hl => ?_⟩
    exact hm u' p' d' [] v' (by simpa using hl.text) ((fits_labelled hw hlo (by simpa using hl.text)).2 ⟨rfl, hl⟩)

/-! ### C149 -/

/-- **C149.** A PMID is found in a text exactly if there is a number of 1 to 10 digits after `PMID` and a colon, and it is the
number after the first such label. -/
theorem C149_pmid (cc : CharClass) (hw : WordClasses cc) (isPunct : Char → Bool) (same : Char → Char → Bool) (lower : Str → Str) (s : Str) :
    ((jatsEnvOf cc isPunct same lower).pmid s = none ↔ ∀ u p d v, ¬ Labelled cc exactly c!"PMID" 1 10 s u p d v) ∧
    ∀ a b, (jatsEnvOf cc isPunct same lower).pmid s = some (a, b) →
      ∃ u p d v, Labelled cc exactly c!"PMID" 1 10 s u p d v ∧ a = (u ++ p).length ∧ b = (u ++ p ++ d).length ∧
        ∀ u' p' d' v', Labelled cc exactly c!"PMID" 1 10 s u' p' d' v' → u.length ≤ u'.length :=
  labelled_search hw (by decide) s

/-- **C149.** The same for an identifier of Web of Science, a number of 15 digits. -/
theorem C149_wos (cc : CharClass) (hw : WordClasses cc) (isPunct : Char → Bool) (same : Char → Char → Bool) (lower : Str → Str) (s : Str) :
    ((jatsEnvOf cc isPunct same lower).wos s = none ↔ ∀ u p d v, ¬ Labelled cc same c!"WOS" 15 15 s u p d v) ∧
    ∀ a b, (jatsEnvOf cc isPunct same lower).wos s = some (a, b) →
      ∃ u p d v, Labelled cc same c!"WOS" 15 15 s u p d v ∧ a = (u ++ p).length ∧ b = (u ++ p ++ d).length ∧
        ∀ u' p' d' v', Labelled cc same c!"WOS" 15 15 s u' p' d' v' → u.length ≤ u'.length :=
  labelled_search hw (by decide) s

theorem label_not_empty {same : Char → Char → Bool} {cc : CharClass} {label v : Str} {u : Str} (hl : label ≠ []) :
    ¬ (Re.cat [.lit same label, reSpaces cc, .lit same c!":", reSpaces cc]).Fits cc u [] v := by
  rw [fits_label]
  rintro ⟨l, w, k, w', h, h1, _⟩
  have h2 := sameLetters_length h1
  have h3 := congrArg List.length h
  simp only [List.length_append, List.length_nil] at h3
  exact hl (List.length_eq_zero_iff.1 (by omega))

theorem fits_number {cc : CharClass} (hw : WordClasses cc) {s u y d z v : Str} (hs : s = u ++ y ++ d ++ z ++ v) :
    (pmidFixPattern cc).Fits cc u y d z v ↔ z = [] ∧ WholeNumber cc s (u ++ y) d v ∧
      (y = [] ∨ ∃ l w k w', y = l ++ w ++ k ++ w' ∧ SameLetters exactly c!"PMID" l ∧ Spaces cc w ∧ SameLetters exactly c!":" k ∧ Spaces cc w') := by
  unfold Pattern.Fits pmidFixPattern
  simp only [Re.fits_seq, Re.fits_rep_chr, Re.fits_wordB, Re.fits_opt (label_not_empty (show c!"PMID" ≠ [] by decide)), fits_label]
  constructor
  · rintro ⟨⟨y', z', rfl, h1, rfl, h6⟩, ⟨h2, h3, h4⟩, rfl, h5⟩
    have hne : d ≠ [] := List.length_pos_iff.1 (by omega)
    rw [endsInWord_digits hw hne h4] at h5
    simp only [List.nil_append, List.append_assoc] at h6
    rw [startsInWord_digits hw hne h4] at h6
    refine ⟨rfl, ⟨by simpa using hs, ⟨h2, h3 10 rfl, h4⟩, ?_, ?_⟩, by simpa using h1⟩
    · rw [List.append_nil]
      exact noWordLast_iff.1 (by cases h : endsInWord cc (u ++ y') <;> simp_all)
    · exact noWordFirst_iff.1 (by cases h : startsInWord cc v <;> simp_all)
  · rintro ⟨rfl, h, hy⟩
    have hne : d ≠ [] := List.length_pos_iff.1 (by have := h.number.atLeast; omega)
    refine ⟨⟨y, [], by simp, by simpa using hy, rfl, ?_⟩, ⟨h.number.atLeast, fun _ e => (by cases e; exact h.number.atMost), h.number.digits⟩, rfl, ?_⟩
    · rw [noWordLast_iff.2 h.begins]
      simp only [List.nil_append, List.append_assoc]
      rw [startsInWord_digits hw hne h.number.digits]
      decide
    · rw [endsInWord_digits hw hne h.number.digits, noWordFirst_iff.2 h.ends]
      decide

/-- **C149.** The text of an annotated PMID is changed to the first number in it that is a word of its own and has 1 to 10
digits; nothing is found exactly if there is none. -/
theorem C149_number (cc : CharClass) (hw : WordClasses cc) (isPunct : Char → Bool) (same : Char → Char → Bool) (lower : Str → Str) (s : Str) :
    ((jatsEnvOf cc isPunct same lower).pmidFix s = none ↔ ∀ u d v, ¬ WholeNumber cc s u d v) ∧
    ∀ a b, (jatsEnvOf cc isPunct same lower).pmidFix s = some (a, b) →
      ∃ u d v, WholeNumber cc s u d v ∧ a = u.length ∧ b = (u ++ d).length ∧
        ∀ u' d' v', WholeNumber cc s u' d' v' → u.length ≤ u'.length := by
  show ((pmidFixPattern cc).search cc s = none ↔ _) ∧ ∀ a b, (pmidFixPattern cc).search cc s = some (a, b) → _
  refine ⟨?_, fun a b h => ?_⟩
  · rw [Pattern.search_none_iff]
    constructor
    · intro h u d v hl
      exact h u [] d [] v (by simpa using hl.text) ((fits_number hw (by simpa using hl.text)).2 ⟨rfl, by simpa using hl, .inl rfl⟩)
    · intro h u y x z v e hf
      exact h (u ++ y) x v ((fits_number hw e).1 hf).2.1
  · obtain ⟨u, y, d, z, v, e, e1, e2, hf, _, hm⟩ := Pattern.search_fits h
    obtain ⟨rfl, hn, hy⟩ := (fits_number hw e).1 hf
    refine ⟨u ++ y, d, v, hn, by simpa using e1, by simp; omega, fun u' d' v' hl => ?_⟩
    have hu := hm u' [] d' [] v' (by simpa using hl.text) ((fits_number hw (by simpa using hl.text)).2 ⟨rfl, by simpa using hl, .inl rfl⟩)
    refine Nat.le_of_not_lt fun hlt => ?_
    rw [List.length_append] at hlt
    -- the number found earlier would start within the label
    have hne : d' ≠ [] := List.length_pos_iff.1 (by have := hl.number.atLeast; omega)
    obtain ⟨c, d'', rfl⟩ := List.exists_cons_of_ne_nil hne
    have hc := hl.number.digits c List.mem_cons_self
    have h1 : s[u'.length]? = some c := by
      rw [hl.text, List.append_assoc, List.getElem?_append_right (Nat.le_refl _), Nat.sub_self]
      rfl
    have h2 : s[u'.length]? = y[u'.length - u.length]? := by
      rw [e]
      simp only [List.append_assoc]
      rw [List.getElem?_append_right hu, List.getElem?_append_left (by omega)]
    have hcy : c ∈ y := List.mem_of_getElem? (by rw [← h2]; exact h1)
    rcases hy with rfl | ⟨l, w, k, w', rfl, g1, g2, g3, g4⟩
    · cases hcy
    · have hl := (sameLetters_exactly _ _).1 g1
      have hk := (sameLetters_exactly _ _).1 g3
      subst hl hk
      have hs : ∀ x, cc.isSpace x = true → cc.isDigit x = true → False := fun x a b => by
        have := hw.space x a
        rw [hw.digit x b] at this
        cases this
      simp only [List.mem_append] at hcy
      rcases hcy with ((h | h) | h) | h
      · exact absurd hc (by rw [hw.label c h]; decide)
      · exact hs c (g2 c h) hc
      · rw [List.mem_singleton.1 h] at hc
        exact absurd (hw.digit _ hc) (by rw [hw.colon]; decide)
      · exact hs c (g4 c h) hc

/-! A pattern that is a group only. -/

theorem group_search {cc : CharClass} {r : Re} {F : Str → Str → Str → Prop} (hF : ∀ u x v, r.Fits cc u x v ↔ F u x v) (s : Str) :
    (Pattern.search cc ⟨.empty, r, .empty⟩ s = none ↔ ∀ u x v, s = u ++ x ++ v → ¬ F u x v) ∧
    ∀ a b, Pattern.search cc ⟨.empty, r, .empty⟩ s = some (a, b) →
      ∃ u x v, s = u ++ x ++ v ∧ F u x v ∧ a = u.length ∧ b = (u ++ x).length ∧
        (∀ u' x' v', s = u' ++ x' ++ v' → F u' x' v' → u.length ≤ u'.length) ∧
        (r.LongestFirst cc → ∀ x' v', s = u ++ x' ++ v' → F u x' v' → x'.length ≤ x.length) := by
  have hfit : ∀ u y x z v, Pattern.Fits cc ⟨.empty, r, .empty⟩ u y x z v ↔ y = [] ∧ z = [] ∧ F u x v := by
    intro u y x z v
    unfold Pattern.Fits
    simp only [Re.fits_empty]
    constructor
    · rintro ⟨rfl, h, rfl⟩; exact ⟨rfl, rfl, (hF _ _ _).1 (by simpa using h)⟩
    · rintro ⟨rfl, rfl, h⟩; exact ⟨rfl, by simpa using (hF _ _ _).2 h, rfl⟩
  refine ⟨?_, fun a b h => ?_⟩
  · rw [Pattern.search_none_iff]
    constructor
    · intro h u x v e hf
      exact h u [] x [] v (by simpa using e) ((hfit _ _ _ _ _).2 ⟨rfl, rfl, hf⟩)
    · intro h u y x z v e hf
      obtain ⟨rfl, rfl, hf2⟩ := (hfit _ _ _ _ _).1 hf
      exact h u x v (by simpa using e) hf2
  · obtain ⟨u, y, x, z, v, e, e1, e2, hf, hh, hm⟩ := Pattern.search_fits h
    obtain ⟨rfl, rfl, hf2⟩ := (hfit _ _ _ _ _).1 hf
    have e : s = u ++ x ++ v := by simpa using e
    have e1 : a = u.length := by simpa using e1
    have e2 : b = (u ++ x).length := by rw [e2]; simp
    refine ⟨u, x, v, e, hf2, e1, e2, fun u' x' v' e' hf' => ?_, fun hl x' v' e' hf' => ?_⟩
    · exact hm u' [] x' [] v' (by simpa using e') ((hfit _ _ _ _ _).2 ⟨rfl, rfl, hf'⟩)
    · have hall : Pattern.all cc ⟨.empty, r, .empty⟩ s u.length = (r.run cc s u.length).map (fun l => (u.length, l)) := by
        simp [Pattern.all, Re.run]
        induction r.run cc s u.length with
        | nil => rfl
        | cons x l ih => simp [ih]
      rw [hall, List.head?_map] at hh
      obtain ⟨b', hb', hbb⟩ := Option.map_eq_some_iff.1 hh
      have hb : b' = b := congrArg Prod.snd hbb
      have hle : u.length ≤ s.length := by rw [e]; simp
      have hin : u.length + x'.length ∈ r.run cc s u.length := by
        refine (Re.mem_run hle).2 ?_
        have := (hF u x' v').2 hf'
        unfold Re.Fits at this
        rw [← e'] at this
        exact this
      have := head_greatest (hl s u.length) hb' hin
      rw [hb, e2, List.length_append] at this
      omega

/-- **C149.** A PMCID is found exactly if there are the letters `PMC` with a digit behind them, and it is the first one with
all its digits. -/
theorem C149_pmcid (cc : CharClass) (isPunct : Char → Bool) (same : Char → Char → Bool) (lower : Str → Str) (s : Str) :
    ((jatsEnvOf cc isPunct same lower).pmcid s = none ↔ ∀ u x v, s = u ++ x ++ v → ¬ PmcForm cc same x) ∧
    ∀ a b, (jatsEnvOf cc isPunct same lower).pmcid s = some (a, b) →
      ∃ u x v, s = u ++ x ++ v ∧ PmcForm cc same x ∧ a = u.length ∧ b = (u ++ x).length ∧
        (∀ u' x' v', s = u' ++ x' ++ v' → PmcForm cc same x' → u.length ≤ u'.length) ∧
        ∀ x' v', s = u ++ x' ++ v' → PmcForm cc same x' → x'.length ≤ x.length := by
  have hF : ∀ u x v, (Re.seq (.lit same c!"PMC") (.plus cc.isDigit)).Fits cc u x v ↔ PmcForm cc same x := by
    intro u x v
    simp only [Re.fits_seq, Re.fits_lit, Re.fits_plus]
    constructor
    · rintro ⟨l, d, e, h1, h2, h3⟩; exact ⟨l, d, e, h1, h2, h3⟩
    · rintro ⟨l, d, e, h1, h2, h3⟩; exact ⟨l, d, e, h1, h2, h3⟩
  obtain ⟨h1, h2⟩ := group_search (F := fun _ x _ => PmcForm cc same x) hF s
  refine ⟨h1, fun a b h => ?_⟩
  obtain ⟨u, x, v, g1, g2, g3, g4, g5, g6⟩ := h2 a b h
  exact ⟨u, x, v, g1, g2, g3, g4, g5, g6 (Re.longest_seq (Re.single_lit _) Re.longest_rep)⟩

theorem wordEdge_iff {cc : CharClass} {u v : Str} : endsInWord cc u ≠ startsInWord cc v ↔ WordEdge cc u v := by
  unfold WordEdge
  rw [← noWordLast_iff, ← noWordFirst_iff]
  cases endsInWord cc u <;> cases startsInWord cc v <;> simp

/-- Digits of a PII with characters that are not part of words behind them. -/
def piiBlock (cc : CharClass) : Re := .seq (.chr isPiiChar) (.star (fun c => !cc.isWord c))

theorem piiBlock_fits {cc : CharClass} {u x v : Str} :
    (piiBlock cc).Fits cc u x v ↔ ∃ d w, x = d :: w ∧ piiDigit d = true ∧ ∀ c ∈ w, cc.isWord c = false := by
  unfold piiBlock
  simp only [Re.fits_seq, Re.fits_chr, Re.fits_star]
  constructor
  · rintro ⟨y, z, rfl, ⟨d, rfl, h⟩, h2⟩
    exact ⟨d, z, rfl, h, fun c hc => by simpa using h2 c hc⟩
  · rintro ⟨d, w, rfl, h, h2⟩
    exact ⟨[d], w, rfl, ⟨d, rfl, h⟩, fun c hc => by simpa using h2 c hc⟩

theorem piiBlocks_sound {cc : CharClass} : ∀ (n : Nat) (u x v : Str), FitsTimes ((piiBlock cc).Fits cc) n u x v →
    (∀ d ∈ x, piiDigit d = true ∨ cc.isWord d = false) ∧ n ≤ (x.filter piiDigit).length := by
  intro n
  induction n with
  | zero => rintro u x v h; cases h; exact ⟨fun d h => (nomatch h), Nat.zero_le _⟩
  | succ n ih =>
    rintro u x v ⟨y, z, rfl, _, h1, h2⟩
    obtain ⟨d, w, rfl, hd, hw⟩ := piiBlock_fits.1 h1
    obtain ⟨g1, g2⟩ := ih _ _ _ h2
    refine ⟨fun e he => ?_, ?_⟩
    · rcases List.mem_append.1 he with he | he
      · rcases List.mem_cons.1 he with rfl | he
        · exact .inl hd
        · exact .inr (hw e he)
      · exact g1 e he
    · rw [List.filter_append, List.length_append, List.filter_cons_of_pos hd, List.length_cons]
      omega

/-- Characters that are not part of words before the first digit. -/
theorem pii_split {cc : CharClass} (x : Str) (h : ∀ d ∈ x, piiDigit d = true ∨ cc.isWord d = false) :
    ∃ w t, x = w ++ t ∧ (∀ c ∈ w, cc.isWord c = false) ∧ (t = [] ∨ ∃ d t', t = d :: t' ∧ piiDigit d = true) ∧
      (t.filter piiDigit).length = (x.filter piiDigit).length := by
  induction x with
  | nil => exact ⟨[], [], rfl, fun c h => (nomatch h), .inl rfl, rfl⟩
  | cons a x ih =>
    by_cases ha : piiDigit a = true
    · exact ⟨[], a :: x, rfl, fun c h => (nomatch h), .inr ⟨a, x, rfl, ha⟩, rfl⟩
    · obtain ⟨w, t, e, h1, h2, h3⟩ := ih (fun d hd => h d (List.mem_cons_of_mem _ hd))
      refine ⟨a :: w, t, by rw [e]; rfl, fun c hc => ?_, h2, by rw [List.filter_cons_of_neg ha]; exact h3⟩
      rcases List.mem_cons.1 hc with rfl | hc
      · exact (h c List.mem_cons_self).resolve_left ha
      · exact h1 c hc

theorem piiBlocks_complete {cc : CharClass} : ∀ (n : Nat) (u x v : Str), (∀ d ∈ x, piiDigit d = true ∨ cc.isWord d = false) →
    (x = [] ∨ ∃ d x', x = d :: x' ∧ piiDigit d = true) → (x.filter piiDigit).length = n → FitsTimes ((piiBlock cc).Fits cc) n u x v := by
  intro n
  induction n with
  | zero =>
    rintro u x v _ (rfl | ⟨d, x', rfl, hd⟩) hn
    · rfl
    · rw [List.filter_cons_of_pos hd] at hn; cases hn
  | succ n ih =>
    rintro u x v hx (rfl | ⟨d, x', rfl, hd⟩) hn
    · cases hn
    · obtain ⟨w, t, rfl, h1, h2, h3⟩ := pii_split x' (fun d h => hx d (List.mem_cons_of_mem _ h))
      refine ⟨d :: w, t, rfl, by simp, piiBlock_fits.2 ⟨d, w, rfl, hd, h1⟩, ih _ t v (fun e he => hx e ?_) h2 ?_⟩
      · exact List.mem_cons_of_mem _ (List.mem_append_right _ he)
      · rw [List.filter_cons_of_pos hd, List.length_cons] at hn
        omega

theorem piiValid_fits {cc : CharClass} {u x v : Str} : (piiValidPattern cc).grp.Fits cc u x v ↔ PiiForm cc x := by
  have : (piiValidPattern cc).grp = .seq (.chr (fun c => c = 'S' || c = ',' || c = 'B')) (.seq (.star (fun c => !cc.isWord c))
    (.seq (.rep (piiBlock cc) 15 none true) (.chr isPiiChar))) := rfl
  rw [this]
  simp only [Re.fits_seq, Re.fits_chr, Re.fits_star, Re.fits_rep]
  constructor
  · rintro ⟨_, _, rfl, ⟨c, rfl, hc⟩, w, _, rfl, hw, t, _, rfl, ⟨n, hn, _, ht⟩, e, rfl, he⟩
    obtain ⟨g1, g2⟩ := piiBlocks_sound _ _ _ _ ht
    refine ⟨c, w ++ t, e, by simp, ?_, he, fun d hd => ?_, ?_⟩
    · simp only [Bool.or_eq_true, decide_eq_true_eq] at hc
      rcases hc with (h | h) | h
      · exact .inl h
      · exact .inr (.inr h)
      · exact .inr (.inl h)
    · rcases List.mem_append.1 hd with hd | hd
      · exact .inr (by simpa using hw d hd)
      · exact g1 d hd
    · rw [List.filter_append, List.length_append]
      omega
  · rintro ⟨c, r, e, rfl, hc, he, hr, hn⟩
    obtain ⟨w, t, rfl, h1, h2, h3⟩ := pii_split r hr
    refine ⟨[c], w ++ t ++ [e], by simp, ⟨c, rfl, ?_⟩, w, t ++ [e], by simp, fun d hd => by simpa using h1 d hd, t, [e], rfl,
      ⟨_, ?_, fun h hh => (nomatch hh), piiBlocks_complete _ _ t _ (fun d hd => hr d (List.mem_append_right _ hd)) h2 rfl⟩, e, rfl, he⟩
    · simp only [Bool.or_eq_true, decide_eq_true_eq]
      rcases hc with h | h | h
      · exact .inl (.inl h)
      · exact .inr h
      · exact .inl (.inr h)
    · omega

theorem fits_pii {cc : CharClass} {u y x z v : Str} :
    (piiValidPattern cc).Fits cc u y x z v ↔ y = [] ∧ z = [] ∧ PiiForm cc x ∧ WordEdge cc u x := by
  have hx : PiiForm cc x → startsInWord cc (x ++ v) = startsInWord cc x := by
    rintro ⟨c, r, e, rfl, _⟩; rfl
  unfold Pattern.Fits
  rw [piiValid_fits]
  simp only [piiValidPattern, Re.fits_wordB, Re.fits_empty]
  constructor
  · rintro ⟨⟨rfl, h1⟩, h2, rfl⟩
    rw [List.append_nil, hx h2] at h1
    exact ⟨rfl, rfl, h2, wordEdge_iff.1 h1⟩
  · rintro ⟨rfl, rfl, h2, h1⟩
    refine ⟨⟨rfl, ?_⟩, h2, rfl⟩
    rw [List.append_nil, hx h2]
    exact wordEdge_iff.2 h1

/-- **C149.** A PII is found exactly if there is one at a border of a word, and it starts where the first one does. -/
theorem C149_pii (cc : CharClass) (isPunct : Char → Bool) (same : Char → Char → Bool) (lower : Str → Str) (s : Str) :
    ((jatsEnvOf cc isPunct same lower).piiValid s = none ↔ ∀ u x v, s = u ++ x ++ v → PiiForm cc x → ¬ WordEdge cc u x) ∧
    ∀ a b, (jatsEnvOf cc isPunct same lower).piiValid s = some (a, b) →
      ∃ u x v, s = u ++ x ++ v ∧ PiiForm cc x ∧ WordEdge cc u x ∧ a = u.length ∧ b = (u ++ x).length ∧
        ∀ u' x' v', s = u' ++ x' ++ v' → PiiForm cc x' → WordEdge cc u' x' → u.length ≤ u'.length := by
  show ((piiValidPattern cc).search cc s = none ↔ _) ∧ ∀ a b, (piiValidPattern cc).search cc s = some (a, b) → _
  refine ⟨?_, fun a b h => ?_⟩
  · rw [Pattern.search_none_iff]
    constructor
    · intro h u x v e h1 h2
      exact h u [] x [] v (by simpa using e) (fits_pii.2 ⟨rfl, rfl, h1, h2⟩)
    · intro h u y x z v e hf
      obtain ⟨rfl, rfl, h1, h2⟩ := fits_pii.1 hf
      exact h u x v (by simpa using e) h1 h2
  · obtain ⟨u, y, x, z, v, e, e1, e2, hf, _, hm⟩ := Pattern.search_fits h
    obtain ⟨rfl, rfl, h1, h2⟩ := fits_pii.1 hf
    refine ⟨u, x, v, by simpa using e, h1, h2, by simpa using e1, by rw [e2]; simp, fun u' x' v' e' g1 g2 => ?_⟩
    exact hm u' [] x' [] v' (by simpa using e') (fits_pii.2 ⟨rfl, rfl, g1, g2⟩)

theorem fits_otherPii {cc : CharClass} {s u y x z v : Str} (hs : s = u ++ y ++ x ++ z ++ v) :
    (piiOtherPattern cc).Fits cc u y x z v ↔ OtherPii cc s u y x z v := by
  unfold Pattern.Fits piiOtherPattern
  have hno : ∀ u v, ¬ (Re.lit exactly c!"doi:").Fits cc u [] v := fun u v h => by
    have := (sameLetters_exactly _ _).1 (Re.fits_lit.1 h)
    cases this
  have hst : 5 ≤ x.length → ∀ r, startsInWord cc (y ++ x ++ r) = startsInWord cc (y ++ x) := by
    intro hx r
    unfold startsInWord
    cases h : y ++ x with
    | nil =>
      have := congrArg List.length h
      simp only [List.length_append, List.length_nil] at this
      omega
    | cons c l => rfl
  simp only [Re.fits_seq, Re.fits_rep_chr, Re.fits_wordB, Re.fits_opt (hno _ _), Re.fits_lit, sameLetters_exactly, reSpaces, Re.fits_star]
  constructor
  · rintro ⟨⟨_, y', rfl, ⟨rfl, h1⟩, h2⟩, ⟨h3, _, h4⟩, w, _, rfl, h5, rfl⟩
    refine ⟨hs, ?_, ?_, h3, fun c hc => by simpa using h4 c hc, w, rfl, h5⟩
    · have := hst h3 (w ++ c!"[pii]" ++ v)
      simp only [List.nil_append, List.append_assoc] at this h1 ⊢
      rw [this] at h1
      exact wordEdge_iff.1 h1
    · simpa [eq_comm] using h2
  · intro h
    obtain ⟨w, rfl, hw⟩ := h.label
    refine ⟨⟨[], y, rfl, ⟨rfl, ?_⟩, ?_⟩, ⟨h.long, fun _ e => (nomatch e), fun c hc => by simpa using h.solid c hc⟩, w, _, rfl, hw, rfl⟩
    · have := hst h.long (w ++ c!"[pii]" ++ v)
      have he := wordEdge_iff.2 h.edge
      simp only [List.append_assoc] at this ⊢
      rw [this]
      exact he
    · simpa [eq_comm] using h.doi

/-- **C149.** Another PII is found exactly if there are five or more characters before `[pii]`, with a border of a word before them,
and it is the one starting first, without `doi:` if possible, and the longest one. -/
theorem C149_pii_other (cc : CharClass) (isPunct : Char → Bool) (same : Char → Char → Bool) (lower : Str → Str) (s : Str) :
    ((jatsEnvOf cc isPunct same lower).piiOther s = none ↔ ∀ u y x z v, ¬ OtherPii cc s u y x z v) ∧
    ∀ a b, (jatsEnvOf cc isPunct same lower).piiOther s = some (a, b) →
      ∃ u y x z v, OtherPii cc s u y x z v ∧ a = (u ++ y).length ∧ b = (u ++ y ++ x).length ∧
        (∀ u' y' x' z' v', OtherPii cc s u' y' x' z' v' → u.length ≤ u'.length) ∧
        ∀ y' x' z' v', OtherPii cc s u y' x' z' v' → y'.length ≤ y.length ∧ (y' = y → x'.length ≤ x.length) := by
  show ((piiOtherPattern cc).search cc s = none ↔ _) ∧ ∀ a b, (piiOtherPattern cc).search cc s = some (a, b) → _
  refine ⟨?_, fun a b h => ?_⟩
  · rw [Pattern.search_none_iff]
    constructor
    · intro h u y x z v ho
      exact h u y x z v ho.text ((fits_otherPii ho.text).2 ho)
    · intro h u y x z v e hf
      exact h u y x z v ((fits_otherPii e).1 hf)
  · obtain ⟨u, y, x, z, v, e, e1, e2, hf, hh, hm⟩ := Pattern.search_fits h
    refine ⟨u, y, x, z, v, (fits_otherPii e).1 hf, by simpa using e1, by rw [e2]; simp [Nat.add_assoc], fun u' y' x' z' v' ho => ?_,
      fun y' x' z' v' ho => ?_⟩
    · exact hm u' y' x' z' v' ho.text ((fits_otherPii ho.text).2 ho)
    · have hu : u.length ≤ s.length := by rw [e]; simp
      have hd := Pattern.den_iff.2 ((fits_otherPii ho.text).2 ho)
      rw [← ho.text] at hd
      have h1 := Pattern.longest_pre (Re.longest_seq Re.single_wordB (Re.longest_opt (Re.single_lit _))) hu hh hd
      refine ⟨by omega, fun hy => ?_⟩
      subst hy
      rw [e1] at hh
      have h2 := Pattern.longest_group Re.longest_rep hu hh hd
      omega

theorem fits_title {cc : CharClass} {u y x z v : Str} :
    (titlePattern cc).Fits cc u y x z v ↔ u = [] ∧ y = [] ∧ '\n' ∉ x ∧ (v = [] ∨ v = ['\n']) ∧
      (z = [] ∨ (∃ w d, z = c!";" ++ w ++ c!"PMC" ++ d ∧ Spaces cc w ∧ d ≠ [] ∧ ∀ c ∈ d, cc.isDigit c = true) ∨
        ∃ w w', z = w ++ c!"," ++ w' ∧ Spaces cc w ∧ Spaces cc w') := by
  unfold Pattern.Fits titlePattern
  have hlit : ∀ (t u x v : Str), (Re.lit exactly t).Fits cc u x v ↔ x = t := by
    intro t u x v; rw [Re.fits_lit, sameLetters_exactly]; exact eq_comm
  have halt : ∀ u x v, (Re.alt (.cat [.lit exactly c!";", reSpaces cc, .lit exactly c!"PMC", .plus cc.isDigit])
      (.cat [reSpaces cc, .lit exactly c!",", reSpaces cc])).Fits cc u x v ↔
      (∃ w d, x = c!";" ++ w ++ c!"PMC" ++ d ∧ Spaces cc w ∧ d ≠ [] ∧ ∀ c ∈ d, cc.isDigit c = true) ∨
        ∃ w w', x = w ++ c!"," ++ w' ∧ Spaces cc w ∧ Spaces cc w' := by
    intro u x v
    simp only [Re.fits_alt, Re.cat, Re.fits_seq, hlit, reSpaces, Re.fits_star, Re.fits_plus]
    constructor
    · rintro (⟨_, _, rfl, rfl, w, _, rfl, h1, _, d, rfl, rfl, h2, h3⟩ | ⟨w, _, rfl, h1, _, w', rfl, rfl, h2⟩)
      · exact .inl ⟨w, d, by simp, h1, h2, h3⟩
      · exact .inr ⟨w, w', by simp, h1, h2⟩
    · rintro (⟨w, d, rfl, h1, h2, h3⟩ | ⟨w, w', rfl, h1, h2⟩)
      · exact .inl ⟨_, _, by simp only [List.append_assoc], rfl, w, _, rfl, h1, _, d, rfl, rfl, h2, h3⟩
      · exact .inr ⟨w, _, by simp only [List.append_assoc], h1, _, w', rfl, rfl, h2⟩
  have hno : ∀ u v, ¬ (Re.alt (.cat [.lit exactly c!";", reSpaces cc, .lit exactly c!"PMC", .plus cc.isDigit])
      (.cat [reSpaces cc, .lit exactly c!",", reSpaces cc])).Fits cc u [] v := by
    intro u v h
    rcases (halt _ _ _).1 h with ⟨w, d, h, _⟩ | ⟨w, w', h, _⟩
    · have := congrArg List.length h
      simp at this
    · have := congrArg List.length h
      simp at this
  simp only [Re.fits_seq, Re.fits_rep_chr, Re.fits_bol, Re.fits_eol, Re.fits_opt (hno _ _), halt]
  constructor
  · rintro ⟨⟨rfl, rfl⟩, ⟨_, _, h1⟩, z', _, rfl, h2, rfl, h3⟩
    refine ⟨rfl, rfl, fun hn => by simpa using h1 _ hn, h3, by simpa using h2⟩
  · rintro ⟨rfl, rfl, h1, h3, h2⟩
    refine ⟨⟨rfl, rfl⟩, ⟨Nat.zero_le _, fun _ e => (nomatch e), fun c hc => ?_⟩, z, [], by simp, by simpa using h2, rfl, h3⟩
    simp only [ne_eq, decide_not, Bool.not_eq_true', decide_eq_false_iff_not]
    rintro rfl
    exact h1 hc

theorem titleEnd_iff {cc : CharClass} {r : Str} : TitleEnd cc r ↔ ∃ z v, r = z ++ v ∧ (v = [] ∨ v = ['\n']) ∧
      (z = [] ∨ (∃ w d, z = c!";" ++ w ++ c!"PMC" ++ d ∧ Spaces cc w ∧ d ≠ [] ∧ ∀ c ∈ d, cc.isDigit c = true) ∨
        ∃ w w', z = w ++ c!"," ++ w' ∧ Spaces cc w ∧ Spaces cc w') := by
  constructor
  · intro h
    cases h with
    | nothing => exact ⟨[], [], rfl, .inl rfl, .inl rfl⟩
    | line => exact ⟨[], ['\n'], rfl, .inr rfl, .inl rfl⟩
    | pmcid w d n h1 h2 h3 h4 => exact ⟨_, n, rfl, h4, .inr (.inl ⟨w, d, rfl, h1, h2, h3⟩)⟩
    | comma w w' n h1 h2 h4 => exact ⟨_, n, rfl, h4, .inr (.inr ⟨w, w', rfl, h1, h2⟩)⟩
  · rintro ⟨z, v, rfl, hv, rfl | ⟨w, d, rfl, h1, h2, h3⟩ | ⟨w, w', rfl, h1, h2⟩⟩
    · rcases hv with rfl | rfl
      · exact .nothing
      · exact .line
    · exact .pmcid w d v h1 h2 h3 hv
    · exact .comma w w' v h1 h2 hv

/-- In a list of numbers in ascending order, the first one for which there is something is the least of them. -/
theorem flatMap_head_least {β : Type _} {f : Nat → List (Nat × β)} (hf : ∀ k, ∀ q ∈ f k, q.1 = k) {l : List Nat}
    (hl : l.Pairwise (fun a b => a < b)) {q : Nat × β} (h : (l.flatMap f).head? = some q) : ∀ k ∈ l, f k ≠ [] → q.1 ≤ k := by
  induction l with
  | nil => cases h
  | cons a l ih =>
    intro k hk hne
    rw [List.flatMap_cons] at h
    cases hfa : f a with
    | nil =>
      rw [hfa, List.nil_append] at h
      rcases List.mem_cons.1 hk with rfl | hk
      · exact absurd hfa hne
      · exact ih (List.pairwise_cons.1 hl).2 h k hk hne
    | cons p t =>
      rw [hfa, List.cons_append, List.head?_cons, Option.some.injEq] at h
      subst h
      have := hf a p (by rw [hfa]; exact List.mem_cons_self)
      rw [this]
      rcases List.mem_cons.1 hk with rfl | hk
      · exact Nat.le_refl _
      · exact Nat.le_of_lt ((List.pairwise_cons.1 hl).1 k hk)

/-- **C149.** A title is shortened to its shortest start such that nothing but a PMCID after a semicolon, a comma or a final line break
is left out; nothing is found exactly if there is no such start on the first line. -/
theorem C149_title (cc : CharClass) (isPunct : Char → Bool) (same : Char → Char → Bool) (lower : Str → Str) (s : Str) :
    ((jatsEnvOf cc isPunct same lower).titleSpan s = none ↔ ∀ x r, s = x ++ r → '\n' ∉ x → ¬ TitleEnd cc r) ∧
    ∀ a b, (jatsEnvOf cc isPunct same lower).titleSpan s = some (a, b) →
      a = 0 ∧ ∃ x r, s = x ++ r ∧ '\n' ∉ x ∧ TitleEnd cc r ∧ b = x.length ∧
        ∀ x' r', s = x' ++ r' → '\n' ∉ x' → TitleEnd cc r' → x.length ≤ x'.length := by
  show ((titlePattern cc).search cc s = none ↔ _) ∧ ∀ a b, (titlePattern cc).search cc s = some (a, b) → _
  refine ⟨?_, fun a b h => ?_⟩
  · rw [Pattern.search_none_iff]
    constructor
    · intro h x r e h1 h2
      obtain ⟨z, v, rfl, hv, hz⟩ := titleEnd_iff.1 h2
      exact h [] [] x z v (by simpa using e) (fits_title.2 ⟨rfl, rfl, h1, hv, hz⟩)
    · intro h u y x z v e hf
      obtain ⟨rfl, rfl, h1, hv, hz⟩ := fits_title.1 hf
      exact h x (z ++ v) (by simpa using e) h1 (titleEnd_iff.2 ⟨z, v, rfl, hv, hz⟩)
  · obtain ⟨u, y, x, z, v, e, e1, e2, hf, hh, _⟩ := Pattern.search_fits h
    obtain ⟨rfl, rfl, h1, hv, hz⟩ := fits_title.1 hf
    have e2 : b = x.length := by simpa using e2
    refine ⟨by simpa using e1, x, z ++ v, by simpa using e, h1, titleEnd_iff.2 ⟨z, v, rfl, hv, hz⟩, e2, fun x' r' e' g1 g2 => ?_⟩
    obtain ⟨z', v', rfl, hv', hz'⟩ := titleEnd_iff.1 g2
    have hf' := fits_title (cc := cc).2 ⟨rfl, rfl, g1, hv', hz'⟩
    have hall : (titlePattern cc).all cc s 0 = ((titlePattern cc).grp.run cc s 0).flatMap (fun l => ((titlePattern cc).post.run cc s l).map (fun _ => (0, l))) := by
      show (Re.run cc s .bol 0).flatMap _ = _
      simp [Re.run]
    have hsw : (((titlePattern cc).grp.run cc s 0).flatMap (fun l => ((titlePattern cc).post.run cc s l).map (fun _ => (l, 0)))).head? = some (b, 0) := by
      have h3 := congrArg (Option.map Prod.swap) hh
      rw [List.length_nil, hall, ← List.head?_map, List.map_flatMap] at h3
      simpa [List.map_map, Function.comp_def, Prod.swap, e1] using h3
    have hle : 0 ≤ s.length := Nat.zero_le _
    have hf'' := Pattern.den_iff.2 hf'
    simp only [List.nil_append, List.length_nil, Nat.zero_add, List.append_assoc] at hf''
    rw [← e'] at hf''
    have hk := (Re.mem_run hle).2 hf''.2.1
    have hb := (hf''.2.1.bounds hle).2
    have hp := (Re.mem_run hb).2 hf''.2.2
    have hne : ((titlePattern cc).post.run cc s x'.length).map (fun _ => (x'.length, 0)) ≠ [] := by
      intro h0
      rw [List.map_eq_nil_iff.1 h0] at hp
      cases hp
    have := flatMap_head_least (f := fun l => ((titlePattern cc).post.run cc s l).map (fun _ => (l, 0)))
      (fun k q hq => by obtain ⟨_, _, rfl⟩ := List.mem_map.1 hq; rfl) (Re.shortest_rep s 0) hsw x'.length hk hne
    rw [← e2]
    exact this

theorem fits_alts {cc : CharClass} {α : Type _} {f : α → Re} {r : Re} {u x v : Str} : ∀ (l : List α),
    (l.foldr (fun t r => .alt (f t) r) r).Fits cc u x v ↔ (∃ t ∈ l, (f t).Fits cc u x v) ∨ r.Fits cc u x v
  | [] => by simp
  | a :: l => by
    rw [List.foldr_cons, Re.fits_alt, fits_alts l]
    simp [or_assoc]

theorem fits_stop {cc : CharClass} {same : Char → Char → Bool} {u x v : Str} :
    (truncatePattern cc same).grp.Fits cc u x v ↔ ∃ g t, x = g :: t ∧ (cc.isSpace g = true ∨ g = '(') ∧ (∃ w ∈ stopWords, SameLetters same w t) ∧
      WordEdge cc (u ++ x) v := by
  show Re.Fits cc (truncateTokens.foldr (fun t r => Re.alt (truncateRe cc same t) r) (.rep (.chr (fun _ => false)) 1 none true)) u x v ↔ _
  rw [fits_alts]
  simp only [truncateRe, Re.cat, Re.fits_seq, Re.fits_chr, Re.fits_lit, Re.fits_wordB, Re.fits_rep_chr]
  constructor
  · rintro (⟨w, hw, _, _, rfl, ⟨g, rfl, hg⟩, t, _, rfl, h1, rfl, h2⟩ | ⟨h1, _, h2⟩)
    · refine ⟨g, t, by simp, by simpa using hg, ⟨w, hw, h1⟩, ?_⟩
      simp only [List.append_assoc, List.append_nil] at h2 ⊢
      exact wordEdge_iff.1 h2
    · match x, h1, h2 with
      | c :: _, _, h2 => exact absurd (h2 c List.mem_cons_self) (by decide)
  · rintro ⟨g, t, rfl, hg, ⟨w, hw, h1⟩, h2⟩
    refine .inl ⟨w, hw, [g], t, rfl, ⟨g, rfl, by simpa using hg⟩, t, [], by simp, h1, rfl, ?_⟩
    have := wordEdge_iff.2 h2
    simpa using this

/-- **C149.** A DOI is cut off at the first white space or opening parenthesis followed by one of the known words. -/
theorem C149_cut (cc : CharClass) (isPunct : Char → Bool) (same : Char → Char → Bool) (lower : Str → Str) (s : Str) :
    ((jatsEnvOf cc isPunct same lower).truncateAt s = none ↔ ∀ u g t v, ¬ StopWord cc same s u g t v) ∧
    ∀ i, (jatsEnvOf cc isPunct same lower).truncateAt s = some i →
      ∃ u g t v, StopWord cc same s u g t v ∧ i = u.length ∧
        ∀ u' g' t' v', StopWord cc same s u' g' t' v' → u.length ≤ u'.length := by
  obtain ⟨h1, h2⟩ := group_search (cc := cc) (r := (truncatePattern cc same).grp) (fun u x v => fits_stop) s
  have hp : (⟨.empty, (truncatePattern cc same).grp, .empty⟩ : Pattern) = truncatePattern cc same := rfl
  rw [hp] at h1 h2
  show (Option.map _ ((truncatePattern cc same).search cc s) = none ↔ _) ∧ ∀ i, Option.map _ ((truncatePattern cc same).search cc s) = some i → _
  refine ⟨?_, fun i h => ?_⟩
  · rw [Option.map_eq_none_iff, h1]
    constructor
    · intro h u g t v hs
      exact h u (g :: t) v hs.text ⟨g, t, rfl, hs.gap, hs.word, hs.ends⟩
    · rintro h u x v e ⟨g, t, rfl, a1, a2, a3⟩
      exact h u g t v ⟨e, a1, a2, a3⟩
  · obtain ⟨⟨a, b⟩, hab, rfl⟩ := Option.map_eq_some_iff.1 h
    obtain ⟨u, x, v, e, ⟨g, t, rfl, a1, a2, a3⟩, e1, _, hm, _⟩ := h2 a b hab
    exact ⟨u, g, t, v, ⟨e, a1, a2, a3⟩, e1, fun u' g' t' v' hs => hm u' (g' :: t') v' hs.text ⟨g', t', rfl, hs.gap, hs.word, hs.ends⟩⟩

/-- Case is ignored in the examples. -/
def exSame (a b : Char) : Bool := a.toLower = b.toLower

/-- The patterns, in the examples. -/
def exPatterns : JatsEnv := jatsEnvOf asciiClass (fun c => c = '.') exSame (fun s => s.map Char.toLower)

/-- The text found. -/
def foundText (s : Str) (r : Option (Nat × Nat)) : Option Str := r.map (fun p => sliceStr s p.1 p.2)

theorem asciiClass_words : WordClasses asciiClass where
  digit c h := by
    simp only [asciiClass, Bool.and_eq_true, Bool.or_eq_true] at h ⊢
    exact .inl (.inr h)
  space c h := by
    simp only [asciiClass, Bool.or_eq_true, decide_eq_true_eq] at h
    rcases h with ((rfl | rfl) | rfl) | rfl <;> decide
  colon := by decide
  label := by decide

/-- Not vacuous: identifiers found in texts. -/
example : WordClasses asciiClass ∧
    foundText c!"see PMID : 12345; PMID: 6" (exPatterns.pmid c!"see PMID : 12345; PMID: 6") = some c!"12345" ∧
    foundText c!"x1 23" (exPatterns.pmidFix c!"x1 23") = some c!"23" ∧
    foundText c!"in pmc1234." (exPatterns.pmcid c!"in pmc1234.") = some c!"pmc1234" ∧
    foundText c!"wos:123456789012345" (exPatterns.wos c!"wos:123456789012345") = some c!"123456789012345" ∧
    foundText c!"S0140-6736(05)71146-1." (exPatterns.piiValid c!"S0140-6736(05)71146-1.") = some c!"S0140-6736(05)71146-1" ∧
    foundText c!"doi:abcdef [pii]" (exPatterns.piiOther c!"doi:abcdef [pii]") = some c!"abcdef" ∧
    foundText c!"some title, " (exPatterns.titleSpan c!"some title, ") = some c!"some title" ∧
    foundText c!"a; PMC12" (exPatterns.titleSpan c!"a; PMC12") = some c!"a" ∧
    exPatterns.truncateAt c!"10.1/a (pubmed 12)" = some 7 ∧
    exPatterns.pmid c!"PMID 12345" = none ∧ exPatterns.titleSpan c!"a\nb" = none := by
  refine ⟨asciiClass_words, ?_⟩
  decide +kernel

/-- A PII is expected to start with `S` or `B`, but the comma between them is part of the pattern: any 16 digits after a word and
a comma are found. -/
theorem C149_pii_comma : foundText c!"page, 1234567890123456" (exPatterns.piiValid c!"page, 1234567890123456") =
    some c!", 1234567890123456" := by
  decide +kernel

/-- A number before the label is taken for the PMID. -/
theorem C149_number_before_label : foundText c!"(12) PMID: 345" (exPatterns.pmidFix c!"(12) PMID: 345") = some c!"12" := by
  decide +kernel

end Verif
