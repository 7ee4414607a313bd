/-
C151: the heading of an abstract and the label of an affiliation, with the configuration shipped.
-/
import Verif.Model.PrefixPatterns
import Verif.Spec.PrefixPatterns
import Verif.Props.JatsPatterns
import Verif.Props.MatchingRanges
import Verif.Props.ShippedConfig
import Verif.Props.TagConfig

namespace Verif
open Spec

theorem unescape_escape {special : Char → Bool} (hs : special '\\' = true) : ∀ s : Str, unescape (escapeWith special s) = s
  | [] => rfl
  | c :: s => by
    have ih := unescape_escape hs s
    unfold escapeWith at ih ⊢
    rw [List.flatMap_cons]
    by_cases hc : special c = true
    · rw [if_pos hc]
      show c :: unescape (s.flatMap _) = _
      rw [ih]
    · rw [if_neg hc]
      have hne : c ≠ '\\' := fun h => hc (h ▸ hs)
      have : ∀ t, unescape ([c] ++ t) = c :: unescape t := by
        intro t
        show unescape (c :: t) = _
        rw [unescape]
        exact fun _ _ h _ => hne h
      rw [this, ih]

/-- White space at the end, with the line break that `$` allows. -/
theorem spaces_line {cc : CharClass} (hn : cc.isSpace '\n' = true) {w v : Str} (hw : ∀ c ∈ w, cc.isSpace c = true) (hv : v = [] ∨ v = ['\n']) :
    ∀ c ∈ w ++ v, cc.isSpace c = true := by
  intro c hc
  rcases List.mem_append.1 hc with hc | hc
  · exact hw c hc
  · rcases hv with rfl | rfl
    · cases hc
    · rw [List.mem_singleton.1 hc]; exact hn

theorem heading_search {cc : CharClass} (hn : cc.isSpace '\n' = true) (s : Str) :
    (((headingPattern cc).search cc s).map (·.1) = none ↔ ∀ u h w, ¬ HeadingAtEnd cc s u h w) ∧
    ∀ a, ((headingPattern cc).search cc s).map (·.1) = some a →
      ∃ u h w, HeadingAtEnd cc s u h w ∧ a = u.length ∧ ∀ u' h' w', HeadingAtEnd cc s u' h' w' → u.length ≤ u'.length := by
  have hF : ∀ u x v, (headingPattern cc).grp.Fits cc u x v ↔
      ∃ h w, x = h ++ w ∧ (h = c!"abstract" ∨ h = c!"summary") ∧ (∀ c ∈ w, cc.isSpace c = true) ∧ (v = [] ∨ v = ['\n']) := by
    intro u x v
    unfold headingPattern
    simp only [Re.fits_seq, Re.fits_alt, Re.fits_lit, sameLetters_exactly, Re.fits_star, Re.fits_eol]
    constructor
    · rintro ⟨h, _, rfl, hh, w, _, rfl, hw, rfl, hv⟩
      exact ⟨h, w, by simp, hh.imp Eq.symm Eq.symm, hw, hv⟩
    · rintro ⟨h, w, rfl, hh, hw, hv⟩
      exact ⟨h, w, rfl, hh.imp Eq.symm Eq.symm, w, [], by simp, hw, rfl, hv⟩
  obtain ⟨h1, h2⟩ := group_search hF s
  refine ⟨?_, fun a h => ?_⟩
  · show Option.map _ (Pattern.search cc ⟨.empty, (headingPattern cc).grp, .empty⟩ s) = none ↔ _
    rw [Option.map_eq_none_iff, h1]
    constructor
    · intro h u hd w hh
      exact h u (hd ++ w) [] (by rw [hh.text]; simp) ⟨hd, w, rfl, hh.heading, hh.space, .inl rfl⟩
    · rintro h u _ v e ⟨hd, w, rfl, hh, hw, hv⟩
      exact h u hd (w ++ v) ⟨by rw [e]; simp, hh, spaces_line hn hw hv⟩
  · obtain ⟨⟨a', b⟩, hab, rfl⟩ := Option.map_eq_some_iff.1 h
    obtain ⟨u, _, v, e, ⟨hd, w, rfl, hh, hw, hv⟩, e1, _, hm, _⟩ := h2 a' b hab
    refine ⟨u, hd, w ++ v, ⟨by rw [e]; simp, hh, spaces_line hn hw hv⟩, e1, fun u' h' w' hh' => ?_⟩
    exact hm u' (h' ++ w') [] (by rw [hh'.text]; simp) ⟨h', w', rfl, hh'.heading, hh'.space, .inl rfl⟩

theorem label_before_search {cc : CharClass} (hn : cc.isSpace '\n' = true) (label s : Str) :
    (((affLabelPattern cc label).search cc s).map (·.1) = none ↔ ∀ u, ¬ LabelBefore cc label s u) ∧
    ∀ a, ((affLabelPattern cc label).search cc s).map (·.1) = some a →
      ∃ u, LabelBefore cc label s u ∧ a = u.length ∧ ∀ u', LabelBefore cc label s u' → u.length ≤ u'.length := by
  have hF : ∀ u x v, (affLabelPattern cc label).grp.Fits cc u x v ↔
      ∃ w p w', x = label ++ w ++ p ++ w' ∧ (∀ c ∈ w, cc.isSpace c = true) ∧ (∀ c ∈ p, c = '.' ∨ c = '-') ∧ (∀ c ∈ w', cc.isSpace c = true) ∧
        (v = [] ∨ v = ['\n']) := by
    intro u x v
    unfold affLabelPattern
    simp only [Re.fits_seq, Re.fits_lit, sameLetters_exactly, Re.fits_star, Re.fits_eol, Bool.or_eq_true, decide_eq_true_eq]
    constructor
    · rintro ⟨_, _, rfl, rfl, w, _, rfl, hw, p, _, rfl, hp, w', _, rfl, hw', rfl, hv⟩
      exact ⟨w, p, w', by simp, hw, hp, hw', hv⟩
    · rintro ⟨w, p, w', rfl, hw, hp, hw', hv⟩
      exact ⟨label, w ++ (p ++ w'), by simp, rfl, w, p ++ w', rfl, hw, p, w', rfl, hp, w', [], by simp, hw', rfl, hv⟩
  obtain ⟨h1, h2⟩ := group_search hF s
  refine ⟨?_, fun a h => ?_⟩
  · show Option.map _ (Pattern.search cc ⟨.empty, (affLabelPattern cc label).grp, .empty⟩ s) = none ↔ _
    rw [Option.map_eq_none_iff, h1]
    constructor
    · rintro h u ⟨w, p, w', e, hw, hp, hw'⟩
      exact h u (label ++ w ++ p ++ w') [] (by rw [e]; simp) ⟨w, p, w', rfl, hw, hp, hw', .inl rfl⟩
    · rintro h u _ v e ⟨w, p, w', rfl, hw, hp, hw', hv⟩
      exact h u ⟨w, p, w' ++ v, by rw [e]; simp, hw, hp, spaces_line hn hw' hv⟩
  · obtain ⟨⟨a', b⟩, hab, rfl⟩ := Option.map_eq_some_iff.1 h
    obtain ⟨u, _, v, e, ⟨w, p, w', rfl, hw, hp, hw', hv⟩, e1, _, hm, _⟩ := h2 a' b hab
    refine ⟨u, ⟨w, p, w' ++ v, by rw [e]; simp, hw, hp, spaces_line hn hw' hv⟩, e1, ?_⟩
    rintro u' ⟨w1, p1, w1', e1, hw1, hp1, hw1'⟩
    exact hm u' (label ++ w1 ++ p1 ++ w1') [] (by rw [e1]; simp) ⟨w1, p1, w1', rfl, hw1, hp1, hw1', .inl rfl⟩

/-- **C151.** In the configuration shipped, abstracts and affiliations have an expression for the text before, and no other field has. -/
theorem C151_configured (env : TagConfigEnv) (hd : Defaults env) (m : Dict TagConfig)
    (h : getSimpleTagConfigMap env [(c!"article", shippedOptions)] = .ok m) (f : Str) (c : TagConfig) (hc : m.get? f = some c) :
    c.matchPrefixRegex =
      if f = c!"abstract" then some c!"(abstract|summary)\\s*$"
      else if f = c!"author_aff" then some c!"({author_aff-label})\\s*[\\.-]*\\s*$"
      else none := by
  have hopt := C101_options env hd _ m h f c hc
  have hfield := (C101_fields env _ m h f).1 ⟨c, hc⟩
  have hkeys : ∀ p ∈ shippedOptions, endsWith c!".match-prefix-regex" p.1 = true →
      p.1 = c!"abstract" ++ c!".match-prefix-regex" ∨ p.1 = c!"author_aff" ++ c!".match-prefix-regex" := by decide +kernel
  have hplain : ∀ v, v.head? ≠ some '"' → ∀ r, Unquoted v r → r = v := by
    intro v hv r hr
    cases hr with
    | quoted => exact absurd rfl hv
    | plain => rfl
  have hval : ∀ v, v.head? ≠ some '"' → given [(c!"article", shippedOptions)] (f ++ c!".match-prefix-regex") = some v → c.matchPrefixRegex = some v := by
    intro v hv hg
    obtain ⟨r, h1, h2, _⟩ := hopt.2.1 v hg
    rw [h1, hplain v hv r h2]
  split
  · next hf =>
    subst hf
    exact hval _ (by decide) (by decide +kernel)
  · next hf =>
    split
    · next hf' =>
      subst hf'
      exact hval _ (by decide) (by decide +kernel)
    · next hf' =>
      refine hopt.1 ?_
      unfold given
      have : ((([(c!"article", shippedOptions)] : Dict (Dict Str)).flatMap Prod.snd).filter (fun p => p.1 = f ++ c!".match-prefix-regex")) = [] := by
        rw [List.filter_eq_nil_iff]
        intro p hp e
        have e := of_decide_eq_true e
        have hp : p ∈ shippedOptions := by simpa using hp
        rcases hkeys p hp (endsWith_iff.2 ⟨f, e.symm⟩) with h1 | h1
        · rw [e] at h1
          exact hf (List.append_cancel_right h1)
        · rw [e] at h1
          exact hf' (List.append_cancel_right h1)
      rw [this]
      rfl

/-- **C151.** A heading in front of an abstract: the range found is extended to its start. Without one it stays as it is. -/
theorem C151_heading (special : Char → Bool) (env : MatchEnv) (hn : env.cc.isSpace '\n' = true) (cfg : MatchCfg) (text : Str) (r : Nat × Nat) (t : Target)
    (hcfg : (cfg.tagConfig t.name).matchPrefixRegex = some c!"(abstract|summary)\\s*$") (hr : r.1 ≠ 0) :
    ((∀ u h w, ¬ HeadingAtEnd env.cc (text.take r.1) u h w) → applyPrefixRegex (withPrefixPatterns special env) cfg text r t = .ok r) ∧
    ∀ u₀ h₀ w₀, HeadingAtEnd env.cc (text.take r.1) u₀ h₀ w₀ →
      ∃ u h w, HeadingAtEnd env.cc (text.take r.1) u h w ∧
        (∀ u' h' w', HeadingAtEnd env.cc (text.take r.1) u' h' w' → u.length ≤ u'.length) ∧
        applyPrefixRegex (withPrefixPatterns special env) cfg text r t = .ok (u.length, r.2) := by
  obtain ⟨hsome, hnone⟩ := (C64_prefix (withPrefixPatterns special env) cfg text r t).2 _ hr (by simp) hcfg
  have hpat : resolveRegex (withPrefixPatterns special env) c!"(abstract|summary)\\s*$" (subTagPlaceholders t.subs) = c!"(abstract|summary)\\s*$" := by
    have := C64_placeholders (withPrefixPatterns special env) [.text c!"(abstract|summary)\\s*$"] (by simp [PatternPiece.ok]) (subTagPlaceholders t.subs)
    simpa [PatternPiece.written, PatternPiece.filled] using this
  have hse : (withPrefixPatterns special env).reSearch c!"(abstract|summary)\\s*$" (text.take r.1) =
      .ok (((headingPattern env.cc).search env.cc (text.take r.1)).map (·.1)) := by
    show Except.ok (prefixSearch _ _ _) = _
    unfold prefixSearch
    rw [if_neg (by decide), if_pos rfl]
  simp only [hpat, hse, Except.ok.injEq] at hsome hnone
  obtain ⟨h1, h2⟩ := heading_search hn (text.take r.1)
  refine ⟨fun h => hnone (h1.2 h), fun u₀ h₀ w₀ hh => ?_⟩
  cases hs : ((headingPattern env.cc).search env.cc (text.take r.1)).map (·.1) with
  | none => exact absurd hh (h1.1 hs u₀ h₀ w₀)
  | some a =>
    obtain ⟨u, h, w, hh', rfl, hm⟩ := h2 a hs
    exact ⟨u, h, w, hh', hm, hsome _ hs⟩

/-- The search for affiliations, with the text given for the placeholder. -/
theorem aff_applied (special : Char → Bool) (hesc : special '\\' = true) (env : MatchEnv) (cfg : MatchCfg) (text : Str) (r : Nat × Nat) (t : Target)
    (hcfg : (cfg.tagConfig t.name).matchPrefixRegex = some c!"({author_aff-label})\\s*[\\.-]*\\s*$") (hr : r.1 ≠ 0) :
    let found := ((affLabelPattern env.cc ((subTagPlaceholders t.subs).getD c!"author_aff-label" c!"NOT_FOUND")).search env.cc (text.take r.1)).map (·.1)
    (∀ k, found = some k → applyPrefixRegex (withPrefixPatterns special env) cfg text r t = .ok (k, r.2)) ∧
    (found = none → applyPrefixRegex (withPrefixPatterns special env) cfg text r t = .ok r) := by
  obtain ⟨hsome, hnone⟩ := (C64_prefix (withPrefixPatterns special env) cfg text r t).2 _ hr (by simp) hcfg
  generalize hl : (subTagPlaceholders t.subs).getD c!"author_aff-label" c!"NOT_FOUND" = label
  have hpat : resolveRegex (withPrefixPatterns special env) c!"({author_aff-label})\\s*[\\.-]*\\s*$" (subTagPlaceholders t.subs) =
      '(' :: (escapeWith special label ++ affLabelEnd) := by
    have := C64_placeholders (withPrefixPatterns special env) [.text c!"(", .name c!"author_aff-label", .text affLabelEnd]
      (by simp [PatternPiece.ok, affLabelEnd]) (subTagPlaceholders t.subs)
    simp only [List.flatMap_cons, List.flatMap_nil, PatternPiece.written, PatternPiece.filled, hl, List.append_nil] at this
    exact this
  have hse : (withPrefixPatterns special env).reSearch ('(' :: (escapeWith special label ++ affLabelEnd)) (text.take r.1) =
      .ok (((affLabelPattern env.cc label).search env.cc (text.take r.1)).map (·.1)) := by
    show Except.ok (prefixSearch _ _ _) = _
    unfold prefixSearch
    have he : endsWith affLabelEnd ('(' :: (escapeWith special label ++ affLabelEnd)) = true :=
      endsWith_iff.2 ⟨'(' :: escapeWith special label, rfl⟩
    have ht : (escapeWith special label ++ affLabelEnd).take ((escapeWith special label ++ affLabelEnd).length + 1 - 1 - affLabelEnd.length) =
        escapeWith special label := by
      rw [List.length_append, show (escapeWith special label).length + affLabelEnd.length + 1 - 1 - affLabelEnd.length = (escapeWith special label).length by omega]
      exact List.take_left
    rw [if_pos he]
    simp only [List.drop_succ_cons, List.drop_zero, List.length_cons]
    rw [ht, unescape_escape hesc]
  simp only [hpat, hse, Except.ok.injEq] at hsome hnone
  exact ⟨hsome, hnone⟩

/-- **C151.** The label in front of an affiliation: the range found is extended to its start if the text before ends with it, perhaps with
white space, dots and dashes behind it. -/
theorem C151_label (special : Char → Bool) (hesc : special '\\' = true) (env : MatchEnv) (hn : env.cc.isSpace '\n' = true) (cfg : MatchCfg) (text : Str)
    (r : Nat × Nat) (t : Target) (hcfg : (cfg.tagConfig t.name).matchPrefixRegex = some c!"({author_aff-label})\\s*[\\.-]*\\s*$") (hr : r.1 ≠ 0)
    (before after : List (Str × TargetValue)) (label : Str) (hsubs : t.subs = before ++ (c!"author_aff-label", .one label) :: after)
    (hlast : ∀ l, (c!"author_aff-label", .one l) ∉ after) :
    ((∀ u, ¬ LabelBefore env.cc label (text.take r.1) u) → applyPrefixRegex (withPrefixPatterns special env) cfg text r t = .ok r) ∧
    ∀ u₀, LabelBefore env.cc label (text.take r.1) u₀ →
      ∃ u, LabelBefore env.cc label (text.take r.1) u ∧ (∀ u', LabelBefore env.cc label (text.take r.1) u' → u.length ≤ u'.length) ∧
        applyPrefixRegex (withPrefixPatterns special env) cfg text r t = .ok (u.length, r.2) := by
  obtain ⟨hsome, hnone⟩ := aff_applied special hesc env cfg text r t hcfg hr
  have hv := (C64_values t.subs c!"author_aff-label").1 before after label hsubs hlast
  simp only [Dict.getD, hv, Option.getD_some] at hsome hnone
  obtain ⟨h1, h2⟩ := label_before_search hn label (text.take r.1)
  refine ⟨fun h => hnone (h1.2 h), fun u₀ hh => ?_⟩
  cases hs : ((affLabelPattern env.cc label).search env.cc (text.take r.1)).map (·.1) with
  | none => exact absurd hh (h1.1 hs u₀)
  | some a =>
    obtain ⟨u, hu, rfl, hm⟩ := h2 a hs
    exact ⟨u, hu, hm, hsome _ hs⟩

/-- **C151.** An affiliation without label stays as it is: the text `NOT_FOUND`, searched in this case, has capital letters, and the
text of the document has none. -/
theorem C151_no_label (special : Char → Bool) (hesc : special '\\' = true) (env : MatchEnv) (hn : env.cc.isSpace '\n' = true) (cfg : MatchCfg) (text : Str)
    (r : Nat × Nat) (t : Target) (hcfg : (cfg.tagConfig t.name).matchPrefixRegex = some c!"({author_aff-label})\\s*[\\.-]*\\s*$") (hr : r.1 ≠ 0)
    (hsubs : ∀ l, (c!"author_aff-label", .one l) ∉ t.subs) (htext : 'N' ∉ text) :
    applyPrefixRegex (withPrefixPatterns special env) cfg text r t = .ok r := by
  obtain ⟨_, hnone⟩ := aff_applied special hesc env cfg text r t hcfg hr
  have hv := (C64_values t.subs c!"author_aff-label").2 hsubs
  simp only [Dict.getD, hv, Option.getD_none] at hnone
  refine hnone ((label_before_search hn c!"NOT_FOUND" (text.take r.1)).1.2 ?_)
  rintro u ⟨w, p, w', e, _⟩
  refine htext (List.mem_of_mem_take (i := r.1) ?_)
  rw [e]
  simp

/-! ### Examples -/

def exPrefixEnv : MatchEnv := ⟨asciiClass, asciiLower, fun _ _ => [], fun _ _ => [], fun _ => 0, fun _ _ => .ok none, id⟩

/-- Special characters of `re.escape`. -/
def exSpecial (c : Char) : Bool := c ∈ c!"()[]{}?*+-|^$\\.&~# \t\n"

def exPrefixCfg : MatchCfg := { tagConfigMap := [(c!"abstract", { matchPrefixRegex := some c!"(abstract|summary)\\s*$" }),
  (c!"author_aff", { matchPrefixRegex := some c!"({author_aff-label})\\s*[\\.-]*\\s*$" })] }

def exAff (label : Str) : Target := ⟨c!"author_aff", .one c!"Department", [(c!"author_aff-label", .one label)]⟩

/-- The heading `Abstract` with a line break behind it, and labels with a special character and with a dot behind them. -/
example :
    applyPrefixRegex (withPrefixPatterns exSpecial exPrefixEnv) exPrefixCfg c!"title\nabstract\nwe show" (15, 22) ⟨c!"abstract", .one c!"We show", []⟩ = .ok (6, 22) ∧
    applyPrefixRegex (withPrefixPatterns exSpecial exPrefixEnv) exPrefixCfg c!"title\nnames\nwe show" (12, 19) ⟨c!"abstract", .one c!"We show", []⟩ = .ok (12, 19) ∧
    applyPrefixRegex (withPrefixPatterns exSpecial exPrefixEnv) exPrefixCfg c!"names\n1. department" (9, 19) (exAff c!"1") = .ok (6, 19) ∧
    applyPrefixRegex (withPrefixPatterns exSpecial exPrefixEnv) exPrefixCfg c!"names\n* department" (8, 18) (exAff c!"*") = .ok (6, 18) := by
  decide +kernel

/-- The hypotheses about the configuration and the environment are met. -/
example (label : Str) : (exPrefixCfg.tagConfig (exAff label).name).matchPrefixRegex = some c!"({author_aff-label})\\s*[\\.-]*\\s*$" ∧
    exSpecial '\\' = true ∧ exPrefixEnv.cc.isSpace '\n' = true := by
  exact ⟨rfl, by decide +kernel, by decide +kernel⟩

example : (getSimpleTagConfigMap { exTagEnv with validRegex := fun _ => true } [(c!"article", shippedOptions)]).toOption.isSome = true := by decide +kernel

/-- **C151**, disagreement: the text of the document is in lower case where matches are searched, the label is not. A label with a capital
letter is not found, although the document has it. -/
theorem C151_capital_label_missed :
    applyPrefixRegex (withPrefixPatterns exSpecial exPrefixEnv) exPrefixCfg (normaliseStr asciiLower c!"names\nA Department") (8, 18) (exAff c!"A") = .ok (8, 18) ∧
    applyPrefixRegex (withPrefixPatterns exSpecial exPrefixEnv) exPrefixCfg (normaliseStr asciiLower c!"names\na Department") (8, 18) (exAff c!"a") = .ok (6, 18) := by
  decide +kernel

/-- **C151**, disagreement: a label is also found at the end of a longer number or word. -/
theorem C151_label_in_number :
    applyPrefixRegex (withPrefixPatterns exSpecial exPrefixEnv) exPrefixCfg c!"june 2011 department" (10, 20) (exAff c!"1") = .ok (8, 20) := by
  decide +kernel

end Verif
