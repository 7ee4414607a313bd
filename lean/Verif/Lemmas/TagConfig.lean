/-
Helper lemmas about the options of the fields in the XML mapping.
-/
import Verif.Spec.TagConfig
import Verif.Lemmas.PyStr
import Verif.Lemmas.TargetAnnotations

namespace Verif

open Spec

theorem get?_foldl_set_any {β : Type} (ps : List (Str × β)) (d : Dict β) (k : Str) :
    (ps.foldl (fun d p => Dict.set d p.1 p.2) d).get? k =
      match (ps.filter (fun p => p.1 = k)).getLast? with
      | some p => some p.2
      | none => d.get? k := by
  induction ps generalizing d with
  | nil => rfl
  | cons p ps ih =>
    rw [List.foldl_cons, ih]
    by_cases hp : p.1 = k
    · simp only [List.filter_cons, hp, decide_true, if_true, List.getLast?_cons]
      cases (ps.filter (fun p => p.1 = k)).getLast? with
      | none => simp
      | some q => simp
    · simp only [List.filter_cons, hp, decide_false, Bool.false_eq_true, if_false]
      cases (ps.filter (fun p => p.1 = k)).getLast? with
      | none => simp [Dict.get?_set_ne _ _ (Ne.symm hp)]
      | some q => rfl

theorem get?_flatConfig (mapping : Dict (Dict Str)) (k : Str) : (flatConfig mapping).get? k = given mapping k := by
  unfold flatConfig given Dict.ofPairs
  rw [get?_foldl_set_any]
  cases ((mapping.flatMap Prod.snd).filter (fun p => p.1 = k)).getLast? <;> rfl

/-- Lines. -/
theorem isLines_from (line s : Str) (h : ∀ c ∈ line, isLineBoundary c = false) :
    IsLines (line ++ s) (splitLinesFrom line s) := by
  induction line, s using splitLinesFrom.induct with
  | case1 line hl =>
    have : line = [] := List.isEmpty_iff.mp hl
    subst this
    exact .empty
  | case2 line hl =>
    rw [splitLinesFrom, if_neg hl, List.append_nil]
    exact .last line (by simpa using hl) h
  | case3 line s ih =>
    rw [splitLinesFrom]
    exact .crlf line s _ h (ih (by simp))
  | case4 line c s hcr hb ih =>
    rw [splitLinesFrom, if_pos hb]
    · refine .line line c s _ h hb ?_ (ih (by simp))
      rintro ⟨h1, h2⟩
      cases s with
      | nil => simp at h2
      | cons x s =>
        simp only [List.head?_cons, Option.some.injEq] at h2
        exact hcr s h1 (by rw [h2])
    · exact hcr
  | case5 line c s hcr hb ih =>
    rw [splitLinesFrom, if_neg hb]
    · have := ih (by
        intro x hx
        rcases List.mem_append.mp hx with hx | hx
        · exact h x hx
        · rw [List.mem_singleton.mp hx]; simpa using hb)
      simpa using this
    · exact hcr

theorem isLines_splitLines (s : Str) : IsLines s (splitLines s) := isLines_from [] s (by simp)

theorem splitLinesFrom_append (line l s : Str) (h : ∀ c ∈ l, isLineBoundary c = false) :
    splitLinesFrom line (l ++ s) = splitLinesFrom (line ++ l) s := by
  induction l generalizing line with
  | nil => simp
  | cons c l ih =>
    have hc : isLineBoundary c = false := h c (by simp)
    have hcr : ∀ s', c = '\r' → l ++ s = '\n' :: s' → False := by
      intro s' h1 _
      rw [h1] at hc
      revert hc; decide
    rw [List.cons_append, splitLinesFrom, if_neg (by rw [hc]; decide), ih _ (fun x hx => h x (by simp [hx]))]
    · simp
    · exact hcr

theorem isLines_unique {s : Str} {ls : List Str} (h : IsLines s ls) : ls = splitLines s := by
  unfold splitLines
  induction h with
  | empty => rfl
  | last l hl hb =>
    have := splitLinesFrom_append [] l [] hb
    rw [List.append_nil] at this
    rw [this, List.nil_append, splitLinesFrom, if_neg (by simpa using hl)]
  | crlf l s ls hb _ ih =>
    rw [splitLinesFrom_append _ _ _ hb, List.nil_append, splitLinesFrom, ih]
  | line l c s ls hb hc hn _ ih =>
    rw [splitLinesFrom_append _ _ _ hb, List.nil_append, splitLinesFrom, if_pos hc, ih]
    intro s' h1 h2
    exact hn ⟨h1, by rw [h2]; rfl⟩

/-- Lines of spellings. -/
theorem spellingLine_iff (cc : CharClass) (line key : Str) (values : List Str) :
    SpellingLine cc line key values ↔
      ∃ a b, splitOnce '=' (strip cc line) = [a, b] ∧ key = strip cc a ∧ values = splitOn ',' (strip cc b) := by
  constructor
  · rintro ⟨a, b, h1, h2, h3, h4, h5, h6⟩
    refine ⟨a, b, by rw [h1, splitOnce_append _ _ _ h2], h3, ?_⟩
    rw [← h6, splitOn_joinStr _ _ h4 h5]
  · rintro ⟨a, b, h1, h2, h3⟩
    rcases first_occurrence '=' (strip cc line) with h | ⟨f, r, h4, h5⟩
    · rw [splitOnce_of_not_mem _ _ h] at h1
      simp at h1
    · rw [h4, splitOnce_append _ _ _ h5] at h1
      simp only [List.cons.injEq, and_true] at h1
      obtain ⟨rfl, rfl⟩ := h1
      refine ⟨f, r, h4, h5, h2, ?_, ?_, ?_⟩
      · rw [h3]; exact splitOn_ne_nil _ _
      · rw [h3]; exact fun v hv => not_mem_splitOn _ _ _ hv
      · rw [h3]; exact joinStr_splitOn _ _

theorem spellingLine_unique {cc : CharClass} {line k k' : Str} {vs vs' : List Str} (h : SpellingLine cc line k vs)
    (h' : SpellingLine cc line k' vs') : k = k' ∧ vs = vs' := by
  obtain ⟨a, b, h1, rfl, rfl⟩ := (spellingLine_iff ..).mp h
  obtain ⟨a', b', h1', rfl, rfl⟩ := (spellingLine_iff ..).mp h'
  rw [h1] at h1'
  simp only [List.cons.injEq, and_true] at h1'
  obtain ⟨rfl, rfl⟩ := h1'
  exact ⟨rfl, rfl⟩

/-- What a line does. -/
theorem spellingLines_cases (env : TagConfigEnv) (line : Str) :
    (strip env.cc line = [] ∧ ∀ k vs, ¬ SpellingLine env.cc line k vs) ∨ BadLine env.cc line ∨
      ∃ k vs, SpellingLine env.cc line k vs ∧ ∀ lines result,
        spellingLines env result (line :: lines) = spellingLines env (result.set k vs) lines := by
  by_cases h0 : strip env.cc line = []
  · left
    refine ⟨h0, ?_⟩
    rintro k vs ⟨a, b, h1, _⟩
    rw [h0] at h1
    simp at h1
  · right
    rcases first_occurrence '=' (strip env.cc line) with h | ⟨f, r, h4, h5⟩
    · exact .inl ⟨h0, h⟩
    · right
      have he : splitOnce '=' (strip env.cc line) = [f, r] := by rw [h4, splitOnce_append _ _ _ h5]
      refine ⟨strip env.cc f, splitOn ',' (strip env.cc r), (spellingLine_iff ..).mpr ⟨f, r, he, rfl, rfl⟩, ?_⟩
      intro lines result
      have : (strip env.cc line).isEmpty = false := by simpa using h0
      simp only [spellingLines, this, he]
      rfl

theorem spellingLines_blank (env : TagConfigEnv) {line : Str} (h : strip env.cc line = []) (lines : List Str)
    (result : Dict (List Str)) : spellingLines env result (line :: lines) = spellingLines env result lines := by
  simp [spellingLines, h]

theorem spellingLines_bad (env : TagConfigEnv) {line : Str} (h : BadLine env.cc line) (lines : List Str)
    (result : Dict (List Str)) : spellingLines env result (line :: lines) = .error .valueError := by
  have : (strip env.cc line).isEmpty = false := by simpa using h.1
  simp only [spellingLines, this, splitOnce_of_not_mem _ _ h.2]
  rfl

theorem spellingLine_not_bad {cc : CharClass} {line k : Str} {vs : List Str} (h : SpellingLine cc line k vs) :
    ¬ BadLine cc line := by
  obtain ⟨a, b, h1, _⟩ := h
  rintro ⟨_, h2⟩
  rw [h1] at h2
  simp at h2

theorem spellingLines_error (env : TagConfigEnv) (lines : List Str) (result : Dict (List Str)) :
    (∃ e, spellingLines env result lines = .error e) ↔ ∃ line ∈ lines, BadLine env.cc line := by
  induction lines generalizing result with
  | nil => simp [spellingLines]
  | cons line lines ih =>
    rcases spellingLines_cases env line with ⟨h, _⟩ | h | ⟨k, vs, h, h'⟩
    · rw [spellingLines_blank env h, ih]
      simp only [List.mem_cons, exists_eq_or_imp]
      exact ⟨.inr, fun hb => hb.elim (fun hb => absurd h hb.1) id⟩
    · rw [spellingLines_bad env h]
      exact ⟨fun _ => ⟨line, by simp, h⟩, fun _ => ⟨_, rfl⟩⟩
    · rw [h', ih]
      simp only [List.mem_cons, exists_eq_or_imp]
      exact ⟨.inr, fun hb => hb.elim (fun hb => absurd hb (spellingLine_not_bad h)) id⟩

theorem spellingLines_get? (env : TagConfigEnv) (lines : List Str) (result d : Dict (List Str))
    (h : spellingLines env result lines = .ok d) (k : Str) (vs : List Str) :
    d.get? k = some vs ↔
      (∃ pre line post, lines = pre ++ line :: post ∧ SpellingLine env.cc line k vs ∧
        ∀ l ∈ post, ∀ vs', ¬ SpellingLine env.cc l k vs') ∨
      (result.get? k = some vs ∧ ∀ l ∈ lines, ∀ vs', ¬ SpellingLine env.cc l k vs') := by
  induction lines generalizing result with
  | nil =>
    simp only [spellingLines, Except.ok.injEq] at h
    subst h
    simp
  | cons line lines ih =>
    rcases spellingLines_cases env line with ⟨h0, hn⟩ | hb | ⟨k', vs', hl, he⟩
    · rw [spellingLines_blank env h0] at h
      rw [ih _ h]
      constructor
      · rintro (⟨pre, l, post, h1, h2, h3⟩ | ⟨h1, h2⟩)
        · exact .inl ⟨line :: pre, l, post, by rw [h1]; rfl, h2, h3⟩
        · exact .inr ⟨h1, fun l hl => (List.mem_cons.mp hl).elim (fun e => e ▸ hn k) (h2 l)⟩
      · rintro (⟨pre, l, post, h1, h2, h3⟩ | ⟨h1, h2⟩)
        · cases pre with
          | nil =>
            simp only [List.nil_append, List.cons.injEq] at h1
            exact absurd h2 (h1.1 ▸ hn k vs)
          | cons p pre =>
            simp only [List.cons_append, List.cons.injEq] at h1
            exact .inl ⟨pre, l, post, h1.2, h2, h3⟩
        · exact .inr ⟨h1, fun l hl => h2 l (by simp [hl])⟩
    · rw [spellingLines_bad env hb] at h
      cases h
    · rw [he] at h
      rw [ih _ h]
      constructor
      · rintro (⟨pre, l, post, h1, h2, h3⟩ | ⟨h1, h2⟩)
        · exact .inl ⟨line :: pre, l, post, by rw [h1]; rfl, h2, h3⟩
        · by_cases hk : k = k'
          · subst hk
            rw [Dict.get?_set_self] at h1
            cases h1
            exact .inl ⟨[], line, lines, rfl, hl, h2⟩
          · rw [Dict.get?_set_ne _ _ hk] at h1
            refine .inr ⟨h1, fun l hl' vs'' => ?_⟩
            rcases List.mem_cons.mp hl' with e | hl'
            · subst e
              exact fun hs => hk (spellingLine_unique hs hl).1
            · exact h2 l hl' vs''
      · rintro (⟨pre, l, post, h1, h2, h3⟩ | ⟨h1, h2⟩)
        · cases pre with
          | nil =>
            simp only [List.nil_append, List.cons.injEq] at h1
            obtain ⟨rfl, rfl⟩ := h1
            obtain ⟨rfl, rfl⟩ := spellingLine_unique h2 hl
            exact .inr ⟨Dict.get?_set_self .., h3⟩
          | cons p pre =>
            simp only [List.cons_append, List.cons.injEq] at h1
            exact .inl ⟨pre, l, post, h1.2, h2, h3⟩
        · have hk : k ≠ k' := by
            intro e
            exact h2 line (by simp) vs' (e ▸ hl)
          exact .inr ⟨by rw [Dict.get?_set_ne _ _ hk]; exact h1, fun l hl => h2 l (by simp [hl])⟩

end Verif
