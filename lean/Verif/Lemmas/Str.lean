import Verif.Model.Basic

namespace Verif

theorem dropWhile_eq_nil_iff {p : Char → Bool} {s : Str} :
    s.dropWhile p = [] ↔ ∀ c ∈ s, p c = true := by
  induction s with
  | nil => simp
  | cons c s ih =>
    by_cases h : p c = true
    · simp [h, ih]
    · simp [h]

theorem mem_dropWhile {p : Char → Bool} {s : Str} {c : Char} (h : c ∈ s.dropWhile p) : c ∈ s :=
  (List.dropWhile_sublist p).subset h

/-- A string strips to nothing exactly when all its characters are white space. -/
theorem strip_eq_nil_iff (cc : CharClass) (s : Str) :
    strip cc s = [] ↔ ∀ c ∈ s, cc.isSpace c = true := by
  unfold strip rstrip lstrip
  rw [List.reverse_eq_nil_iff, dropWhile_eq_nil_iff]
  constructor
  · intro h
    induction s with
    | nil => simp
    | cons c s ih =>
      by_cases hc : cc.isSpace c = true
      · simp only [List.dropWhile_cons, hc, if_true] at h
        intro d hd
        rcases List.mem_cons.1 hd with rfl | hd
        · exact hc
        · exact ih h d hd
      · simp only [List.dropWhile_cons, hc] at h
        exact absurd (h c (by simp)) hc
  · intro h c hc
    exact h c (mem_dropWhile (List.mem_reverse.1 hc))

end Verif
