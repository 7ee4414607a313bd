/-
Lemmas about Python string functions.
-/
import Verif.Model.PyStr
import Verif.Lemmas.Str
import Verif.Lemmas.List

namespace Verif

theorem splitOn_ne_nil (c : Char) (s : Str) : splitOn c s ≠ [] := by
  cases s with
  | nil => simp [splitOn]
  | cons x s =>
    unfold splitOn
    split
    · simp
    · split <;> simp

theorem splitOn_cons_ne (c x : Char) (s : Str) (h : x ≠ c) :
    splitOn c (x :: s) = (x :: (splitOn c s).headD []) :: (splitOn c s).tail := by
  rw [splitOn, if_neg h]
  have := splitOn_ne_nil c s
  cases hs : splitOn c s with
  | nil => exact absurd hs this
  | cons f fs => rfl

/-- The parts contain no separator. -/
theorem not_mem_splitOn (c : Char) (s : Str) : ∀ f ∈ splitOn c s, c ∉ f := by
  induction s with
  | nil => simp [splitOn]
  | cons x s ih =>
    by_cases h : x = c
    · rw [splitOn, if_pos h]
      intro f hf
      rcases List.mem_cons.1 hf with h1 | h1
      · subst h1; simp
      · exact ih f h1
    · rw [splitOn_cons_ne c x s h]
      have := splitOn_ne_nil c s
      cases hs : splitOn c s with
      | nil => exact absurd hs this
      | cons g gs =>
        rw [hs] at ih
        intro f hf
        simp only [List.headD_cons, List.tail_cons] at hf
        rcases List.mem_cons.1 hf with h1 | h1
        · subst h1
          have := ih g (by simp)
          intro hc
          rcases List.mem_cons.1 hc with h2 | h2
          · exact h h2.symm
          · exact this h2
        · exact ih f (by simp [h1])

theorem joinStr_cons (sep f : Str) (fs : List Str) (h : fs ≠ []) :
    joinStr sep (f :: fs) = f ++ sep ++ joinStr sep fs := by
  cases fs with
  | nil => exact absurd rfl h
  | cons g gs => rfl

/-- Joining the parts gives the string back. -/
theorem joinStr_splitOn (c : Char) (s : Str) : joinStr [c] (splitOn c s) = s := by
  induction s with
  | nil => rfl
  | cons x s ih =>
    by_cases h : x = c
    · rw [splitOn, if_pos h, joinStr_cons _ _ _ (splitOn_ne_nil c s), ih, h]; rfl
    · rw [splitOn_cons_ne c x s h]
      have := splitOn_ne_nil c s
      cases hs : splitOn c s with
      | nil => exact absurd hs this
      | cons g gs =>
        rw [hs] at ih
        simp only [List.headD_cons, List.tail_cons]
        cases gs with
        | nil => simp only [joinStr] at ih ⊢; rw [ih]
        | cons g' gs =>
          simp only [joinStr] at ih ⊢
          rw [← ih]; rfl

/-- Splitting a part without separator, followed by the separator. -/
theorem splitOn_append (c : Char) (f s : Str) (h : c ∉ f) : splitOn c (f ++ c :: s) = f :: splitOn c s := by
  induction f with
  | nil => simp [splitOn]
  | cons x f ih =>
    rw [List.mem_cons, not_or] at h
    rw [List.cons_append, splitOn_cons_ne c x _ (Ne.symm h.1), ih h.2]; rfl

theorem splitOn_of_not_mem (c : Char) (f : Str) (h : c ∉ f) : splitOn c f = [f] := by
  induction f with
  | nil => rfl
  | cons x f ih =>
    rw [List.mem_cons, not_or] at h
    rw [splitOn_cons_ne c x _ (Ne.symm h.1), ih h.2]; rfl

/-- Splitting a joined list gives the list back. -/
theorem splitOn_joinStr (c : Char) (fs : List Str) (hne : fs ≠ []) (h : ∀ f ∈ fs, c ∉ f) :
    splitOn c (joinStr [c] fs) = fs := by
  induction fs with
  | nil => exact absurd rfl hne
  | cons f fs ih =>
    cases fs with
    | nil => exact splitOn_of_not_mem c f (h f (by simp))
    | cons g gs =>
      rw [joinStr_cons _ _ _ (by simp), List.append_assoc, List.singleton_append,
        splitOn_append c f _ (h f (by simp)), ih (by simp) (fun f hf => h f (by simp [hf]))]

theorem splitOn_snoc (c x : Char) (s : Str) (h : x ≠ c) :
    ∃ fs f, splitOn c s = fs ++ [f] ∧ splitOn c (s ++ [x]) = fs ++ [f ++ [x]] := by
  induction s with
  | nil => exact ⟨[], [], rfl, by rw [List.nil_append, splitOn_cons_ne c x [] h]; rfl⟩
  | cons y s ih =>
    obtain ⟨fs, f, h1, h2⟩ := ih
    by_cases hy : y = c
    · refine ⟨[] :: fs, f, ?_, ?_⟩
      · rw [splitOn, if_pos hy, h1]; rfl
      · rw [List.cons_append, splitOn, if_pos hy, h2]; rfl
    · rw [List.cons_append, splitOn_cons_ne c y _ hy, splitOn_cons_ne c y _ hy, h1, h2]
      cases fs with
      | nil => exact ⟨[], y :: f, rfl, rfl⟩
      | cons g gs => exact ⟨(y :: g) :: gs, f, rfl, rfl⟩

theorem strip_cons_space (cc : CharClass) (x : Char) (s : Str) (h : cc.isSpace x = true) :
    strip cc (x :: s) = strip cc s := by
  unfold strip lstrip
  rw [List.dropWhile_cons, if_pos h]

theorem rstrip_snoc_space (cc : CharClass) (x : Char) (s : Str) (h : cc.isSpace x = true) :
    rstrip cc (s ++ [x]) = rstrip cc s := by
  unfold rstrip
  rw [List.reverse_append, List.reverse_cons, List.reverse_nil, List.nil_append, List.singleton_append,
    List.dropWhile_cons, if_pos h]

theorem strip_snoc_space (cc : CharClass) (x : Char) (s : Str) (h : cc.isSpace x = true) :
    strip cc (s ++ [x]) = strip cc s := by
  induction s with
  | nil =>
    unfold strip lstrip rstrip
    simp [h]
  | cons y s ih =>
    by_cases hy : cc.isSpace y = true
    · rw [List.cons_append, strip_cons_space cc y _ hy, strip_cons_space cc y _ hy, ih]
    · unfold strip lstrip
      rw [List.cons_append, List.dropWhile_cons, if_neg hy, List.dropWhile_cons, if_neg hy,
        ← List.cons_append, rstrip_snoc_space cc x _ h]

/-- A string is its stripped form between white space. -/
theorem strip_decompose (cc : CharClass) (s : Str) :
    ∃ a b, s = a ++ strip cc s ++ b ∧ (∀ c ∈ a, cc.isSpace c = true) ∧ (∀ c ∈ b, cc.isSpace c = true) := by
  refine ⟨s.takeWhile cc.isSpace, ((lstrip cc s).reverse.takeWhile cc.isSpace).reverse, ?_, ?_, ?_⟩
  · unfold strip rstrip
    rw [List.append_assoc, ← List.reverse_append, List.takeWhile_append_dropWhile, List.reverse_reverse,
      lstrip, List.takeWhile_append_dropWhile]
  · intro c hc; exact mem_takeWhile_imp hc
  · intro c hc; rw [List.mem_reverse] at hc; exact mem_takeWhile_imp hc

theorem strip_idem_of (cc : CharClass) (a s b : Str) (ha : ∀ c ∈ a, cc.isSpace c = true)
    (hb : ∀ c ∈ b, cc.isSpace c = true) : strip cc (a ++ s ++ b) = strip cc s := by
  induction a with
  | nil =>
    rw [List.nil_append]
    induction b generalizing s with
    | nil => rw [List.append_nil]
    | cons x b ih =>
      rw [← List.singleton_append, ← List.append_assoc, ih (s ++ [x]) (fun c hc => hb c (by simp [hc])),
        strip_snoc_space cc x s (hb x (by simp))]
  | cons x a ih =>
    rw [List.cons_append, List.cons_append, strip_cons_space cc x _ (ha x (by simp)), ih (fun c hc => ha c (by simp [hc]))]

/-- White space around the whole does not matter for the stripped parts. -/
theorem map_strip_splitOn (cc : CharClass) (c : Char) (hc : cc.isSpace c = false) (a s b : Str)
    (ha : ∀ x ∈ a, cc.isSpace x = true) (hb : ∀ x ∈ b, cc.isSpace x = true) :
    (splitOn c (a ++ s ++ b)).map (strip cc) = (splitOn c s).map (strip cc) := by
  have hns : ∀ x, cc.isSpace x = true → x ≠ c := by
    intro x hx h; subst h; rw [hx] at hc; cases hc
  induction a with
  | nil =>
    rw [List.nil_append]
    induction b generalizing s with
    | nil => rw [List.append_nil]
    | cons x b ih =>
      rw [← List.singleton_append, ← List.append_assoc, ih (s ++ [x]) (fun c hc => hb c (by simp [hc]))]
      obtain ⟨fs, f, h1, h2⟩ := splitOn_snoc c x s (hns x (hb x (by simp)))
      rw [h1, h2, List.map_append, List.map_append, List.map_singleton, List.map_singleton,
        strip_snoc_space cc x f (hb x (by simp))]
  | cons x a ih =>
    rw [List.cons_append, List.cons_append, splitOn_cons_ne c x _ (hns x (ha x (by simp))),
      ← ih (fun c hc => ha c (by simp [hc]))]
    cases h : splitOn c (a ++ s ++ b) with
    | nil => exact absurd h (splitOn_ne_nil c _)
    | cons f fs =>
      rw [List.headD_cons, List.tail_cons, List.map_cons, List.map_cons, strip_cons_space cc x f (ha x (by simp))]

theorem splitOnce_append (c : Char) (f s : Str) (h : c ∉ f) : splitOnce c (f ++ c :: s) = [f, s] := by
  have h1 : ∀ x ∈ f, (!decide (x = c)) = true := by
    intro x hx
    have : x ≠ c := fun e => h (e ▸ hx)
    simpa using this
  unfold splitOnce
  rw [if_pos (by simp), List.takeWhile_append_of_pos h1, List.dropWhile_append_of_pos h1]
  simp

theorem splitOnce_of_not_mem (c : Char) (s : Str) (h : c ∉ s) : splitOnce c s = [s] := by
  unfold splitOnce
  rw [if_neg h]

/-- A character either does not occur or has a first occurrence. -/
theorem first_occurrence (c : Char) (s : Str) : c ∉ s ∨ ∃ f r, s = f ++ c :: r ∧ c ∉ f := by
  induction s with
  | nil => left; simp
  | cons x s ih =>
    by_cases h : x = c
    · right; exact ⟨[], s, by rw [h]; rfl, by simp⟩
    · rcases ih with h1 | ⟨f, r, h1, h2⟩
      · left
        rw [List.mem_cons, not_or]
        exact ⟨Ne.symm h, h1⟩
      · right
        refine ⟨x :: f, r, by rw [h1]; rfl, ?_⟩
        rw [List.mem_cons, not_or]
        exact ⟨Ne.symm h, h2⟩

end Verif
