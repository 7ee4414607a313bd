/-
Lemmas about substitutions in file names.
-/
import Verif.Model.TargetFile
import Verif.Spec.TargetFile
import Verif.Lemmas.PyStr

namespace Verif
open Spec

theorem greedyLen_none (is : List (Option Char)) (s : Str) (hs : ∀ c ∈ s, c ≠ '\n')
    (h : ∀ j, suffixAt is (s.drop j) = false) : greedyLen is s = none := by
  induction s with
  | nil => rw [greedyLen, if_neg (by simpa using h 0)]
  | cons x s ih =>
    have := ih (fun c hc => hs c (List.mem_cons_of_mem _ hc)) (fun j => by simpa using h (j + 1))
    rw [greedyLen, if_neg (hs x (List.mem_cons_self ..)), this]
    simp only
    rw [if_neg (by simpa using h 0)]

theorem greedyLen_last (is : List (Option Char)) (s : Str) (hs : ∀ c ∈ s, c ≠ '\n') (k : Nat) (hk : k ≤ s.length)
    (h1 : suffixAt is (s.drop k) = true) (h2 : ∀ j, k < j → suffixAt is (s.drop j) = false) :
    greedyLen is s = some k := by
  induction s generalizing k with
  | nil =>
    have : k = 0 := by simpa using hk
    subst this
    rw [greedyLen, if_pos (by simpa using h1)]
  | cons x s ih =>
    have hs' : ∀ c ∈ s, c ≠ '\n' := fun c hc => hs c (List.mem_cons_of_mem _ hc)
    rw [greedyLen, if_neg (hs x (List.mem_cons_self ..))]
    cases k with
    | zero =>
      rw [greedyLen_none is s hs' (fun j => by simpa using h2 (j + 1) (by omega))]
      simp only
      rw [if_pos (by simpa using h1)]
    | succ k =>
      rw [ih hs' k (by simpa using hk) (by simpa using h1) (fun j hj => by simpa using h2 (j + 1) (by omega))]

theorem subSuffixLoop_none (is : List (Option Char)) (ext : Str) (n : Nat) (s : Str) (hs : ∀ c ∈ s, c ≠ '\n')
    (h : ∀ j, suffixAt is (s.drop j) = false) : subSuffixLoop is ext n s = s := by
  induction n generalizing s with
  | zero => rfl
  | succ n ih =>
    rw [subSuffixLoop.eq_def]
    simp only [greedyLen_none is s hs h]
    cases s with
    | nil => rfl
    | cons x s =>
      simp only
      rw [ih s (fun c hc => hs c (List.mem_cons_of_mem _ hc)) (fun j => by simpa using h (j + 1))]

/-- The items of a suffix. -/
def suffixItems (suffix : Str) : List (Option Char) := suffix.map (fun c => if c = '.' then none else some c)

theorem suffixAt_iff (suffix s : Str) (hs : ∀ c ∈ s, c ≠ '\n') :
    suffixAt (suffixItems suffix) s = true ↔ StartsLike suffix s := by
  unfold suffixItems
  induction suffix generalizing s with
  | nil => simp [suffixAt, StartsLike]
  | cons c suffix ih =>
    cases s with
    | nil => simp [suffixAt, StartsLike]
    | cons x s =>
      have hx := hs x (List.mem_cons_self ..)
      have := ih s (fun c hc => hs c (List.mem_cons_of_mem _ hc))
      rw [List.map_cons, suffixAt, Bool.and_eq_true, this]
      have hit : itemMatches (if c = '.' then none else some c) x = true ↔ c = '.' ∨ x = c := by
        by_cases hc : c = '.'
        · rw [if_pos hc]; simp [itemMatches, hx, hc]
        · rw [if_neg hc]; simp [itemMatches, hc]
      rw [hit]
      unfold StartsLike
      constructor
      · rintro ⟨h1, h2, h3⟩
        refine ⟨by simp only [List.length_cons]; omega, ?_⟩
        intro i c' hi
        cases i with
        | zero =>
          simp only [List.getElem?_cons_zero, Option.some.injEq] at hi ⊢
          subst hi; exact h1
        | succ i =>
          simp only [List.getElem?_cons_succ] at hi ⊢
          exact h3 i c' hi
      · rintro ⟨h1, h2⟩
        refine ⟨by simpa using h2 0 c rfl, by simpa using h1, ?_⟩
        intro i c' hi
        simpa using h2 (i + 1) c' (by simpa using hi)

theorem suffixAt_self (suffix tail : Str) (h : ∀ c ∈ suffix ++ tail, c ≠ '\n') :
    suffixAt (suffixItems suffix) (suffix ++ tail) = true := by
  rw [suffixAt_iff _ _ h]
  refine ⟨by simp, ?_⟩
  intro i c hi
  right
  obtain ⟨hi', _⟩ := List.getElem?_eq_some_iff.1 hi
  rw [List.getElem?_append_left hi', hi]

theorem subSuffix_eq (suffix ext base tail : Str) (hne : suffix ≠ []) (h : ∀ c ∈ base ++ (suffix ++ tail), c ≠ '\n')
    (hlast : ∀ k, 0 < k → ¬ StartsLike suffix ((suffix ++ tail).drop k)) :
    subSuffix (suffixItems suffix) ext (base ++ (suffix ++ tail)) = base ++ ext ++ tail := by
  have h' : ∀ c ∈ suffix ++ tail, c ≠ '\n' := fun c hc => h c (List.mem_append_right _ hc)
  have hno : ∀ k, 0 < k → suffixAt (suffixItems suffix) ((suffix ++ tail).drop k) = false := by
    intro k hk
    rcases Bool.eq_false_or_eq_true (suffixAt (suffixItems suffix) ((suffix ++ tail).drop k)) with hb | hb
    · exact absurd ((suffixAt_iff _ _ (fun c hc => h' c (List.mem_of_mem_drop hc))).1 hb) (hlast k hk)
    · exact hb
  unfold subSuffix
  rw [subSuffixLoop.eq_def]
  simp only
  rw [greedyLen_last _ _ h base.length (by simp) (by rw [List.drop_left]; exact suffixAt_self _ _ h')]
  · simp only
    have hlen : (suffixItems suffix).length = suffix.length := by simp [suffixItems]
    have hdrop : (base ++ (suffix ++ tail)).drop (base.length + suffix.length) = tail := by
      rw [← List.append_assoc, List.drop_left' (by simp)]
    rw [List.take_left, hlen, hdrop, subSuffixLoop_none]
    · intro c hc; exact h' c (List.mem_append_right _ hc)
    · intro j
      have := hno (suffix.length + j) (by have := List.length_pos_iff.2 hne; omega)
      rw [List.drop_append] at this
      rw [List.drop_eq_nil_of_le (by omega), List.nil_append] at this
      rwa [show suffix.length + j - suffix.length = j by omega] at this
  · intro j hj
    have := hno (j - base.length) (by omega)
    rw [List.drop_append, List.drop_eq_nil_of_le (by omega), List.nil_append]
    exact this

theorem subSuffix_unmatched (suffix ext s : Str) (h : ∀ c ∈ s, c ≠ '\n')
    (hno : ∀ k, ¬ StartsLike suffix (s.drop k)) : subSuffix (suffixItems suffix) ext s = s := by
  unfold subSuffix
  apply subSuffixLoop_none _ _ _ _ h
  intro k
  rcases Bool.eq_false_or_eq_true (suffixAt (suffixItems suffix) (s.drop k)) with hb | hb
  · exact absurd ((suffixAt_iff _ _ (fun c hc => h c (List.mem_of_mem_drop hc))).1 hb) (hno k)
  · exact hb

theorem simpleReSub_eq (suffix ext s : Str) (h1 : PlainSuffix suffix) (h2 : PlainExt ext) :
    simpleReSub (c!"(.*)" ++ suffix) (c!"\\1" ++ ext) s = some (subSuffix (suffixItems suffix) ext s) := by
  unfold simpleReSub
  have e1 : (c!"(.*)" ++ suffix).drop 4 = suffix := rfl
  have e2 : (c!"\\1" ++ ext).drop 2 = ext := rfl
  simp only [e1, e2]
  rw [if_pos]
  · rfl
  · have a1 : startsWith c!"(.*)" (c!"(.*)" ++ suffix) = true := by simp [startsWith]
    have a2 : startsWith c!"\\1" (c!"\\1" ++ ext) = true := by simp [startsWith]
    have a3 : suffix.all (fun c => !reSpecial.contains c) = true := by
      rw [List.all_eq_true]
      intro c hc
      have := h1.2 c hc
      simp only [List.mem_cons, not_or] at this
      simp [reSpecial, this]
    have a4 : ext.all (fun c => c ≠ '\\') = true := by
      rw [List.all_eq_true]
      intro c hc
      simpa using (h2.1 c hc).1
    have a5 : (ext.head?.any (fun c => c.isDigit)) = false := by
      cases hh : ext.head? with
      | none => rfl
      | some c => simpa using h2.2 c hh
    rw [a1, a2, a3, a4, a5]
    simp [h1.1]

theorem splitOn_four {d : Char} {p a m r o : Str} (h : splitOn d p = [a, m, r, o]) :
    d ∉ a ∧ d ∉ m ∧ d ∉ r ∧ d ∉ o ∧ p = a ++ d :: (m ++ d :: (r ++ d :: o)) := by
  have hn := not_mem_splitOn d p
  rw [h] at hn
  simp only [List.mem_cons, List.not_mem_nil, or_false, forall_eq_or_imp, forall_eq] at hn
  obtain ⟨h1, h2, h3, h4⟩ := hn
  refine ⟨h1, h2, h3, h4, ?_⟩
  have := joinStr_splitOn d p
  rw [h] at this
  rw [← this]
  simp [joinStr]

end Verif
