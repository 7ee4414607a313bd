/-
Property C124: required matches of a path.
-/
import Verif.Model.XPathMatches
import Verif.Lemmas.PyStr

namespace Verif

/-- `p` is the start of the path up to one of its slashes; the root alone does not count. -/
def Spec.PathStart (p path : Str) : Prop := 1 < p.length ∧ ∃ r, path = p ++ '/' :: r

theorem splitOn_append_sep (c : Char) (p r : Str) : splitOn c (p ++ c :: r) = splitOn c p ++ splitOn c r := by
  induction p with
  | nil => simp [splitOn]
  | cons x p ih =>
    by_cases hx : x = c
    · subst hx
      simp [splitOn, ih]
    · rw [List.cons_append, splitOn_cons_ne _ _ _ hx, splitOn_cons_ne _ _ _ hx, ih]
      cases h : splitOn c p with
      | nil => exact absurd h (splitOn_ne_nil c p)
      | cons f fs => simp

theorem joinStr_append (c : Char) (as bs : List Str) (ha : as ≠ []) (hb : bs ≠ []) :
    joinStr [c] (as ++ bs) = joinStr [c] as ++ c :: joinStr [c] bs := by
  induction as with
  | nil => exact absurd rfl ha
  | cons a as ih =>
    cases as with
    | nil =>
      rw [List.singleton_append, joinStr_cons _ _ _ hb]
      simp [joinStr]
    | cons a' as =>
      rw [List.cons_append, joinStr_cons _ _ _ (by simp), ih (by simp), joinStr_cons _ a (a' :: as) (by simp)]
      simp

/-- The part of the path before its `k`-th slash. -/
def pathPart (path : Str) (k : Nat) : Str := joinStr ['/'] ((splitOn '/' path).take k)

theorem pathPart_start (path : Str) (k : Nat) (hk : 0 < k) (hl : k < (splitOn '/' path).length) :
    ∃ r, path = pathPart path k ++ '/' :: r := by
  refine ⟨joinStr ['/'] ((splitOn '/' path).drop k), ?_⟩
  unfold pathPart
  rw [← joinStr_append]
  · rw [List.take_append_drop, joinStr_splitOn]
  · intro h
    have := congrArg List.length h
    simp at this
    rcases this with h0 | h0
    · omega
    · exact splitOn_ne_nil _ _ h0
  · intro h
    have := congrArg List.length h
    simp at this
    omega

theorem start_pathPart (p r : Str) :
    0 < (splitOn '/' p).length ∧ (splitOn '/' p).length < (splitOn '/' (p ++ '/' :: r)).length ∧
      pathPart (p ++ '/' :: r) (splitOn '/' p).length = p := by
  have h1 := List.length_pos_iff.2 (splitOn_ne_nil '/' p)
  have h2 := List.length_pos_iff.2 (splitOn_ne_nil '/' r)
  refine ⟨h1, ?_, ?_⟩
  · rw [splitOn_append_sep, List.length_append]; omega
  · unfold pathPart
    rw [splitOn_append_sep, List.take_left', joinStr_splitOn]
    rfl

theorem pathPart_length_mono (path : Str) {k m : Nat} (hk : 0 < k) (hkm : k ≤ m) : (pathPart path k).length ≤ (pathPart path m).length := by
  unfold pathPart
  have h : (splitOn '/' path).take m = (splitOn '/' path).take k ++ ((splitOn '/' path).take m).drop k := by
    conv => lhs; rw [← List.take_append_drop k ((splitOn '/' path).take m), List.take_take, Nat.min_eq_left hkm]
  rw [h]
  by_cases hb : ((splitOn '/' path).take m).drop k = []
  · rw [hb, List.append_nil]; exact Nat.le_refl _
  · rw [joinStr_append _ _ _ ?_ hb]
    · simp
    · intro h0
      have := congrArg List.length h0
      simp at this
      rcases this with h0 | h0
      · omega
      · exact splitOn_ne_nil _ _ h0

/-- What the loop finds. -/
theorem missingError_spec {α : Type} (eval : Str → Except Err (List α)) (path : Str) : ∀ n, n < (splitOn '/' path).length →
    (∃ k, 0 < k ∧ k ≤ n ∧ 1 < (pathPart path k).length ∧ (∀ m, k < m → m ≤ n → eval (pathPart path m) = .ok []) ∧
      ((missingError eval (splitOn '/' path) n = .missing (some (pathPart path k)) ∧ ∃ e es, eval (pathPart path k) = .ok (e :: es)) ∨
        ∃ x, missingError eval (splitOn '/' path) n = .evaluation x ∧ eval (pathPart path k) = .error x)) ∨
    (missingError eval (splitOn '/' path) n = .missing none ∧
      ∀ m, 0 < m → m ≤ n → 1 < (pathPart path m).length → eval (pathPart path m) = .ok []) := by
  intro n
  induction n with
  | zero => exact fun _ => .inr ⟨rfl, fun m h1 h2 => by omega⟩
  | succ n ih =>
    intro hl
    by_cases hlen : (pathPart path (n + 1)).length ≤ 1
    · refine .inr ⟨?_, fun m h1 h2 h3 => ?_⟩
      · unfold missingError
        exact if_pos hlen
      · have := pathPart_length_mono path h1 h2
        omega
    · have hstep : missingError eval (splitOn '/' path) (n + 1) = match eval (pathPart path (n + 1)) with
          | .error e => .evaluation e
          | .ok r => if r.isEmpty then missingError eval (splitOn '/' path) n else .missing (some (pathPart path (n + 1))) := by
        rw [missingError]
        rw [if_neg (by exact hlen)]
        rfl
      cases hr : eval (pathPart path (n + 1)) with
      | error x =>
        rw [hr] at hstep
        exact .inl ⟨n + 1, by omega, Nat.le_refl _, by omega, fun m h1 h2 => by omega, .inr ⟨x, hstep, hr⟩⟩
      | ok r =>
        rw [hr] at hstep
        cases r with
        | cons e es => exact .inl ⟨n + 1, by omega, Nat.le_refl _, by omega, fun m h1 h2 => by omega, .inl ⟨hstep, e, es, hr⟩⟩
        | nil =>
          have hstep : missingError eval (splitOn '/' path) (n + 1) = missingError eval (splitOn '/' path) n := hstep
          rw [hstep]
          rcases ih (by omega) with ⟨k, h1, h2, h3, h4, h5⟩ | ⟨h1, h2⟩
          · refine .inl ⟨k, h1, by omega, h3, fun m h7 h8 => ?_, h5⟩
            rcases Nat.lt_or_ge n m with h | h
            · have : m = n + 1 := by omega
              rw [this]; exact hr
            · exact h4 m h7 h
          · refine .inr ⟨h1, fun m h7 h8 h9 => ?_⟩
            rcases Nat.lt_or_ge n m with h | h
            · have : m = n + 1 := by omega
              rw [this]; exact hr
            · exact h2 m h7 h h9

/-- **C124.** What is found is returned; without `required` also if it is nothing. -/
theorem C124_found {α : Type} (eval : Str → Except Err (List α)) (path : Str) (required : Bool) (found : List α)
    (h : eval path = .ok found) (hf : required = true → found ≠ []) : getXPathMatches eval path required = .ok found := by
  unfold getXPathMatches
  rw [h]
  cases required with
  | false => rfl
  | true =>
    cases found with
    | nil => exact absurd rfl (hf rfl)
    | cons e es => rfl

/-- **C124.** With `required` the result is never empty, and the first match is the first of all. -/
theorem C124_first {α : Type} (eval : Str → Except Err (List α)) (path : Str) (e : α) :
    (getFirstXPathMatch eval path = .ok e ↔ ∃ es, eval path = .ok (e :: es)) ∧
    getXPathMatches eval path true ≠ .ok [] := by
  constructor
  · constructor
    · intro h
      unfold getFirstXPathMatch getXPathMatches at h
      cases he : eval path with
      | error x => rw [he] at h; cases h
      | ok r =>
        rw [he] at h
        cases r with
        | nil => cases h
        | cons a as => cases h; exact ⟨as, rfl⟩
    · rintro ⟨es, h⟩
      unfold getFirstXPathMatch
      rw [C124_found eval path true _ h (fun _ => by simp)]
  · intro h
    unfold getXPathMatches at h
    cases he : eval path with
    | error x => rw [he] at h; cases h
    | ok r =>
      rw [he] at h
      cases r with
      | nil => cases h
      | cons a as => cases h

/-- What happens if nothing is found, for any path: the longest start of the path for which the evaluation finds
something or fails decides. If something is found, the error names this start; if the evaluation fails, its exception is
raised; if there is no such start, the error names none. -/
theorem C124_exact {α : Type} (eval : Str → Except Err (List α)) (path : Str) (h : eval path = .ok []) :
    (∃ p, Spec.PathStart p path ∧ (∀ q, Spec.PathStart q path → p.length < q.length → eval q = .ok []) ∧
      ((getXPathMatches eval path true = .error (.missing (some p)) ∧ ∃ e es, eval p = .ok (e :: es)) ∨
        ∃ x, getXPathMatches eval path true = .error (.evaluation x) ∧ eval p = .error x)) ∨
    (getXPathMatches eval path true = .error (.missing none) ∧ ∀ q, Spec.PathStart q path → eval q = .ok []) := by
  have hpos := List.length_pos_iff.2 (splitOn_ne_nil '/' path)
  have hres : getXPathMatches eval path true = .error (missingError eval (splitOn '/' path) ((splitOn '/' path).length - 1)) := by
    unfold getXPathMatches
    rw [h]
    rfl
  have hq : ∀ q, Spec.PathStart q path → ∃ m, 0 < m ∧ m ≤ (splitOn '/' path).length - 1 ∧ pathPart path m = q := by
    rintro q ⟨_, r, rfl⟩
    obtain ⟨h1, h2, h3⟩ := start_pathPart q r
    exact ⟨_, h1, by omega, h3⟩
  rw [hres]
  rcases missingError_spec eval path _ (by omega : (splitOn '/' path).length - 1 < (splitOn '/' path).length) with
    ⟨k, h1, h2, h3, h4, h5⟩ | ⟨h1, h2⟩
  · refine .inl ⟨pathPart path k, ⟨h3, pathPart_start path k h1 (by omega)⟩, fun q hs hlt => ?_, ?_⟩
    · obtain ⟨m, hm1, hm2, rfl⟩ := hq q hs
      refine h4 m ?_ hm2
      rcases Nat.lt_or_ge k m with h | h
      · exact h
      · have := pathPart_length_mono path hm1 h
        omega
    · rcases h5 with ⟨h5, h6⟩ | ⟨x, h5, h6⟩
      · exact .inl ⟨by rw [h5], h6⟩
      · exact .inr ⟨x, by rw [h5], h6⟩
  · refine .inr ⟨by rw [h1], fun q hs => ?_⟩
    obtain ⟨m, hm1, hm2, rfl⟩ := hq q hs
    exact h2 m hm1 hm2 hs.1

/-- **C124.** If nothing is found and all starts of the path can be evaluated, the error names the longest start of the
path for which something is found. -/
theorem C124_missing_partial {α : Type} (eval : Str → Except Err (List α)) (path : Str) (h : eval path = .ok [])
    (heval : ∀ p, Spec.PathStart p path → ∃ r, eval p = .ok r) :
    (∃ p, getXPathMatches eval path true = .error (.missing (some p)) ∧ Spec.PathStart p path ∧ (∃ e es, eval p = .ok (e :: es)) ∧
      ∀ q, Spec.PathStart q path → p.length < q.length → eval q = .ok []) ∨
    (getXPathMatches eval path true = .error (.missing none) ∧ ∀ q, Spec.PathStart q path → eval q = .ok []) := by
  rcases C124_exact eval path h with ⟨p, h1, h2, ⟨h3, h4⟩ | ⟨x, _, h4⟩⟩ | h
  · exact .inl ⟨p, h3, h1, h4, h2⟩
  · obtain ⟨r, hr⟩ := heval p h1
    rw [hr] at h4
    cases h4
  · exact .inr h

/-- An evaluation which finds the elements of the path `//a/b`, with and without a predicate; expressions whose brackets do not
match are not understood. -/
def exEvalPath (s : Str) : Except Err (List Nat) :=
  if s.count '[' ≠ s.count ']' then .error .exception
  else if s = c!"//a" then .ok [0, 5]
  else if s = c!"//a/b" then .ok [1, 2]
  else .ok []

example : getXPathMatches exEvalPath c!"//a/b" true = .ok [1, 2] ∧ getFirstXPathMatch exEvalPath c!"//a/b" = .ok 1 ∧
    getXPathMatches exEvalPath c!"//a/b/c/d" true = .error (.missing (some c!"//a/b")) ∧
    getXPathMatches exEvalPath c!"//x/b" true = .error (.missing none) ∧
    getXPathMatches exEvalPath c!"//x/b" false = .ok [] := by decide +kernel

/-- Violated for paths with a slash in a predicate: the part before this slash is evaluated as well, which fails. The
error is not the expected one, and the elements found for `//a` are not named. -/
theorem C124_predicates :
    exEvalPath c!"//a/x[@y='1/2']" = .ok [] ∧ exEvalPath c!"//a" = .ok [0, 5] ∧
    getXPathMatches exEvalPath c!"//a/x[@y='1/2']" true = .error (.evaluation .exception) ∧
    getFirstXPathMatch exEvalPath c!"//a/x[@y='1/2']" = .error (.evaluation .exception) := by decide +kernel

end Verif
