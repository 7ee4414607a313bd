/-
Lemmas about all matches of a regular expression.
-/
import Verif.Model.RegexAll
import Verif.Lemmas.RegexFits

namespace Verif
open Spec

/-- For each start `u` and rest `v` of a text, the length of the match between them, if there is one. -/
structure Hits (cc : CharClass) (r : Re) (hit : Str → Str → Option Nat) : Prop where
  run : ∀ u v, (r.run cc (u ++ v) u.length).head? = (hit u v).map (u.length + ·)
  bound : ∀ u v n, hit u v = some n → 0 < n ∧ n ≤ v.length

theorem Hits.of_fits {cc : CharClass} {r : Re} {hit : Str → Str → Option Nat}
    (h0 : ∀ u v, hit u v = none → ∀ x v', v = x ++ v' → ¬ r.Fits cc u x v')
    (h1 : ∀ u v n, hit u v = some n → 0 < n ∧ n ≤ v.length ∧ r.Fits cc u (v.take n) (v.drop n) ∧
      ∀ x v', v = x ++ v' → r.Fits cc u x v' → x.length = n) : Hits cc r hit := by
  have fits_of : ∀ (u v : Str) (j : Nat), j ∈ r.run cc (u ++ v) u.length →
      ∃ x v', v = x ++ v' ∧ r.Fits cc u x v' ∧ j = u.length + x.length := by
    intro u v j hj
    have hd := (Re.mem_run (by simp)).1 hj
    have hb := hd.bounds (by simp)
    rw [List.length_append] at hb
    refine ⟨v.take (j - u.length), v.drop (j - u.length), (List.take_append_drop _ _).symm, ?_, ?_⟩
    · unfold Re.Fits
      rw [List.append_assoc, List.take_append_drop, List.length_take, show u.length + min (j - u.length) v.length = j by omega]
      exact hd
    · rw [List.length_take]; omega
  refine ⟨fun u v => ?_, fun u v n h => ⟨(h1 u v n h).1, (h1 u v n h).2.1⟩⟩
  cases hh : hit u v with
  | none =>
    cases hr : r.run cc (u ++ v) u.length with
    | nil => rfl
    | cons j js =>
      obtain ⟨x, v', e, hf, _⟩ := fits_of u v j (by rw [hr]; exact List.mem_cons_self)
      exact absurd hf (h0 u v hh x v' e)
  | some n =>
    obtain ⟨h2, h3, h4, h5⟩ := h1 u v n hh
    cases hr : r.run cc (u ++ v) u.length with
    | nil =>
      exfalso
      unfold Re.Fits at h4
      rw [List.append_assoc, List.take_append_drop] at h4
      have := (Re.mem_run (by simp)).2 h4
      rw [hr] at this
      cases this
    | cons j js =>
      obtain ⟨x, v', e, hf, ej⟩ := fits_of u v j (by rw [hr]; exact List.mem_cons_self)
      rw [h5 x v' e hf] at ej
      rw [ej]
      rfl

/-- The same where the first match is the longest one. -/
theorem Hits.of_longest {cc : CharClass} {r : Re} {hit : Str → Str → Option Nat} (hr : r.LongestFirst cc)
    (h0 : ∀ u v, hit u v = none → ∀ x v', v = x ++ v' → ¬ r.Fits cc u x v')
    (h1 : ∀ u v n, hit u v = some n → 0 < n ∧ n ≤ v.length ∧ r.Fits cc u (v.take n) (v.drop n) ∧
      ∀ x v', v = x ++ v' → r.Fits cc u x v' → x.length ≤ n) : Hits cc r hit := by
  have fits_of : ∀ (u v : Str) (j : Nat), j ∈ r.run cc (u ++ v) u.length →
      ∃ x v', v = x ++ v' ∧ r.Fits cc u x v' ∧ j = u.length + x.length := by
    intro u v j hj
    have hd := (Re.mem_run (by simp)).1 hj
    have hb := hd.bounds (by simp)
    rw [List.length_append] at hb
    refine ⟨v.take (j - u.length), v.drop (j - u.length), (List.take_append_drop _ _).symm, ?_, ?_⟩
    · unfold Re.Fits
      rw [List.append_assoc, List.take_append_drop, List.length_take, show u.length + min (j - u.length) v.length = j by omega]
      exact hd
    · rw [List.length_take]; omega
  refine ⟨fun u v => ?_, fun u v n h => ⟨(h1 u v n h).1, (h1 u v n h).2.1⟩⟩
  cases hh : hit u v with
  | none =>
    cases hr : r.run cc (u ++ v) u.length with
    | nil => rfl
    | cons j js =>
      obtain ⟨x, v', e, hf, _⟩ := fits_of u v j (by rw [hr]; exact List.mem_cons_self)
      exact absurd hf (h0 u v hh x v' e)
  | some n =>
    obtain ⟨h2, h3, h4, h5⟩ := h1 u v n hh
    unfold Re.Fits at h4
    rw [List.append_assoc, List.take_append_drop] at h4
    have hm := (Re.mem_run (by simp)).2 h4
    rw [List.length_take, Nat.min_eq_left h3] at hm
    cases hl : r.run cc (u ++ v) u.length with
    | nil => rw [hl] at hm; cases hm
    | cons j js =>
      have hle := head_greatest (hr (u ++ v) u.length) (a := j) (by rw [hl]; rfl) hm
      obtain ⟨x, v', e, hf, ej⟩ := fits_of u v j (by rw [hl]; exact List.mem_cons_self)
      have := h5 x v' e hf
      have : j = u.length + n := by omega
      rw [this]
      rfl

theorem Re.searchFrom_hit {cc : CharClass} {r : Re} {s : Str} {pos e : Nat} (hp : pos ≤ s.length) (h : (r.run cc s pos).head? = some e) :
    r.searchFrom cc s pos = some (pos, e) := by
  unfold Re.searchFrom
  rw [show s.length + 1 - pos = (s.length - pos) + 1 by omega, List.range'_succ, List.findSome?_cons, h]
  rfl

theorem Re.searchFrom_none {cc : CharClass} {r : Re} {s : Str} {pos : Nat} (hp : pos ≤ s.length) (h : (r.run cc s pos).head? = none) :
    r.searchFrom cc s pos = r.searchFrom cc s (pos + 1) := by
  unfold Re.searchFrom
  rw [show s.length + 1 - pos = (s.length - pos) + 1 by omega, List.range'_succ, List.findSome?_cons, h,
    show s.length + 1 - (pos + 1) = s.length - pos by omega]
  rfl

theorem Re.searchFrom_end {cc : CharClass} {r : Re} {s : Str} : r.searchFrom cc s (s.length + 1) = none := by
  unfold Re.searchFrom
  rw [Nat.sub_self]
  rfl

theorem Re.searchFrom_ge {cc : CharClass} {r : Re} {s : Str} {pos i e : Nat} (h : r.searchFrom cc s pos = some (i, e)) : pos ≤ i := by
  unfold Re.searchFrom at h
  obtain ⟨j, hj, he⟩ := List.exists_of_findSome?_eq_some h
  obtain ⟨x, _, hx⟩ := Option.map_eq_some_iff.1 he
  have := (List.mem_range'_1.1 hj).1
  cases hx
  exact this

/-- The matches in a text, described along the text. -/
theorem Hits.matches_end {cc : CharClass} {r : Re} {hit : Str → Str → Option Nat} (hh : Hits cc r hit) (u : Str) (fuel : Nat) :
    r.matchesFrom cc u (fuel + 1) u.length = [] := by
  have h0 : hit u [] = none := by
    cases h : hit u [] with
    | none => rfl
    | some n =>
      have := hh.bound u [] n h
      simp only [List.length_nil] at this
      omega
  have hr := hh.run u []
  rw [List.append_nil, h0] at hr
  unfold Re.matchesFrom
  rw [Re.searchFrom_none (Nat.le_refl _) hr, Re.searchFrom_end]

theorem Hits.matches_none {cc : CharClass} {r : Re} {hit : Str → Str → Option Nat} (hh : Hits cc r hit) (u : Str) (c : Char) (v : Str)
    (h : hit u (c :: v) = none) (fuel : Nat) :
    r.matchesFrom cc (u ++ c :: v) (fuel + 1) u.length = r.matchesFrom cc (u ++ c :: v) (fuel + 1) (u.length + 1) := by
  have hr := hh.run u (c :: v)
  rw [h] at hr
  unfold Re.matchesFrom
  rw [Re.searchFrom_none (by simp) hr]

theorem Hits.matches_some {cc : CharClass} {r : Re} {hit : Str → Str → Option Nat} (hh : Hits cc r hit) (u v : Str) (n : Nat)
    (h : hit u v = some n) (fuel : Nat) :
    r.matchesFrom cc (u ++ v) (fuel + 1) u.length = (u.length, u.length + n) :: r.matchesFrom cc (u ++ v) fuel (u.length + n) := by
  have hr := hh.run u v
  rw [h] at hr
  rw [Re.matchesFrom, Re.searchFrom_hit (by simp) hr]

theorem matchesFrom_ge {cc : CharClass} {r : Re} {s : Str} {fuel pos i e : Nat} {ms : List (Nat × Nat)}
    (h : r.matchesFrom cc s fuel pos = (i, e) :: ms) : pos ≤ i := by
  cases fuel with
  | zero => cases h
  | succ fuel =>
    unfold Re.matchesFrom at h
    split at h
    · cases h
    · next j f hs =>
      have := Re.searchFrom_ge hs
      cases h
      exact this

theorem drop_at (u : Str) (c : Char) (v : Str) : (u ++ c :: v).drop u.length = c :: (u ++ c :: v).drop (u.length + 1) := by
  rw [List.drop_left, ← List.drop_drop, List.drop_left]
  rfl

theorem reSlice_at (u : Str) (c : Char) (v : Str) (i : Nat) (hi : u.length + 1 ≤ i) :
    reSlice (u ++ c :: v) u.length (i - u.length) = c :: reSlice (u ++ c :: v) (u.length + 1) (i - (u.length + 1)) := by
  unfold reSlice
  rw [drop_at, show i - u.length = (i - (u.length + 1)) + 1 by omega, List.take_succ_cons]

theorem reSlice_take (u v : Str) (n : Nat) : reSlice (u ++ v) u.length n = v.take n := by
  unfold reSlice
  rw [List.drop_left]

theorem reSlice_nothing (s : Str) (i : Nat) : reSlice s i (i - i) = [] := by
  unfold reSlice
  rw [Nat.sub_self, List.take_zero]

/-- A function of a start and the rest of the text which does what `sub` does is `sub`. -/
theorem Hits.sub_eq {cc : CharClass} {r : Re} {hit : Str → Str → Option Nat} (hh : Hits cc r hit) (f : Str → Str) (G : Str → Str → Str)
    (g0 : ∀ u, G u [] = []) (g1 : ∀ u c v, hit u (c :: v) = none → G u (c :: v) = c :: G (u ++ [c]) v)
    (g2 : ∀ u v n, hit u v = some n → G u v = f (v.take n) ++ G (u ++ v.take n) (v.drop n)) (s : Str) : r.sub cc f s = G [] s := by
  have main : ∀ (k : Nat) (u v : Str) (fuel : Nat), v.length ≤ k → v.length < fuel →
      subMatches f (u ++ v) u.length (r.matchesFrom cc (u ++ v) fuel u.length) = G u v := by
    intro k
    induction k with
    | zero =>
      intro u v fuel hk hf
      obtain rfl := List.length_eq_zero_iff.1 (Nat.le_zero.1 hk)
      obtain ⟨m, rfl⟩ : ∃ m, fuel = m + 1 := ⟨fuel - 1, by omega⟩
      rw [List.append_nil, hh.matches_end, g0]
      unfold subMatches
      exact List.drop_length
    | succ k ih =>
      intro u v fuel hk hf
      obtain ⟨m, rfl⟩ : ∃ m, fuel = m + 1 := ⟨fuel - 1, by omega⟩
      cases v with
      | nil =>
        rw [List.append_nil, hh.matches_end, g0]
        unfold subMatches
        exact List.drop_length
      | cons c v =>
        rw [List.length_cons] at hk hf
        cases hc : hit u (c :: v) with
        | none =>
          rw [hh.matches_none u c v hc, g1 u c v hc, ← ih (u ++ [c]) v (m + 1) (by omega) (by omega)]
          rw [List.append_assoc, List.length_append, List.length_singleton, List.singleton_append]
          cases hm : r.matchesFrom cc (u ++ c :: v) (m + 1) (u.length + 1) with
          | nil => unfold subMatches; rw [drop_at]
          | cons p ms =>
            obtain ⟨i, e⟩ := p
            have := matchesFrom_ge hm
            unfold subMatches
            rw [reSlice_at u c v i this]
            rfl
        | some n =>
          obtain ⟨b1, b2⟩ := hh.bound u (c :: v) n hc
          rw [hh.matches_some u (c :: v) n hc, g2 u (c :: v) n hc]
          unfold subMatches
          rw [reSlice_nothing, Nat.add_sub_cancel_left, reSlice_take, List.nil_append]
          congr 1
          have := ih (u ++ (c :: v).take n) ((c :: v).drop n) m (by rw [List.length_drop, List.length_cons]; omega)
            (by rw [List.length_drop, List.length_cons]; omega)
          rw [List.append_assoc, List.take_append_drop, List.length_append, List.length_take, Nat.min_eq_left b2] at this
          exact this
  exact main s.length [] s (s.length + 1) (Nat.le_refl _) (Nat.lt_succ_self _)

/-- The same for `split` with a group. -/
theorem Hits.split_eq {cc : CharClass} {r : Re} {hit : Str → Str → Option Nat} (hh : Hits cc r hit) (G : Str → Str → List Str)
    (g0 : ∀ u, G u [] = [[]]) (g1 : ∀ u c v, hit u (c :: v) = none → ∀ w ws, G (u ++ [c]) v = w :: ws → G u (c :: v) = (c :: w) :: ws)
    (g2 : ∀ u v n, hit u v = some n → G u v = [] :: v.take n :: G (u ++ v.take n) (v.drop n)) (s : Str) : r.splitGroup cc s = G [] s := by
  have main : ∀ (k : Nat) (u v : Str) (fuel : Nat), v.length ≤ k → v.length < fuel →
      splitMatches (u ++ v) u.length (r.matchesFrom cc (u ++ v) fuel u.length) = G u v := by
    intro k
    induction k with
    | zero =>
      intro u v fuel hk hf
      obtain rfl := List.length_eq_zero_iff.1 (Nat.le_zero.1 hk)
      obtain ⟨m, rfl⟩ : ∃ m, fuel = m + 1 := ⟨fuel - 1, by omega⟩
      rw [List.append_nil, hh.matches_end, g0]
      unfold splitMatches
      rw [List.drop_length]
    | succ k ih =>
      intro u v fuel hk hf
      obtain ⟨m, rfl⟩ : ∃ m, fuel = m + 1 := ⟨fuel - 1, by omega⟩
      cases v with
      | nil =>
        rw [List.append_nil, hh.matches_end, g0]
        unfold splitMatches
        rw [List.drop_length]
      | cons c v =>
        rw [List.length_cons] at hk hf
        cases hc : hit u (c :: v) with
        | none =>
          have h2 := ih (u ++ [c]) v (m + 1) (by omega) (by omega)
          rw [List.append_assoc, List.length_append, List.length_singleton, List.singleton_append] at h2
          rw [hh.matches_none u c v hc]
          cases hm : r.matchesFrom cc (u ++ c :: v) (m + 1) (u.length + 1) with
          | nil =>
            rw [hm] at h2
            unfold splitMatches at h2 ⊢
            rw [g1 u c v hc _ _ h2.symm, drop_at]
          | cons p ms =>
            obtain ⟨i, e⟩ := p
            have := matchesFrom_ge hm
            rw [hm] at h2
            unfold splitMatches at h2 ⊢
            rw [g1 u c v hc _ _ h2.symm, reSlice_at u c v i this]
        | some n =>
          obtain ⟨b1, b2⟩ := hh.bound u (c :: v) n hc
          rw [hh.matches_some u (c :: v) n hc, g2 u (c :: v) n hc]
          unfold splitMatches
          rw [reSlice_nothing, Nat.add_sub_cancel_left, reSlice_take]
          congr 2
          have := ih (u ++ (c :: v).take n) ((c :: v).drop n) m (by rw [List.length_drop, List.length_cons]; omega)
            (by rw [List.length_drop, List.length_cons]; omega)
          rw [List.append_assoc, List.take_append_drop, List.length_append, List.length_take, Nat.min_eq_left b2] at this
          exact this
  exact main s.length [] s (s.length + 1) (Nat.le_refl _) (Nat.lt_succ_self _)

/-- The same for the starts of the matches. -/
theorem Hits.starts_eq {cc : CharClass} {r : Re} {hit : Str → Str → Option Nat} (hh : Hits cc r hit) (G : Str → Str → List Nat)
    (g0 : ∀ u, G u [] = []) (g1 : ∀ u c v, hit u (c :: v) = none → G u (c :: v) = G (u ++ [c]) v)
    (g2 : ∀ u v n, hit u v = some n → G u v = u.length :: G (u ++ v.take n) (v.drop n)) (s : Str) :
    (r.finditer cc s).map (·.1) = G [] s := by
  have main : ∀ (k : Nat) (u v : Str) (fuel : Nat), v.length ≤ k → v.length < fuel →
      (r.matchesFrom cc (u ++ v) fuel u.length).map (·.1) = G u v := by
    intro k
    induction k with
    | zero =>
      intro u v fuel hk hf
      obtain rfl := List.length_eq_zero_iff.1 (Nat.le_zero.1 hk)
      obtain ⟨m, rfl⟩ : ∃ m, fuel = m + 1 := ⟨fuel - 1, by omega⟩
      rw [List.append_nil, hh.matches_end, g0]
      rfl
    | succ k ih =>
      intro u v fuel hk hf
      obtain ⟨m, rfl⟩ : ∃ m, fuel = m + 1 := ⟨fuel - 1, by omega⟩
      cases v with
      | nil => rw [List.append_nil, hh.matches_end, g0]; rfl
      | cons c v =>
        rw [List.length_cons] at hk hf
        cases hc : hit u (c :: v) with
        | none =>
          have h2 := ih (u ++ [c]) v (m + 1) (by omega) (by omega)
          rw [List.append_assoc, List.length_append, List.length_singleton, List.singleton_append] at h2
          rw [hh.matches_none u c v hc, g1 u c v hc, h2]
        | some n =>
          obtain ⟨b1, b2⟩ := hh.bound u (c :: v) n hc
          rw [hh.matches_some u (c :: v) n hc, g2 u (c :: v) n hc, List.map_cons]
          congr 1
          have := ih (u ++ (c :: v).take n) ((c :: v).drop n) m (by rw [List.length_drop, List.length_cons]; omega)
            (by rw [List.length_drop, List.length_cons]; omega)
          rw [List.append_assoc, List.take_append_drop, List.length_append, List.length_take, Nat.min_eq_left b2] at this
          exact this
  exact main s.length [] s (s.length + 1) (Nat.le_refl _) (Nat.lt_succ_self _)

end Verif
