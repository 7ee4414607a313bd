/-
Lemmas about the items of a text which a part of the text consists of.
-/
import Verif.Spec.Matching

namespace Verif
open Spec

theorem noSpace_app (a b : Str) : noSpace (a ++ b) = noSpace a ++ noSpace b := List.filter_append ..

theorem slice_app (s : Str) (k m n : Nat) : slice s k (m + n) = slice s k m ++ slice s (k + m) n := by
  unfold slice
  rw [List.take_add, List.drop_drop]

/-- What is laid out from position `k` on. -/
structure LaidFrom (text : Str) (k : Nat) (items gaps : List Str) (ranges : List (Nat × Nat)) : Prop where
  length : ranges.length = items.length
  item : ∀ (i : Nat) s r, items[i]? = some s → ranges[i]? = some r →
    r.2 = r.1 + s.length ∧ slice text r.1 s.length = s
  first : ∀ r, ranges[0]? = some r → r.1 = k
  gap : ∀ (i : Nat) r r', ranges[i]? = some r → ranges[i + 1]? = some r' →
    ∃ g, gaps[i]? = some g ∧ r'.1 = r.2 + g.length ∧ slice text r.2 g.length = g
  last : (ranges.getLast?.map Prod.snd).getD k = text.length

theorem laidFrom_zero {text : Str} {items gaps : List Str} {ranges : List (Nat × Nat)} (h : LaidOut text items gaps ranges) :
    LaidFrom text 0 items gaps ranges := ⟨h.length, h.item, h.first, h.gap, h.last⟩

/-- The first item, what follows it, and the rest. -/
theorem LaidFrom.step {text : Str} {k : Nat} {s : Str} {items gaps : List Str} {r : Nat × Nat} {ranges : List (Nat × Nat)}
    (h : LaidFrom text k (s :: items) gaps (r :: ranges)) (hg : ∀ g ∈ gaps, noSpace g = []) :
    r.1 = k ∧ r.2 = k + s.length ∧ slice text k s.length = s ∧
      ∃ g, noSpace g = [] ∧ slice text r.2 g.length = g ∧ LaidFrom text (r.2 + g.length) items gaps.tail ranges := by
  have h1 := h.first r rfl
  obtain ⟨h2, h3⟩ := h.item 0 s r rfl rfl
  rw [h1] at h2 h3
  refine ⟨h1, h2, h3, ?_⟩
  have hlen : ranges.length = items.length := by simpa using h.length
  have hitem := fun (i : Nat) s' r' (a : items[i]? = some s') (b : ranges[i]? = some r') => h.item (i + 1) s' r' (by simpa using a) (by simpa using b)
  have hgap : ∀ (i : Nat) r' r'', ranges[i]? = some r' → ranges[i + 1]? = some r'' →
      ∃ g, gaps.tail[i]? = some g ∧ r''.1 = r'.2 + g.length ∧ slice text r'.2 g.length = g := by
    intro i r' r'' a b
    obtain ⟨g, hg1, hg2⟩ := h.gap (i + 1) r' r'' (by simpa using a) (by simpa using b)
    exact ⟨g, by rw [List.getElem?_tail]; exact hg1, hg2⟩
  cases ranges with
  | nil =>
    refine ⟨[], rfl, by simp [slice], hlen, hitem, (by intro r hr; cases hr), hgap, ?_⟩
    have := h.last
    simpa using this
  | cons r' ranges =>
    obtain ⟨g, hg1, hg2, hg3⟩ := h.gap 0 r r' rfl rfl
    refine ⟨g, hg g (List.mem_of_getElem? hg1), hg3, hlen, hitem, ?_, hgap, ?_⟩
    · intro x hx
      cases hx
      exact hg2
    · have := h.last
      rw [List.getLast?_cons_cons] at this
      rw [← this]
      cases hq : (r' :: ranges).getLast? with
      | none => simp at hq
      | some q => rfl

theorem LaidFrom.nil {text : Str} {k : Nat} {gaps : List Str} {ranges : List (Nat × Nat)} (h : LaidFrom text k [] gaps ranges) (n : Nat) :
    slice text k n = [] := by
  have hl := h.length
  have hr : ranges = [] := by simpa using hl
  subst hr
  have := h.last
  simp only [List.getLast?_nil, Option.map_none, Option.getD_none] at this
  unfold slice
  rw [this, List.drop_length, List.take_nil]

/-- From behind the beginning of a part on: the first items are those which the rest of the part consists of. -/
theorem covers_rest (text : Str) (a b : Nat) : ∀ (items gaps : List Str) (ranges : List (Nat × Nat)) (k : Nat),
    LaidFrom text k items gaps ranges → (∀ g ∈ gaps, noSpace g = []) → a < k →
    ∃ n, (∀ x ∈ ranges.take n, overlaps a b x = true) ∧
      noSpace (slice text k (b - k)) <+: noSpace (items.take n).flatten := by
  intro items
  induction items with
  | nil =>
    intro gaps ranges k h _ _
    exact ⟨0, by simp, by rw [h.nil]; exact List.nil_prefix⟩
  | cons s items ih =>
    intro gaps ranges k h hg ha
    cases ranges with
    | nil => exact absurd h.length (by simp)
    | cons r ranges =>
      obtain ⟨e1, e2, e3, g, hg0, hg1, hl⟩ := h.step hg
      by_cases hb : b ≤ k
      · refine ⟨0, by simp, ?_⟩
        rw [show b - k = 0 by omega]
        exact ⟨_, rfl⟩
      · have hov : overlaps a b r = true := by
          unfold overlaps
          simp only [Bool.and_eq_true, decide_eq_true_eq]
          omega
        by_cases hs : b ≤ r.2
        · refine ⟨1, by intro x hx; simp at hx; rw [hx]; exact hov, ?_⟩
          have : slice text k s.length = slice text k (b - k) ++ slice text (k + (b - k)) (s.length - (b - k)) := by
            rw [← slice_app]
            congr 1
            omega
          rw [e3] at this
          simp only [List.take_succ_cons, List.take_zero, List.flatten_cons, List.flatten_nil, List.append_nil]
          conv => rhs; rw [this]
          rw [noSpace_app]
          exact List.prefix_append _ _
        · by_cases hs2 : b ≤ r.2 + g.length
          · refine ⟨1, by intro x hx; simp at hx; rw [hx]; exact hov, ?_⟩
            rw [show b - k = s.length + (b - r.2) by omega, slice_app, e3, ← e2]
            have hz : noSpace (slice text r.2 (b - r.2)) = [] := by
              have : slice text r.2 g.length = slice text r.2 (b - r.2) ++ slice text (r.2 + (b - r.2)) (g.length - (b - r.2)) := by
                rw [← slice_app]
                congr 1
                omega
              rw [hg1] at this
              rw [this, noSpace_app, List.append_eq_nil_iff] at hg0
              exact hg0.1
            rw [noSpace_app, hz]
            simp
          · obtain ⟨n, h1, h2⟩ := ih gaps.tail ranges (r.2 + g.length) hl (fun x hx => hg x (List.mem_of_mem_tail hx)) (by omega)
            refine ⟨n + 1, ?_, ?_⟩
            · intro x hx
              rw [List.take_succ_cons, List.mem_cons] at hx
              rcases hx with rfl | hx
              · exact hov
              · exact h1 x hx
            · rw [show b - k = s.length + (g.length + (b - (r.2 + g.length))) by omega, slice_app, slice_app, e3, ← e2, hg1,
                noSpace_app, noSpace_app, hg0, List.nil_append, List.take_succ_cons, List.flatten_cons, noSpace_app]
              exact (List.prefix_append_right_inj _).2 h2

/-- The items which a part of the text consists of are neighbours, and contain the part (up to white space). -/
theorem covers_from (text : Str) (a b : Nat) (hab : a < b) : ∀ (items gaps : List Str) (ranges : List (Nat × Nat)) (k : Nat),
    LaidFrom text k items gaps ranges → (∀ g ∈ gaps, noSpace g = []) → k ≤ a →
    ∃ m n, (∀ x ∈ (ranges.drop m).take n, overlaps a b x = true) ∧
      noSpace (slice text a (b - a)) <:+: noSpace ((items.drop m).take n).flatten := by
  intro items
  induction items with
  | nil =>
    intro gaps ranges k h _ hk
    refine ⟨0, 0, by simp, ?_⟩
    have : slice text k (a - k + (b - a)) = [] := h.nil _
    rw [slice_app, List.append_eq_nil_iff] at this
    rw [show k + (a - k) = a by omega] at this
    rw [this.2]
    exact List.nil_infix
  | cons s items ih =>
    intro gaps ranges k h hg hk
    cases ranges with
    | nil => exact absurd h.length (by simp)
    | cons r ranges =>
      obtain ⟨e1, e2, e3, g, hg0, hg1, hl⟩ := h.step hg
      have hg' : ∀ x ∈ gaps.tail, noSpace x = [] := fun x hx => hg x (List.mem_of_mem_tail hx)
      by_cases h1 : r.2 + g.length ≤ a
      · obtain ⟨m, n, i1, i2⟩ := ih gaps.tail ranges _ hl hg' h1
        exact ⟨m + 1, n, by simpa using i1, by simpa using i2⟩
      · obtain ⟨n, i1, i2⟩ := covers_rest text a b items gaps.tail ranges _ hl hg' (by omega)
        by_cases h2 : r.2 ≤ a
        · refine ⟨1, n, by simpa using i1, ?_⟩
          simp only [List.drop_succ_cons, List.drop_zero]
          -- the part begins in the gap
          by_cases h3 : b ≤ r.2 + g.length
          · have hz : noSpace (slice text a (b - a)) = [] := by
              have : slice text r.2 g.length = slice text r.2 (a - r.2) ++
                  (slice text a (b - a) ++ slice text (a + (b - a)) (r.2 + g.length - b)) := by
                rw [← slice_app, show a = r.2 + (a - r.2) by omega, Nat.add_sub_cancel_left, ← slice_app]
                congr 1
                omega
              rw [hg1] at this
              rw [this, noSpace_app, noSpace_app, List.append_eq_nil_iff, List.append_eq_nil_iff] at hg0
              exact hg0.2.1
            rw [hz]
            exact List.nil_infix
          · have hz : noSpace (slice text a (r.2 + g.length - a)) = [] := by
              have : slice text r.2 g.length = slice text r.2 (a - r.2) ++ slice text a (r.2 + g.length - a) := by
                rw [show slice text a = slice text (r.2 + (a - r.2)) by congr 1; omega, ← slice_app]
                congr 1
                omega
              rw [hg1] at this
              rw [this, noSpace_app, List.append_eq_nil_iff] at hg0
              exact hg0.2
            rw [show b - a = (r.2 + g.length - a) + (b - (r.2 + g.length)) by omega, slice_app, noSpace_app, hz, List.nil_append,
              show a + (r.2 + g.length - a) = r.2 + g.length by omega]
            exact i2.isInfix
        · have hov : overlaps a b r = true := by
            unfold overlaps
            simp only [Bool.and_eq_true, decide_eq_true_eq]
            omega
          refine ⟨0, n + 1, ?_, ?_⟩
          · intro x hx
            rw [List.drop_zero, List.take_succ_cons, List.mem_cons] at hx
            rcases hx with rfl | hx
            · exact hov
            · exact i1 x hx
          · rw [List.drop_zero, List.take_succ_cons, List.flatten_cons, noSpace_app]
            have hsp : slice text k (a - k) ++ slice text a (r.2 - a) = s := by
              rw [show slice text a = slice text (k + (a - k)) by congr 1; omega, ← slice_app, ← e3]
              conv => rhs; rw [e3]
              rw [← e3]
              congr 1
              omega
            by_cases h3 : b ≤ r.2
            · have : slice text a (r.2 - a) = slice text a (b - a) ++ slice text (a + (b - a)) (r.2 - b) := by
                rw [← slice_app]
                congr 1
                omega
              rw [this] at hsp
              rw [← hsp, noSpace_app, noSpace_app]
              exact ⟨noSpace (slice text k (a - k)), _, by simp only [List.append_assoc]; rfl⟩
            · by_cases h4 : b ≤ r.2 + g.length
              · have hz : noSpace (slice text r.2 (b - r.2)) = [] := by
                  have : slice text r.2 g.length = slice text r.2 (b - r.2) ++ slice text (r.2 + (b - r.2)) (g.length - (b - r.2)) := by
                    rw [← slice_app]
                    congr 1
                    omega
                  rw [hg1] at this
                  rw [this, noSpace_app, List.append_eq_nil_iff] at hg0
                  exact hg0.1
                rw [show b - a = (r.2 - a) + (b - r.2) by omega, slice_app, show a + (r.2 - a) = r.2 by omega, noSpace_app, hz,
                  ← hsp, noSpace_app]
                exact ⟨noSpace (slice text k (a - k)), noSpace (items.take n).flatten, by simp only [List.append_assoc, List.nil_append]⟩
              · rw [show b - a = (r.2 - a) + (g.length + (b - (r.2 + g.length))) by omega, slice_app, slice_app,
                  show a + (r.2 - a) = r.2 by omega, hg1, noSpace_app, noSpace_app, hg0, List.nil_append, ← hsp, noSpace_app]
                obtain ⟨t, ht⟩ := i2
                exact ⟨noSpace (slice text k (a - k)), t, by rw [← ht]; simp only [List.append_assoc]⟩

end Verif
