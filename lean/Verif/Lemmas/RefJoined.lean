/-
Lemmas about the joined text of untagged tokens in references.
-/
import Verif.Spec.Reference
import Verif.Lemmas.MatchingUtils
import Verif.Lemmas.SimpleMatching

namespace Verif

/-- The texts of tokens with the white space behind them. -/
def refItems (g : List RefTok) : List (Str × Str) := g.map (fun x => (x.2.1, x.2.2.getD c!" "))

theorem gapText_cons (x y : RefTok) (l : List RefTok) :
    Spec.gapText (x :: y :: l) = x.2.1 ++ x.2.2.getD c!" " ++ Spec.gapText (y :: l) := rfl

theorem flat_refItems (g : List RefTok) : flat (clearItems (refItems g)) = Spec.gapText g := by
  induction g with
  | nil => rfl
  | cons x l ih =>
    cases l with
    | nil => simp [refItems, clearItems, clearLast, flat, joinedText, Spec.gapText]
    | cons y l =>
      rw [gapText_cons, ← ih]
      show flat (clearItems ((x.2.1, x.2.2.getD c!" ") :: (y.2.1, y.2.2.getD c!" ") :: refItems l)) = _
      rw [clearItems_cons, flat_cons]
      simp [refItems]

theorem refJoined_eq {g : List RefTok} (hg : g ≠ []) :
    refJoined g = (Spec.gapText g, (g.map (·.2.1)).zip (itemRanges [] 0 (refItems g))) := by
  cases g with
  | nil => exact absurd rfl hg
  | cons x l =>
    have e : (List.map (fun x : RefTok => x.2.1) (x :: l)).zip
        (clearLast ((List.map (fun x : RefTok => x.2.2) (x :: l)).map (fun x => x.getD c!" "))) =
        clearItems (refItems (x :: l)) := by
      unfold clearItems refItems
      rw [List.map_map, List.map_map, List.map_map]
      rfl
    unfold refJoined
    have hw : List.map (fun x : RefTok => x.2.2) (x :: l) = x.2.2 :: List.map (fun x : RefTok => x.2.2) l := rfl
    unfold joinWithIndexRanges
    simp only [hw]
    rw [hw] at e
    rw [if_neg (by rw [clearLast_length]; simp)]
    simp only [e]
    rw [itemRanges_clearItems]
    have : joinedText [] (clearItems (refItems (x :: l))) = flat (clearItems (refItems (x :: l))) := by
      simp [flat]
    rw [this, flat_refItems]
    rfl

theorem refItems_cons (x : RefTok) (l : List RefTok) : refItems (x :: l) = (x.2.1, x.2.2.getD c!" ") :: refItems l := rfl

/-- All tokens from a position behind `s` on are found. -/
theorem itemsBetween_all (s e : Int) (g : List RefTok) (o : Nat) (ht : ∀ x ∈ g, x.2.1 ≠ [])
    (hs : s ≤ o) (he : g ≠ [] → e = o + (Spec.gapText g).length) :
    (itemsBetween s e ((g.map (·.2.1)).zip (itemRanges [] o (refItems g)))).length = g.length := by
  induction g generalizing o with
  | nil => rfl
  | cons x l ih =>
    have hx : 0 < x.2.1.length := List.length_pos_iff.2 (ht x (by simp))
    rw [refItems_cons, itemRanges_cons, List.map_cons, List.zip_cons_cons, itemsBetween]
    have he' := he (by simp)
    have hlen : x.2.1.length ≤ (Spec.gapText (x :: l)).length := by
      cases l with
      | nil => exact Nat.le_refl _
      | cons y l => rw [gapText_cons]; simp
    rw [if_neg (by simp only; omega), if_pos (by simp only; omega), List.length_cons, List.length_cons]
    rw [ih _ (fun y hy => ht y (List.mem_cons_of_mem _ hy)) (by omega)]
    intro hl
    cases l with
    | nil => exact absurd rfl hl
    | cons y l => rw [he', gapText_cons]; simp; omega

/-- The tokens found from a position on: those which end behind it. -/
theorem itemsBetween_from (s : Nat) (g : List RefTok) (o : Nat) (ht : ∀ x ∈ g, x.2.1 ≠ []) (hg : g ≠ [])
    (hs : s < o + (Spec.gapText g).length) :
    ∃ u1 u u2, g = u1 ++ u :: u2 ∧ (u1 ≠ [] → o + (Spec.gapText u1).length ≤ s) ∧
      s < o + (Spec.gapText (u1 ++ [u])).length ∧
      (itemsBetween s ((o + (Spec.gapText g).length : Nat) : Int) ((g.map (·.2.1)).zip (itemRanges [] o (refItems g)))).length = u2.length + 1 := by
  induction g generalizing o with
  | nil => exact absurd rfl hg
  | cons x l ih =>
    have hx : 0 < x.2.1.length := List.length_pos_iff.2 (ht x (by simp))
    have hlen : x.2.1.length ≤ (Spec.gapText (x :: l)).length := by
      cases l with
      | nil => exact Nat.le_refl _
      | cons y l => rw [gapText_cons]; simp
    rw [refItems_cons, itemRanges_cons, List.map_cons, List.zip_cons_cons, itemsBetween]
    rw [if_neg (by simp only; omega)]
    by_cases h1 : s < o + x.2.1.length
    · refine ⟨[], x, l, rfl, fun h => absurd rfl h, h1, ?_⟩
      rw [if_pos (by simp only; omega), List.length_cons]
      rw [itemsBetween_all _ _ l _ (fun y hy => ht y (List.mem_cons_of_mem _ hy)) (by omega)]
      intro hl
      cases l with
      | nil => exact absurd rfl hl
      | cons y l => rw [gapText_cons]; simp; omega
    · rw [if_neg (by simp only; omega)]
      cases l with
      | nil => exact absurd hs (by simp only [Spec.gapText]; omega)
      | cons y l =>
        have hlen2 : (Spec.gapText (x :: y :: l)).length = x.2.1.length + (x.2.2.getD c!" ").length + (Spec.gapText (y :: l)).length := by
          rw [gapText_cons]; simp; omega
        obtain ⟨u1, u, u2, h2, h3, h4, h5⟩ := ih (o + x.2.1.length + (x.2.2.getD c!" ").length)
          (fun z hz => ht z (List.mem_cons_of_mem _ hz)) (by simp) (by omega)
        refine ⟨x :: u1, u, u2, by rw [h2]; rfl, ?_, ?_, ?_⟩
        · intro _
          cases u1 with
          | nil => show o + x.2.1.length ≤ s; omega
          | cons z u1 =>
            have := h3 (by simp)
            rw [gapText_cons]
            simp only [List.length_append]
            omega
        · have : (Spec.gapText (x :: u1 ++ [u])).length = x.2.1.length + (x.2.2.getD c!" ").length + (Spec.gapText (u1 ++ [u])).length := by
            cases u1 with
            | nil => show (x.2.1 ++ x.2.2.getD c!" " ++ Spec.gapText [u]).length = _; simp; omega
            | cons z u1 => show (x.2.1 ++ x.2.2.getD c!" " ++ Spec.gapText (z :: (u1 ++ [u]))).length = _; simp; omega
          omega
        · rw [← h5, show o + (Spec.gapText (x :: y :: l)).length = o + x.2.1.length + (x.2.2.getD c!" ").length + (Spec.gapText (y :: l)).length by omega]

theorem refJoined_from {g : List RefTok} (ht : ∀ x ∈ g, x.2.1 ≠ []) (hg : g ≠ []) (s : Nat) (hs : s < (Spec.gapText g).length) :
    ∃ u1 u u2, g = u1 ++ u :: u2 ∧ (Spec.gapText u1).length ≤ s ∧ s < (Spec.gapText (u1 ++ [u])).length ∧
      (itemsBetween s (refJoined g).1.length (refJoined g).2).length = u2.length + 1 := by
  obtain ⟨u1, u, u2, h1, h2, h3, h4⟩ := itemsBetween_from s g 0 ht hg (by omega)
  refine ⟨u1, u, u2, h1, ?_, by omega, ?_⟩
  · cases u1 with
    | nil => simp [Spec.gapText]
    | cons x u1 => have := h2 (by simp); omega
  · rw [refJoined_eq hg]
    simpa using h4

/-- Nothing is found from the end of the text on. -/
theorem refJoined_end {g : List RefTok} (hg : g ≠ []) (s : Nat) (hs : (Spec.gapText g).length ≤ s) :
    itemsBetween s (refJoined g).1.length (refJoined g).2 = [] := by
  rw [refJoined_eq hg, itemsBetween_eq _ _ _ (pairwise_zip_ranges _ _ _), List.filter_eq_nil_iff]
  intro x hx
  have := itemRanges_ge 0 (clearItems (refItems g)) x.2 (by rw [itemRanges_clearItems]; exact (List.of_mem_zip hx).2)
  rw [flat_refItems] at this
  simp only [Spec.overlaps, Bool.and_eq_true, decide_eq_true_eq, not_and]
  omega

theorem refJoined_count_le (g : List RefTok) (hg : g ≠ []) (s e : Int) : (itemsBetween s e (refJoined g).2).length ≤ g.length := by
  rw [refJoined_eq hg]
  refine Nat.le_trans (itemsBetween_sublist _ _ _).length_le ?_
  simp [List.length_zip]
  omega

/-- Only the first token is found for the first character. -/
theorem refJoined_first {x : RefTok} {l : List RefTok} (ht : x.2.1 ≠ []) :
    (itemsBetween 0 1 (refJoined (x :: l)).2).length = 1 ∧ (refJoined (x :: l)).1.head? = x.2.1.head? := by
  have hx : 0 < x.2.1.length := List.length_pos_iff.2 ht
  rw [refJoined_eq (by simp)]
  constructor
  · rw [refItems_cons, itemRanges_cons, List.map_cons, List.zip_cons_cons, itemsBetween]
    rw [if_neg (by simp), if_pos (by simp only; omega), List.length_cons]
    cases l with
    | nil => rfl
    | cons y l =>
      rw [refItems_cons, itemRanges_cons, List.map_cons, List.zip_cons_cons, itemsBetween, if_pos (by simp only; omega)]
      rfl
  · cases h : x.2.1 with
    | nil => exact absurd h ht
    | cons c s =>
      cases l with
      | nil => simp [Spec.gapText, h]
      | cons y l => rw [gapText_cons, h]; rfl

end Verif
