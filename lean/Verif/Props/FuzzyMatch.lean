/-
C37 (scores), C53 (splitting), C54 (inverted ranges), C55 (junk).
-/
import Verif.Lemmas.Fuzzy
import Verif.Lemmas.Ok

namespace Verif.Props
open Spec

/-! ## C54 Inverted index ranges -/

/-- The inverse of ranges which start within the given range covers exactly the positions of the
given range which they do not cover, by ranges which are not empty, in order and disjoint. -/
theorem C54_complement_partial (ranges : List (Nat × Nat)) (start stop : Nat) (h : Ordered ranges)
    (hstart : ∀ r ∈ ranges, start ≤ r.1) :
    (∀ p, covered (invertRanges stop start ranges) p = true ↔
      start ≤ p ∧ p < stop ∧ covered ranges p = false) ∧
    (∀ q ∈ invertRanges stop start ranges, start ≤ q.1 ∧ q.1 < q.2 ∧ q.2 ≤ stop) ∧
    Ordered (invertRanges stop start ranges) := by
  obtain ⟨h1, h2⟩ := ordered_invertRanges stop ranges start h hstart
  refine ⟨?_, h1, ⟨fun q hq => by have := h1 q hq; omega, h2⟩⟩
  intro p
  rw [covered_invertRanges stop ranges start h hstart p]
  simp [and_assoc]

/-- What the inverse covers for any ranges in order: also positions before the given range, if the first range ends
before it. -/
theorem C54_exact (ranges : List (Nat × Nat)) (start stop p : Nat) (h : Ordered ranges) :
    covered (invertRanges stop start ranges) p = true ↔
      start < stop ∧ p < stop ∧ covered ranges p = false ∧
        (start ≤ p ∨ ∃ r rest, ranges = r :: rest ∧ r.2 ≤ p) := by
  cases ranges with
  | nil =>
    unfold invertRanges
    by_cases hs : start < stop
    · simp [hs, covered]; omega
    · simp [hs, covered]
  | cons r rest =>
    obtain ⟨rs, re⟩ := r
    have hr := h.each (rs, re) List.mem_cons_self
    have hn := List.pairwise_cons.1 h.next
    have hrest : Ordered rest := ⟨fun q hq => h.each q (List.mem_cons_of_mem _ hq), hn.2⟩
    have key := (C54_complement_partial rest re stop hrest hn.1).1 p
    have hcov : covered ((rs, re) :: rest) p = ((decide (rs ≤ p) && decide (p < re)) || covered rest p) := rfl
    have hex : (∃ (r : Nat × Nat) (rest' : List (Nat × Nat)), (rs, re) :: rest = r :: rest' ∧ r.2 ≤ p) ↔ re ≤ p :=
      ⟨by rintro ⟨r, rest', e, h⟩; cases e; exact h, fun h => ⟨_, _, rfl, h⟩⟩
    rw [hex, hcov]
    unfold invertRanges
    simp only [] at hr
    by_cases hs : stop ≤ start
    · rw [if_pos hs]
      have : ¬ start < stop := by omega
      simp [covered, this]
    · rw [if_neg hs]
      have hs' : start < stop := by omega
      have hor : ∀ a b : Bool, ((a || b) = false) ↔ (a = false ∧ b = false) := by decide
      by_cases hlt : start < rs
      · rw [if_pos hlt]
        have hc2 : covered ((start, min stop rs) :: invertRanges stop re rest) p =
            ((decide (start ≤ p) && decide (p < min stop rs)) || covered (invertRanges stop re rest) p) := rfl
        rw [hc2, Bool.or_eq_true, key, hor]
        simp only [Bool.and_eq_true, decide_eq_true_eq, Bool.and_eq_false_iff, decide_eq_false_iff_not]
        have hbefore : p < rs → covered rest p = false := by
          intro hp
          cases hcr : covered rest p with
          | false => rfl
          | true =>
            unfold covered at hcr
            obtain ⟨q, hq, hq'⟩ := List.any_eq_true.1 hcr
            simp only [Bool.and_eq_true, decide_eq_true_eq] at hq'
            have := hn.1 q hq
            simp only [] at this
            omega
        constructor
        · rintro (⟨h1, h2⟩ | ⟨h1, h2, h3⟩)
          · exact ⟨hs', by omega, ⟨by omega, hbefore (by omega)⟩, .inl h1⟩
          · exact ⟨hs', h2, ⟨by omega, h3⟩, .inr h1⟩
        · rintro ⟨_, h2, ⟨h3, h4⟩, h5⟩
          by_cases hp : re ≤ p
          · exact .inr ⟨hp, h2, h4⟩
          · exact .inl (by omega)
      · rw [if_neg hlt, key, hor]
        simp only [Bool.and_eq_false_iff, decide_eq_false_iff_not]
        constructor
        · rintro ⟨h1, h2, h3⟩
          exact ⟨hs', h2, ⟨by omega, h3⟩, .inr h1⟩
        · rintro ⟨_, h2, ⟨h3, h4⟩, h5⟩
          exact ⟨by omega, h2, h4⟩

/-- Disagreement: ranges before the given range make the result start before it. -/
theorem C54_range_before_start :
    invertRanges 10 5 [(0, 2)] = [(2, 10)] ∧ Ordered [(0, 2)] := by
  refine ⟨by decide, ⟨by decide, by decide⟩⟩

example : Ordered [(2, 4), (6, 7)] ∧ invertRanges 10 1 [(2, 4), (6, 7)] = [(1, 2), (4, 6), (7, 10)] :=
  ⟨⟨by decide, by decide⟩, by decide⟩

/-! ## C55 Junk -/

theorem C55_aux_loop (isJunk : IsJunk) (s : Str) (k n : Nat) (hn : n + k = s.length) (result : Option (List Str))
    (start : Nat) (hstart : start ≤ n) (hnone : result = none → start = 0)
    (hinv : (result.getD []).flatten ++ (s.take n).drop start =
      (((s.take n).zipIdx).filter (fun c => !isJunk s c.2)).map Prod.fst) :
    let st := removeJunkLoop isJunk s (result, start) (List.range' n k)
    (st.1 = none → st.2 = 0) ∧
    (st.1.getD []).flatten ++ s.drop st.2 = nonJunk isJunk s := by
  induction k generalizing n result start with
  | zero =>
    simp only [List.range'_zero, removeJunkLoop]
    refine ⟨hnone, ?_⟩
    rw [Nat.add_zero] at hn
    subst hn
    rw [List.take_length] at hinv
    exact hinv
  | succ k ih =>
    have hlt : n < s.length := by omega
    have htake : s.take (n + 1) = s.take n ++ [s[n]] := by
      rw [List.take_add_one, List.getElem?_eq_getElem hlt]; rfl
    have hzip : ((s.take (n + 1)).zipIdx) = (s.take n).zipIdx ++ [(s[n], n)] := by
      rw [htake, List.zipIdx_append, List.length_take, Nat.min_eq_left (by omega)]
      simp
    rw [List.range'_succ]
    by_cases hj : isJunk s n = true
    · have e : removeJunkLoop isJunk s (result, start) (n :: List.range' (n + 1) k) =
          removeJunkLoop isJunk s (some (if start < n then (result.getD []) ++ [(s.take n).drop start]
            else result.getD []), n + 1) (List.range' (n + 1) k) := by
        rw [removeJunkLoop, if_pos hj]
      simp only
      rw [e]
      apply ih (n + 1) (by omega) _ (n + 1) (Nat.le_refl _) (by simp)
      rw [hzip, List.filter_append, List.map_append, ← hinv]
      have h1 : (s.take (n + 1)).drop (n + 1) = [] := by
        apply List.drop_eq_nil_of_le
        rw [List.length_take]; omega
      rw [h1]
      have h2 : List.filter (fun c => !isJunk s c.2) [(s[n], n)] = [] := by simp [hj]
      rw [h2]
      simp only [Option.getD_some, List.append_nil, List.map_nil]
      split
      · rw [List.flatten_append]; simp
      · have : (s.take n).drop start = [] := by
          apply List.drop_eq_nil_of_le
          rw [List.length_take]; omega
        rw [this, List.append_nil]
    · have e : removeJunkLoop isJunk s (result, start) (n :: List.range' (n + 1) k) =
          removeJunkLoop isJunk s (result, start) (List.range' (n + 1) k) := by
        rw [removeJunkLoop, if_neg hj]
      simp only
      rw [e]
      apply ih (n + 1) (by omega) result start (by omega) hnone
      rw [hzip, List.filter_append, List.map_append, ← hinv, htake, List.append_assoc]
      have h2 : List.filter (fun c => !isJunk s c.2) [(s[n], n)] = [(s[n], n)] := by simp [hj]
      rw [h2, List.drop_append_of_le_length]
      · rfl
      · rw [List.length_take]; omega

/-- Removing junk leaves exactly the characters which are not junk, in order. -/
theorem C55_remove (isJunk : IsJunk) (s : Str) : removeJunk isJunk s = nonJunk isJunk s := by
  have h := C55_aux_loop isJunk s s.length 0 (by omega) none 0 (Nat.le_refl _) (by simp) (by simp)
  unfold removeJunk
  rw [List.range_eq_range']
  generalize removeJunkLoop isJunk s (none, 0) (List.range' 0 s.length) = st at h
  obtain ⟨result, start⟩ := st
  simp only at h
  cases result with
  | none =>
    simp only
    rw [← h.2, h.1 rfl]; simp
  | some r =>
    simp only
    rw [← h.2]
    split
    · simp
    · have : s.drop start = [] := List.drop_eq_nil_of_le (by omega)
      rw [this]; simp

/-- The junk counted for the first text is the number of junk positions in the index range which no
block matches. -/
theorem C55_count_a (r : FuzzyResult) (h : Ordered (aPart r.blocks)) (lo hi : Nat)
    (hlo : ∀ x ∈ r.blocks, x.size ≠ 0 → lo ≤ x.a) :
    r.aNonMatchingJunk (some (lo, hi)) =
      countIn lo hi (fun i => r.isJunk r.a i && !covered (aPart r.blocks) i) := by
  unfold FuzzyResult.aNonMatchingJunk FuzzyResult.countNonMatchingJunk
  simp only [Option.getD_some]
  have hord : Ordered r.aBlocks := h.filter_aPart (fun x => x.size ≠ 0)
  have := sum_invertRanges hi (r.isJunk r.a) r.aBlocks lo hord (by
    intro q hq
    unfold FuzzyResult.aBlocks FuzzyResult.nonEmpty at hq
    rw [List.mem_map] at hq
    obtain ⟨x, hx, rfl⟩ := hq
    rw [List.mem_filter] at hx
    exact hlo x hx.1 (by simpa using hx.2))
  refine this.trans (countIn_congr _ _ _ _ ?_)
  intro i _ _
  rw [coveredA_nonEmpty]

/-- The same for the second text. -/
theorem C55_count_b (r : FuzzyResult) (h : Ordered (bPart r.blocks)) (lo hi : Nat)
    (hlo : ∀ x ∈ r.blocks, x.size ≠ 0 → lo ≤ x.b) :
    r.bNonMatchingJunk (some (lo, hi)) =
      countIn lo hi (fun i => r.isJunk r.b i && !covered (bPart r.blocks) i) := by
  unfold FuzzyResult.bNonMatchingJunk FuzzyResult.countNonMatchingJunk
  simp only [Option.getD_some]
  have hord : Ordered r.bBlocks := h.filter_bPart (fun x => x.size ≠ 0)
  have := sum_invertRanges hi (r.isJunk r.b) r.bBlocks lo hord (by
    intro q hq
    unfold FuzzyResult.bBlocks FuzzyResult.nonEmpty at hq
    rw [List.mem_map] at hq
    obtain ⟨x, hx, rfl⟩ := hq
    rw [List.mem_filter] at hx
    exact hlo x hx.1 (by simpa using hx.2))
  refine this.trans (countIn_congr _ _ _ _ ?_)
  intro i _ _
  rw [coveredB_nonEmpty]

/-- Without an index range the whole text is meant. -/
theorem C55_count_all (r : FuzzyResult) :
    r.aNonMatchingJunk none = r.aNonMatchingJunk (some (0, r.a.length)) ∧
    r.bNonMatchingJunk none = r.bNonMatchingJunk (some (0, r.b.length)) := ⟨rfl, rfl⟩

example : removeJunk (coreIsJunk asciiClass) c!"Smith J., A.* and" = c!"Smith J A and" := by decide +kernel

/-! ## C37 Scores -/

theorem C37_aux_rangeA (r : FuzzyResult) (h : Ordered (aPart r.blocks)) : r.aRange.1 ≤ r.aRange.2 := by
  cases hn : r.nonEmpty with
  | nil => simp [FuzzyResult.aRange, hn]
  | cons x xs =>
    have hb := aRange_bounds r h (x.a, x.a + x.size) (by simp [FuzzyResult.aBlocks, hn])
    simp only at hb
    omega

theorem C37_aux_rangeB (r : FuzzyResult) (h : Ordered (bPart r.blocks)) : r.bRange.1 ≤ r.bRange.2 := by
  cases hn : r.nonEmpty with
  | nil => simp [FuzzyResult.bRange, hn]
  | cons x xs =>
    have hb := bRange_bounds r h (x.b, x.b + x.size) (by simp [FuzzyResult.bBlocks, hn])
    simp only at hb
    omega

/-- The scores of a match with consistent blocks lie between 0 and 1. -/
theorem C37_scores (r : FuzzyResult) (h : Consistent r.a r.b r.blocks) :
    (0 ≤ r.ratio ∧ r.ratio ≤ 1) ∧ (0 ≤ r.aRatio ∧ r.aRatio ≤ 1) ∧ (0 ≤ r.bRatio ∧ r.bRatio ≤ 1) ∧
    (0 ≤ r.bGapRatio ∧ r.bGapRatio ≤ 1) := by
  have ha := unmatchedA r h
  have hb := unmatchedB r h
  have hga := gapsA r h
  have hgb := gapsB r h
  have hra := C37_aux_rangeA r h.aOrd
  have hrb := C37_aux_rangeB r h.bOrd
  refine ⟨?_, ?_, ?_, ?_⟩
  · unfold FuzzyResult.ratio FuzzyResult.rangeLen
    simp only
    split
    · next hm => apply ratioTo_bounds; omega
    · next hm => apply ratioTo_bounds; omega
  · unfold FuzzyResult.aRatio; apply ratioTo_bounds; omega
  · unfold FuzzyResult.bRatio; apply ratioTo_bounds; omega
  · unfold FuzzyResult.bGapRatio FuzzyResult.rangeLen; apply ratioTo_bounds; omega

theorem C37_aux_junkA (r : FuzzyResult) (h : Ordered (aPart r.blocks)) (lo hi : Nat)
    (hlo : ∀ x ∈ r.aBlocks, lo ≤ x.1) :
    r.aNonMatchingJunk (some (lo, hi)) = countIn lo hi (fun i => r.isJunk r.a i && !covered (aPart r.blocks) i) := by
  apply C55_count_a r h
  intro x hx h0
  exact hlo (x.a, x.a + x.size) (List.mem_map.2 ⟨x, List.mem_filter.2 ⟨hx, by simpa using h0⟩, rfl⟩)

theorem C37_aux_junkB (r : FuzzyResult) (h : Ordered (bPart r.blocks)) (lo hi : Nat)
    (hlo : ∀ x ∈ r.bBlocks, lo ≤ x.1) :
    r.bNonMatchingJunk (some (lo, hi)) = countIn lo hi (fun i => r.isJunk r.b i && !covered (bPart r.blocks) i) := by
  apply C55_count_b r h
  intro x hx h0
  exact hlo (x.b, x.b + x.size) (List.mem_map.2 ⟨x, List.mem_filter.2 ⟨hx, by simpa using h0⟩, rfl⟩)

/-- The scores are the number of characters matched divided by a length without the junk which is not
matched: of the longer one of the matched ranges, of the first text, of the second text, and of the
second text with the gaps of the first text. -/
theorem C37_values (r : FuzzyResult) (h : Consistent r.a r.b r.blocks) :
    let junkA := fun i => r.isJunk r.a i && !covered (aPart r.blocks) i
    let junkB := fun i => r.isJunk r.b i && !covered (bPart r.blocks) i
    let score := fun n : Nat => if n = 0 then (0 : Rat) else (total r.blocks : Rat) / (n : Rat)
    r.ratio = (if r.bRange.2 - r.bRange.1 ≤ r.aRange.2 - r.aRange.1
      then score (r.aRange.2 - r.aRange.1 - countIn r.aRange.1 r.aRange.2 junkA)
      else score (r.bRange.2 - r.bRange.1 - countIn r.bRange.1 r.bRange.2 junkB)) ∧
    r.aRatio = score (r.a.length - countIn 0 r.a.length junkA) ∧
    r.bRatio = score (r.b.length - countIn 0 r.b.length junkB) ∧
    r.bGapRatio = score (r.b.length - countIn 0 r.b.length junkB +
      (r.aRange.2 - r.aRange.1 - countIn r.aRange.1 r.aRange.2 junkA - total r.blocks)) := by
  intro junkA junkB score
  have ha := unmatchedA r h
  have hb := unmatchedB r h
  have hga := gapsA r h
  have hgb := gapsB r h
  have hra := C37_aux_rangeA r h.aOrd
  have hrb := C37_aux_rangeB r h.bOrd
  have ea : r.aNonMatchingJunk = countIn 0 r.a.length junkA :=
    C37_aux_junkA r h.aOrd 0 r.a.length (by intros; omega)
  have eb : r.bNonMatchingJunk = countIn 0 r.b.length junkB :=
    C37_aux_junkB r h.bOrd 0 r.b.length (by intros; omega)
  have era : r.aNonMatchingJunk (some r.aRange) = countIn r.aRange.1 r.aRange.2 junkA :=
    C37_aux_junkA r h.aOrd _ _ (fun q hq => (aRange_bounds r h.aOrd q hq).1)
  have erb : r.bNonMatchingJunk (some r.bRange) = countIn r.bRange.1 r.bRange.2 junkB :=
    C37_aux_junkB r h.bOrd _ _ (fun q hq => (bRange_bounds r h.bOrd q hq).1)
  have es : ∀ n : Nat, r.ratioTo (n : Int) = score n := by
    intro n
    simp only [score, FuzzyResult.ratioTo, matchCount_eq]
    by_cases hn : n = 0
    · subst hn; rfl
    · rw [if_neg hn, if_neg (by omega)]; rfl
  have ht : r.matchCount = total r.blocks := rfl
  refine ⟨?_, ?_, ?_, ?_⟩
  · unfold FuzzyResult.ratio FuzzyResult.rangeLen
    simp only
    split
    · next hm =>
      have hle : r.bRange.2 - r.bRange.1 ≤ r.aRange.2 - r.aRange.1 := by omega
      rw [if_pos hle, ← es, era]
      congr 1; omega
    · next hm =>
      have hle : ¬ r.bRange.2 - r.bRange.1 ≤ r.aRange.2 - r.aRange.1 := by omega
      rw [if_neg hle, ← es, erb]
      congr 1; omega
  · unfold FuzzyResult.aRatio; rw [← es, ea]; congr 1; omega
  · unfold FuzzyResult.bRatio; rw [← es, eb]; congr 1; omega
  · unfold FuzzyResult.bGapRatio FuzzyResult.rangeLen
    simp only
    rw [← es, eb, era]; congr 1; omega

/-- An identical text which is not empty scores 1. -/
theorem C37_identical (s : Str) (hs : s ≠ []) (isJunk : IsJunk) :
    let r : FuzzyResult := ⟨s, s, [⟨0, 0, s.length⟩], isJunk⟩
    r.ratio = 1 ∧ r.aRatio = 1 ∧ r.bRatio = 1 ∧ r.bGapRatio = 1 := by
  intro r
  have hl : s.length ≠ 0 := by simpa using hs
  have hne : r.nonEmpty = [⟨0, 0, s.length⟩] := by simp [r, FuzzyResult.nonEmpty, hs]
  have ea : r.aRange = (0, s.length) := by simp [FuzzyResult.aRange, hne]
  have eb : r.bRange = (0, s.length) := by simp [FuzzyResult.bRange, hne]
  have hj : ∀ (t : Str) , r.countNonMatchingJunk t [(0, s.length)] (some (0, s.length)) = 0 := by
    intro t
    simp [FuzzyResult.countNonMatchingJunk, invertRanges, hs]
  have ja : r.aNonMatchingJunk (some (0, s.length)) = 0 := by
    unfold FuzzyResult.aNonMatchingJunk FuzzyResult.aBlocks
    rw [hne]; simpa using hj r.a
  have jb : r.bNonMatchingJunk (some (0, s.length)) = 0 := by
    unfold FuzzyResult.bNonMatchingJunk FuzzyResult.bBlocks
    rw [hne]; simpa using hj r.b
  have ja' : r.aNonMatchingJunk = 0 := ja
  have jb' : r.bNonMatchingJunk = 0 := jb
  have hm : r.matchCount = s.length := by simp [r, FuzzyResult.matchCount]
  have h1 : r.ratioTo (s.length : Int) = 1 := by
    unfold FuzzyResult.ratioTo
    rw [if_neg (by omega), hm, Rat.intCast_natCast]
    rw [Rat.div_def]
    apply Rat.mul_inv_cancel
    simpa using hl
  refine ⟨?_, ?_, ?_, ?_⟩
  · unfold FuzzyResult.ratio FuzzyResult.rangeLen
    simp only [ea, eb, ja]
    simpa using h1
  · unfold FuzzyResult.aRatio
    rw [ja']; simpa using h1
  · unfold FuzzyResult.bRatio
    rw [jb']; simpa using h1
  · unfold FuzzyResult.bGapRatio FuzzyResult.rangeLen
    simp only [ea, ja, jb', hm]
    simpa using h1

/-! ## C53 Splitting a match -/

/-- Splitting at a position of the first text: the two parts match as many characters as the whole, and
exactly its positions before the split and from the split on; the first part still pairs equal
characters, and so does the second part if no block crosses the split. -/
theorem C53_split_a_partial (cc : CharClass) (r : FuzzyResult) (index : Nat) (h : Ordered (aPart r.blocks)) :
    let pre := (r.aSplitAt cc index).1
    let post := (r.aSplitAt cc index).2
    pre.a = r.a.take index ∧ post.a = r.a.drop index ∧ pre.b = r.b ∧ post.b = r.b ∧
    total pre.blocks + total post.blocks = total r.blocks ∧
    (∀ p, covered (aPart pre.blocks) p = (covered (aPart r.blocks) p && decide (p < index))) ∧
    (∀ p, covered (aPart post.blocks) p = covered (aPart r.blocks) (p + index)) ∧
    (Aligned r.a r.b r.blocks → Aligned pre.a pre.b pre.blocks) ∧
    (Aligned r.a r.b r.blocks → (∀ x ∈ r.blocks, index ≤ x.a ∨ x.a + x.size ≤ index) →
      Aligned post.a post.b post.blocks) := by
  have hcov : ∀ p, covered (aPart r.nonEmpty) p = covered (aPart r.blocks) p := fun p => coveredA_nonEmpty r p
  have htot : total r.nonEmpty = total r.blocks := total_filter r.blocks
  have hmem : ∀ x ∈ r.nonEmpty, x ∈ r.blocks := fun x hx => (List.mem_filter.1 hx).1
  intro pre post
  by_cases hc : (r.nonEmpty.isEmpty || decide (r.aRange.2 ≤ index)) = true
  · have e : r.aSplitAt cc index = (⟨r.a.take index, r.b, r.nonEmpty, coreIsJunk cc⟩,
        ⟨r.a.drop index, r.b, [], coreIsJunk cc⟩) := by
      unfold FuzzyResult.aSplitAt
      simp only [hc, if_true]
    have e1 : pre = ⟨r.a.take index, r.b, r.nonEmpty, coreIsJunk cc⟩ := congrArg Prod.fst e
    have e2 : post = ⟨r.a.drop index, r.b, [], coreIsJunk cc⟩ := congrArg Prod.snd e
    have hend : ∀ q ∈ aPart r.nonEmpty, q.2 ≤ index := by
      intro q hq
      rw [Bool.or_eq_true, decide_eq_true_eq, List.isEmpty_iff] at hc
      rcases hc with hc | hc
      · rw [hc] at hq; simp [aPart] at hq
      · have := (aRange_bounds r h q hq).2; omega
    rw [e1, e2]
    refine ⟨rfl, rfl, rfl, rfl, ?_, ?_, ?_, ?_, ?_⟩
    · simp only [htot]; rfl
    · intro p
      simp only [hcov]
      by_cases hp : p < index
      · simp [hp]
      · rw [← hcov, covered_after _ p index hend (by omega)]; rfl
    · intro p
      rw [← hcov, covered_after _ (p + index) index hend (by omega)]; rfl
    · intro hal x hx k hk
      have := hend _ (List.mem_map.2 ⟨x, hx, rfl⟩)
      simp only at this
      obtain ⟨c, h1, h2⟩ := hal x (hmem x hx) k hk
      refine ⟨c, ?_, h2⟩
      simp only
      rw [take_getElem? _ _ _ (by omega), h1]
    · intro _ _ x hx
      simp at hx
  · have e : r.aSplitAt cc index = (⟨r.a.take index, r.b, (r.nonEmpty.filter (fun x => decide (x.a < index))).map
        (fun x => ⟨x.a, x.b, min x.size (index - x.a)⟩), coreIsJunk cc⟩,
        ⟨r.a.drop index, r.b, (r.nonEmpty.filter (fun x => decide (index < x.a + x.size))).map
        (fun x => ⟨x.a - index, x.b, if index ≤ x.a then x.size else x.size + x.a - index⟩), coreIsJunk cc⟩) := by
      unfold FuzzyResult.aSplitAt
      simp only [hc]; rfl
    have e1 := congrArg Prod.fst e
    have e2 := congrArg Prod.snd e
    change pre = _ at e1
    change post = _ at e2
    rw [e1, e2]
    refine ⟨rfl, rfl, rfl, rfl, ?_, ?_, ?_, ?_, ?_⟩
    · rw [← htot, ← total_split Block.a index r.nonEmpty]
      unfold total
      rw [List.map_map, List.map_map]; rfl
    · intro p
      rw [← hcov]
      refine Eq.trans ?_ (covered_preRanges Block.a index r.nonEmpty p)
      unfold aPart preRanges
      rw [List.map_map]; rfl
    · intro p
      rw [← hcov]
      refine Eq.trans ?_ (covered_postRanges Block.a index r.nonEmpty p)
      unfold aPart postRanges
      rw [List.map_map]; rfl
    · intro hal x hx k hk
      rw [List.mem_map] at hx
      obtain ⟨y, hy, rfl⟩ := hx
      rw [List.mem_filter, decide_eq_true_eq] at hy
      simp only at hk ⊢
      obtain ⟨c, h1, h2⟩ := hal y (hmem y hy.1) k (by omega)
      exact ⟨c, by rw [take_getElem? _ _ _ (by omega), h1], h2⟩
    · intro hal hno x hx k hk
      rw [List.mem_map] at hx
      obtain ⟨y, hy, rfl⟩ := hx
      rw [List.mem_filter, decide_eq_true_eq] at hy
      have := hno y (hmem y hy.1)
      have hle : index ≤ y.a := by omega
      simp only [hle, if_true] at hk ⊢
      obtain ⟨c, h1, h2⟩ := hal y (hmem y hy.1) k hk
      refine ⟨c, ?_, h2⟩
      rw [List.getElem?_drop, ← h1]
      congr 1; omega

/-- The same for splitting at a position of the second text. -/
theorem C53_split_b_partial (cc : CharClass) (r : FuzzyResult) (index : Nat) (h : Ordered (bPart r.blocks)) :
    let pre := (r.bSplitAt cc index).1
    let post := (r.bSplitAt cc index).2
    pre.b = r.b.take index ∧ post.b = r.b.drop index ∧ pre.a = r.a ∧ post.a = r.a ∧
    total pre.blocks + total post.blocks = total r.blocks ∧
    (∀ p, covered (bPart pre.blocks) p = (covered (bPart r.blocks) p && decide (p < index))) ∧
    (∀ p, covered (bPart post.blocks) p = covered (bPart r.blocks) (p + index)) ∧
    (Aligned r.a r.b r.blocks → Aligned pre.a pre.b pre.blocks) ∧
    (Aligned r.a r.b r.blocks → (∀ x ∈ r.blocks, index ≤ x.b ∨ x.b + x.size ≤ index) →
      Aligned post.a post.b post.blocks) := by
  have hcov : ∀ p, covered (bPart r.nonEmpty) p = covered (bPart r.blocks) p := fun p => coveredB_nonEmpty r p
  have htot : total r.nonEmpty = total r.blocks := total_filter r.blocks
  have hmem : ∀ x ∈ r.nonEmpty, x ∈ r.blocks := fun x hx => (List.mem_filter.1 hx).1
  intro pre post
  by_cases hc : (r.nonEmpty.isEmpty || decide (r.bRange.2 ≤ index)) = true
  · have e : r.bSplitAt cc index = (⟨r.a, r.b.take index, r.nonEmpty, coreIsJunk cc⟩,
        ⟨r.a, r.b.drop index, [], coreIsJunk cc⟩) := by
      unfold FuzzyResult.bSplitAt
      simp only [hc, if_true]
    have e1 : pre = ⟨r.a, r.b.take index, r.nonEmpty, coreIsJunk cc⟩ := congrArg Prod.fst e
    have e2 : post = ⟨r.a, r.b.drop index, [], coreIsJunk cc⟩ := congrArg Prod.snd e
    have hend : ∀ q ∈ bPart r.nonEmpty, q.2 ≤ index := by
      intro q hq
      rw [Bool.or_eq_true, decide_eq_true_eq, List.isEmpty_iff] at hc
      rcases hc with hc | hc
      · rw [hc] at hq; simp [bPart] at hq
      · have := (bRange_bounds r h q hq).2; omega
    rw [e1, e2]
    refine ⟨rfl, rfl, rfl, rfl, ?_, ?_, ?_, ?_, ?_⟩
    · simp only [htot]; rfl
    · intro p
      simp only [hcov]
      by_cases hp : p < index
      · simp [hp]
      · rw [← hcov, covered_after _ p index hend (by omega)]; rfl
    · intro p
      rw [← hcov, covered_after _ (p + index) index hend (by omega)]; rfl
    · intro hal x hx k hk
      have := hend _ (List.mem_map.2 ⟨x, hx, rfl⟩)
      simp only at this
      obtain ⟨c, h1, h2⟩ := hal x (hmem x hx) k hk
      refine ⟨c, h1, ?_⟩
      simp only
      rw [take_getElem? _ _ _ (by omega), h2]
    · intro _ _ x hx
      simp at hx
  · have e : r.bSplitAt cc index = (⟨r.a, r.b.take index, (r.nonEmpty.filter (fun x => decide (x.b < index))).map
        (fun x => ⟨x.a, x.b, min x.size (index - x.b)⟩), coreIsJunk cc⟩,
        ⟨r.a, r.b.drop index, (r.nonEmpty.filter (fun x => decide (index < x.b + x.size))).map
        (fun x => ⟨x.a, x.b - index, if index ≤ x.b then x.size else x.size + x.b - index⟩), coreIsJunk cc⟩) := by
      unfold FuzzyResult.bSplitAt
      simp only [hc]; rfl
    have e1 := congrArg Prod.fst e
    have e2 := congrArg Prod.snd e
    change pre = _ at e1
    change post = _ at e2
    rw [e1, e2]
    refine ⟨rfl, rfl, rfl, rfl, ?_, ?_, ?_, ?_, ?_⟩
    · rw [← htot, ← total_split Block.b index r.nonEmpty]
      unfold total
      rw [List.map_map, List.map_map]; rfl
    · intro p
      rw [← hcov]
      refine Eq.trans ?_ (covered_preRanges Block.b index r.nonEmpty p)
      unfold bPart preRanges
      rw [List.map_map]; rfl
    · intro p
      rw [← hcov]
      refine Eq.trans ?_ (covered_postRanges Block.b index r.nonEmpty p)
      unfold bPart postRanges
      rw [List.map_map]; rfl
    · intro hal x hx k hk
      rw [List.mem_map] at hx
      obtain ⟨y, hy, rfl⟩ := hx
      rw [List.mem_filter, decide_eq_true_eq] at hy
      simp only at hk ⊢
      obtain ⟨c, h1, h2⟩ := hal y (hmem y hy.1) k (by omega)
      exact ⟨c, h1, by rw [take_getElem? _ _ _ (by omega), h2]⟩
    · intro hal hno x hx k hk
      rw [List.mem_map] at hx
      obtain ⟨y, hy, rfl⟩ := hx
      rw [List.mem_filter, decide_eq_true_eq] at hy
      have := hno y (hmem y hy.1)
      have hle : index ≤ y.b := by omega
      simp only [hle, if_true] at hk ⊢
      obtain ⟨c, h1, h2⟩ := hal y (hmem y hy.1) k hk
      refine ⟨c, h1, ?_⟩
      rw [List.getElem?_drop, ← h2]
      congr 1; omega

/-- Which positions the two parts pair, for any blocks in order of the first text: the first part has the pairs
before the split. The second part has the others, but the positions of the second text are too low by the
length of the part of the block before the split. -/
theorem C53_split_a_pairs (cc : CharClass) (r : FuzzyResult) (index p q : Nat) (h : Ordered (aPart r.blocks)) :
    (Paired (r.aSplitAt cc index).1.blocks p q ↔ Paired r.blocks p q ∧ p < index) ∧
    (Paired (r.aSplitAt cc index).2.blocks p q ↔
      ∃ x ∈ r.blocks, ∃ k, k < x.size ∧ p + index = x.a + k ∧ q + (index - x.a) = x.b + k) := by
  have hmem : ∀ x, x ∈ r.nonEmpty ↔ x ∈ r.blocks ∧ x.size ≠ 0 := fun x => by
    unfold FuzzyResult.nonEmpty; rw [List.mem_filter]; simp
  by_cases hc : (r.nonEmpty.isEmpty || decide (r.aRange.2 ≤ index)) = true
  · have e : r.aSplitAt cc index = (⟨r.a.take index, r.b, r.nonEmpty, coreIsJunk cc⟩,
        ⟨r.a.drop index, r.b, [], coreIsJunk cc⟩) := by
      unfold FuzzyResult.aSplitAt
      simp only [hc, if_true]
    have hend : ∀ x ∈ r.nonEmpty, x.a + x.size ≤ index := by
      intro x hx
      rw [Bool.or_eq_true, decide_eq_true_eq, List.isEmpty_iff] at hc
      rcases hc with hc | hc
      · rw [hc] at hx; cases hx
      · have := (aRange_bounds r h (x.a, x.a + x.size) (List.mem_map.2 ⟨x, hx, rfl⟩)).2
        simp only [] at this
        omega
    rw [e]
    constructor
    · constructor
      · rintro ⟨x, hx, k, hk, h1, h2⟩
        have := hend x hx
        exact ⟨⟨x, ((hmem x).1 hx).1, k, hk, h1, h2⟩, by omega⟩
      · rintro ⟨⟨x, hx, k, hk, h1, h2⟩, _⟩
        exact ⟨x, (hmem x).2 ⟨hx, by omega⟩, k, hk, h1, h2⟩
    · constructor
      · rintro ⟨x, hx, _⟩; cases hx
      · rintro ⟨x, hx, k, hk, h1, h2⟩
        have := hend x ((hmem x).2 ⟨hx, by omega⟩)
        omega
  · have e : r.aSplitAt cc index = (⟨r.a.take index, r.b, (r.nonEmpty.filter (fun x => decide (x.a < index))).map
        (fun x => ⟨x.a, x.b, min x.size (index - x.a)⟩), coreIsJunk cc⟩,
        ⟨r.a.drop index, r.b, (r.nonEmpty.filter (fun x => decide (index < x.a + x.size))).map
        (fun x => ⟨x.a - index, x.b, if index ≤ x.a then x.size else x.size + x.a - index⟩), coreIsJunk cc⟩) := by
      unfold FuzzyResult.aSplitAt
      simp only [hc]; rfl
    rw [e]
    constructor
    · constructor
      · rintro ⟨x, hx, k, hk, h1, h2⟩
        obtain ⟨y, hy, rfl⟩ := List.mem_map.1 hx
        obtain ⟨hy1, hy2⟩ := List.mem_filter.1 hy
        simp only [] at hk h1 h2
        exact ⟨⟨y, ((hmem y).1 hy1).1, k, by omega, h1, h2⟩, by omega⟩
      · rintro ⟨⟨x, hx, k, hk, h1, h2⟩, hp⟩
        exact ⟨_, List.mem_map.2 ⟨x, List.mem_filter.2 ⟨(hmem x).2 ⟨hx, by omega⟩, by simp; omega⟩, rfl⟩, k,
          by simp only []; omega, h1, h2⟩
    · constructor
      · rintro ⟨x, hx, k, hk, h1, h2⟩
        obtain ⟨y, hy, rfl⟩ := List.mem_map.1 hx
        obtain ⟨hy1, hy2⟩ := List.mem_filter.1 hy
        simp only [decide_eq_true_eq] at hk h1 h2 hy2
        refine ⟨y, ((hmem y).1 hy1).1, k + (index - y.a), ?_⟩
        split at hk <;> omega
      · rintro ⟨x, hx, k, hk, h1, h2⟩
        refine ⟨_, List.mem_map.2 ⟨x, List.mem_filter.2 ⟨(hmem x).2 ⟨hx, by omega⟩, by simp; omega⟩, rfl⟩, k - (index - x.a), ?_⟩
        simp only []
        split <;> omega

/-- The same for splitting at a position of the second text. -/
theorem C53_split_b_pairs (cc : CharClass) (r : FuzzyResult) (index p q : Nat) (h : Ordered (bPart r.blocks)) :
    (Paired (r.bSplitAt cc index).1.blocks p q ↔ Paired r.blocks p q ∧ q < index) ∧
    (Paired (r.bSplitAt cc index).2.blocks p q ↔
      ∃ x ∈ r.blocks, ∃ k, k < x.size ∧ p + (index - x.b) = x.a + k ∧ q + index = x.b + k) := by
  have hmem : ∀ x, x ∈ r.nonEmpty ↔ x ∈ r.blocks ∧ x.size ≠ 0 := fun x => by
    unfold FuzzyResult.nonEmpty; rw [List.mem_filter]; simp
  by_cases hc : (r.nonEmpty.isEmpty || decide (r.bRange.2 ≤ index)) = true
  · have e : r.bSplitAt cc index = (⟨r.a, r.b.take index, r.nonEmpty, coreIsJunk cc⟩,
        ⟨r.a, r.b.drop index, [], coreIsJunk cc⟩) := by
      unfold FuzzyResult.bSplitAt
      simp only [hc, if_true]
    have hend : ∀ x ∈ r.nonEmpty, x.b + x.size ≤ index := by
      intro x hx
      rw [Bool.or_eq_true, decide_eq_true_eq, List.isEmpty_iff] at hc
      rcases hc with hc | hc
      · rw [hc] at hx; cases hx
      · have := (bRange_bounds r h (x.b, x.b + x.size) (List.mem_map.2 ⟨x, hx, rfl⟩)).2
        simp only [] at this
        omega
    rw [e]
    constructor
    · constructor
      · rintro ⟨x, hx, k, hk, h1, h2⟩
        have := hend x hx
        exact ⟨⟨x, ((hmem x).1 hx).1, k, hk, h1, h2⟩, by omega⟩
      · rintro ⟨⟨x, hx, k, hk, h1, h2⟩, _⟩
        exact ⟨x, (hmem x).2 ⟨hx, by omega⟩, k, hk, h1, h2⟩
    · constructor
      · rintro ⟨x, hx, _⟩; cases hx
      · rintro ⟨x, hx, k, hk, h1, h2⟩
        have := hend x ((hmem x).2 ⟨hx, by omega⟩)
        omega
  · have e : r.bSplitAt cc index = (⟨r.a, r.b.take index, (r.nonEmpty.filter (fun x => decide (x.b < index))).map
        (fun x => ⟨x.a, x.b, min x.size (index - x.b)⟩), coreIsJunk cc⟩,
        ⟨r.a, r.b.drop index, (r.nonEmpty.filter (fun x => decide (index < x.b + x.size))).map
        (fun x => ⟨x.a, x.b - index, if index ≤ x.b then x.size else x.size + x.b - index⟩), coreIsJunk cc⟩) := by
      unfold FuzzyResult.bSplitAt
      simp only [hc]; rfl
    rw [e]
    constructor
    · constructor
      · rintro ⟨x, hx, k, hk, h1, h2⟩
        obtain ⟨y, hy, rfl⟩ := List.mem_map.1 hx
        obtain ⟨hy1, hy2⟩ := List.mem_filter.1 hy
        simp only [] at hk h1 h2
        exact ⟨⟨y, ((hmem y).1 hy1).1, k, by omega, h1, h2⟩, by omega⟩
      · rintro ⟨⟨x, hx, k, hk, h1, h2⟩, hp⟩
        exact ⟨_, List.mem_map.2 ⟨x, List.mem_filter.2 ⟨(hmem x).2 ⟨hx, by omega⟩, by simp; omega⟩, rfl⟩, k,
          by simp only []; omega, h1, h2⟩
    · constructor
      · rintro ⟨x, hx, k, hk, h1, h2⟩
        obtain ⟨y, hy, rfl⟩ := List.mem_map.1 hx
        obtain ⟨hy1, hy2⟩ := List.mem_filter.1 hy
        simp only [decide_eq_true_eq] at hk h1 h2 hy2
        refine ⟨y, ((hmem y).1 hy1).1, k + (index - y.b), ?_⟩
        split at hk <;> omega
      · rintro ⟨x, hx, k, hk, h1, h2⟩
        refine ⟨_, List.mem_map.2 ⟨x, List.mem_filter.2 ⟨(hmem x).2 ⟨hx, by omega⟩, by simp; omega⟩, rfl⟩, k - (index - x.b), ?_⟩
        simp only []
        split <;> omega

/-- Disagreement: the second part of a block crossing the split is paired with the beginning of the
block in the other text. -/
theorem C53_crossing_block_misaligned (cc : CharClass) :
    let r : FuzzyResult := ⟨c!"ab", c!"ab", [⟨0, 0, 2⟩], coreIsJunk cc⟩
    Aligned r.a r.b r.blocks ∧
    ((r.aSplitAt cc 1).2.blocks = [⟨0, 0, 1⟩] ∧ (r.aSplitAt cc 1).2.a = c!"b" ∧ (r.aSplitAt cc 1).2.b = c!"ab") ∧
    ¬ Aligned (r.aSplitAt cc 1).2.a (r.aSplitAt cc 1).2.b (r.aSplitAt cc 1).2.blocks := by
  intro r
  have e : (r.aSplitAt cc 1).2.blocks = [⟨0, 0, 1⟩] ∧ (r.aSplitAt cc 1).2.a = c!"b" ∧
      (r.aSplitAt cc 1).2.b = c!"ab" := ⟨rfl, rfl, rfl⟩
  refine ⟨?_, e, ?_⟩
  · intro x hx k hk
    have : x = ⟨0, 0, 2⟩ := by simpa [r] using hx
    subst this
    simp only at hk
    have : k = 0 ∨ k = 1 := by omega
    rcases this with h | h <;> subst h
    · exact ⟨'a', rfl, rfl⟩
    · exact ⟨'b', rfl, rfl⟩
  · rw [e.1, e.2.1, e.2.2]
    intro h
    obtain ⟨c, h1, h2⟩ := h ⟨0, 0, 1⟩ (by simp) 0 (by decide)
    simp at h1 h2
    rw [← h1] at h2
    exact absurd h2 (by decide)

/-- Two blocks, with a gap in the first text. -/
def exMatch : FuzzyResult := ⟨c!"The x cat", c!"The cat", [⟨0, 0, 4⟩, ⟨6, 4, 3⟩], coreIsJunk asciiClass⟩

example : Consistent exMatch.a exMatch.b exMatch.blocks ∧ exMatch.bGapRatio = 7/9 ∧ exMatch.aRatio = 7/9 :=
  ⟨⟨⟨by decide, by decide⟩, ⟨by decide, by decide⟩, by decide, by decide⟩, by decide +kernel, by decide +kernel⟩

example : ((exMatch.aSplitAt asciiClass 5).1.blocks, (exMatch.aSplitAt asciiClass 5).2.blocks) =
    ([⟨0, 0, 4⟩], [⟨1, 4, 3⟩]) := by decide +kernel

end Verif.Props
