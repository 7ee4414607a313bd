/-
Lemmas about matches.
-/
import Verif.Spec.Fuzzy

namespace Verif
open Spec

theorem countIn_self (lo : Nat) (p : Nat → Bool) : countIn lo lo p = 0 := by simp [countIn]

theorem countIn_of_ge (lo hi : Nat) (p : Nat → Bool) (h : hi ≤ lo) : countIn lo hi p = 0 := by
  unfold countIn
  rw [Nat.sub_eq_zero_of_le h]; rfl

theorem countIn_split (lo mid hi : Nat) (p : Nat → Bool) (h1 : lo ≤ mid) (h2 : mid ≤ hi) :
    countIn lo hi p = countIn lo mid p + countIn mid hi p := by
  unfold countIn
  rw [← List.length_append, ← List.filter_append]
  have : List.range' mid (hi - mid) = List.range' (lo + 1 * (mid - lo)) (hi - mid) := by
    congr 1; omega
  rw [this, List.range'_append]
  congr 3; omega

theorem countIn_congr (lo hi : Nat) (p q : Nat → Bool) (h : ∀ i, lo ≤ i → i < hi → p i = q i) :
    countIn lo hi p = countIn lo hi q := by
  unfold countIn
  congr 1
  apply List.filter_congr
  intro i hi'
  rw [List.mem_range'_1] at hi'
  exact h i hi'.1 (by omega)

theorem countIn_le (lo hi : Nat) (p : Nat → Bool) : countIn lo hi p ≤ hi - lo := by
  unfold countIn
  have := List.length_filter_le p (List.range' lo (hi - lo))
  rwa [List.length_range'] at this

theorem countIn_true (lo hi : Nat) (p : Nat → Bool) (h : ∀ i, lo ≤ i → i < hi → p i = true) :
    countIn lo hi p = hi - lo := by
  rw [countIn_congr lo hi p (fun _ => true) h]
  unfold countIn
  rw [List.filter_eq_self.2 (by simp), List.length_range']

theorem countIn_false (lo hi : Nat) (p : Nat → Bool) (h : ∀ i, lo ≤ i → i < hi → p i = false) :
    countIn lo hi p = 0 := by
  rw [countIn_congr lo hi p (fun _ => false) h]
  unfold countIn
  simp

theorem countIn_mono (lo hi : Nat) (p q : Nat → Bool) (h : ∀ i, p i = true → q i = true) :
    countIn lo hi p ≤ countIn lo hi q := by
  unfold countIn
  generalize List.range' lo (hi - lo) = l
  induction l with
  | nil => simp
  | cons i l ih =>
    rw [List.filter_cons, List.filter_cons]
    by_cases hp : p i = true
    · simp [hp, h i hp]; exact ih
    · by_cases hq : q i = true
      · simp [hp, hq]; omega
      · simp [hp, hq]; exact ih

theorem countIn_not (lo hi : Nat) (p : Nat → Bool) :
    countIn lo hi p + countIn lo hi (fun i => !p i) = hi - lo := by
  unfold countIn
  have hl : (List.range' lo (hi - lo)).length = hi - lo := List.length_range'
  refine Eq.trans ?_ hl
  clear hl
  generalize List.range' lo (hi - lo) = l
  induction l with
  | nil => simp
  | cons i l ih =>
    rw [List.filter_cons, List.filter_cons]
    by_cases hp : p i = true
    · simp [hp]; omega
    · simp [hp]; omega

theorem covered_cons (r : Nat × Nat) (rs : List (Nat × Nat)) (p : Nat) :
    covered (r :: rs) p = (decide (r.1 ≤ p) && decide (p < r.2) || covered rs p) := rfl

theorem covered_iff (rs : List (Nat × Nat)) (p : Nat) : covered rs p = true ↔ ∃ r ∈ rs, r.1 ≤ p ∧ p < r.2 := by
  simp [covered]

theorem Spec.Ordered.tail {r : Nat × Nat} {rs : List (Nat × Nat)} (h : Ordered (r :: rs)) : Ordered rs :=
  ⟨fun q hq => h.each q (by simp [hq]), (List.pairwise_cons.1 h.next).2⟩

theorem Spec.Ordered.head {r : Nat × Nat} {rs : List (Nat × Nat)} (h : Ordered (r :: rs)) : ∀ q ∈ rs, r.2 ≤ q.1 :=
  (List.pairwise_cons.1 h.next).1

/-- Positions before all ranges are not covered. -/
theorem covered_before (rs : List (Nat × Nat)) (p lo : Nat) (h : ∀ r ∈ rs, lo ≤ r.1) (hp : p < lo) :
    covered rs p = false := by
  rw [← Bool.not_eq_true, covered_iff]
  rintro ⟨r, hr, h1, h2⟩
  have := h r hr
  omega

theorem invertRanges_of_ge (stop i : Nat) (rs : List (Nat × Nat)) (h : stop ≤ i) : invertRanges stop i rs = [] := by
  cases rs with
  | nil => rw [invertRanges, if_neg (by omega)]
  | cons r rs => obtain ⟨a, b⟩ := r; rw [invertRanges, if_pos h]

/-- The inverted ranges cover exactly the rest. -/
theorem covered_invertRanges (stop : Nat) (rs : List (Nat × Nat)) (i : Nat) (h : Ordered rs)
    (hi : ∀ r ∈ rs, i ≤ r.1) (p : Nat) :
    covered (invertRanges stop i rs) p = (decide (i ≤ p) && decide (p < stop) && !covered rs p) := by
  induction rs generalizing i with
  | nil =>
    unfold invertRanges
    split
    · simp [covered]
    · have : (decide (i ≤ p) && decide (p < stop)) = false := by
        rw [← Bool.not_eq_true]; simp; omega
      simp [covered] at *; omega
  | cons r rs ih =>
    obtain ⟨a, b⟩ := r
    have hr := h.each (a, b) (by simp)
    have hia := hi (a, b) (by simp)
    simp only at hr hia
    have hb : ∀ q ∈ rs, b ≤ q.1 := h.head
    rw [invertRanges]
    split
    · next h1 =>
      have : ¬ (i ≤ p ∧ p < stop) := by omega
      simp only [covered, List.any_nil]
      rw [eq_comm, ← Bool.not_eq_true]
      simp only [Bool.and_eq_true, decide_eq_true_eq]
      exact fun h => this h.1
    · have ih' := ih b h.tail hb
      by_cases hp : b ≤ p
      · -- beyond the range
        split
        · rw [covered_cons, ih', covered_cons]
          have e1 : (decide (i ≤ p) && decide (p < min stop a)) = false := by
            rw [← Bool.not_eq_true]; simp only [Bool.and_eq_true, decide_eq_true_eq]; omega
          have e2 : (decide (a ≤ p) && decide (p < b)) = false := by
            rw [← Bool.not_eq_true]; simp only [Bool.and_eq_true, decide_eq_true_eq]; omega
          simp only [e1, e2, Bool.false_or]
          have e3 : decide (b ≤ p) = decide (i ≤ p) := by
            rw [decide_eq_true hp, decide_eq_true (by omega : i ≤ p)]
          rw [e3]
        · rw [ih', covered_cons]
          have e2 : (decide (a ≤ p) && decide (p < b)) = false := by
            rw [← Bool.not_eq_true]; simp only [Bool.and_eq_true, decide_eq_true_eq]; omega
          simp only [e2, Bool.false_or]
          have e3 : decide (b ≤ p) = decide (i ≤ p) := by
            rw [decide_eq_true hp, decide_eq_true (by omega : i ≤ p)]
          rw [e3]
      · have hc : covered rs p = false := covered_before rs p b hb (by omega)
        have hc' : covered (invertRanges stop b rs) p = false := by
          rw [ih', decide_eq_false hp]; simp
        split
        · rw [covered_cons, hc', covered_cons, hc]
          simp only [Bool.or_false]
          by_cases h3 : a ≤ p
          · have e1 : (decide (i ≤ p) && decide (p < min stop a)) = false := by
              rw [← Bool.not_eq_true]; simp only [Bool.and_eq_true, decide_eq_true_eq]; omega
            rw [e1]
            have e2 : (decide (a ≤ p) && decide (p < b)) = true := by
              simp only [Bool.and_eq_true, decide_eq_true_eq]; omega
            rw [e2]; simp
          · have e1 : decide (p < min stop a) = decide (p < stop) := by
              apply decide_eq_decide.2; omega
            rw [e1, decide_eq_false h3]; simp
        · rw [hc', covered_cons, hc]
          by_cases h3 : a ≤ p
          · have e2 : (decide (a ≤ p) && decide (p < b)) = true := by
              simp only [Bool.and_eq_true, decide_eq_true_eq]; omega
            rw [e2]; simp
          · have : ¬ i ≤ p := by omega
            rw [decide_eq_false this]; simp

/-- The inverted ranges are not empty and in order. -/
theorem ordered_invertRanges (stop : Nat) (rs : List (Nat × Nat)) (i : Nat) (h : Ordered rs)
    (hi : ∀ r ∈ rs, i ≤ r.1) :
    (∀ q ∈ invertRanges stop i rs, i ≤ q.1 ∧ q.1 < q.2 ∧ q.2 ≤ stop) ∧
    (invertRanges stop i rs).Pairwise (fun r q => r.2 ≤ q.1) := by
  induction rs generalizing i with
  | nil =>
    unfold invertRanges
    split
    · simp; omega
    · simp
  | cons r rs ih =>
    obtain ⟨a, b⟩ := r
    have hr := h.each (a, b) (by simp)
    have hia := hi (a, b) (by simp)
    simp only at hr hia
    have hb : ∀ q ∈ rs, b ≤ q.1 := h.head
    obtain ⟨i1, i2⟩ := ih b h.tail hb
    rw [invertRanges]
    split
    · simp
    · split
      · constructor
        · intro q hq
          rcases List.mem_cons.1 hq with hq | hq
          · subst hq; simp only; omega
          · have := i1 q hq; omega
        · rw [List.pairwise_cons]
          refine ⟨?_, i2⟩
          intro q hq
          have := i1 q hq
          simp only; omega
      · exact ⟨fun q hq => by have := i1 q hq; omega, i2⟩

theorem countJunkBetween_eq (isJunk : IsJunk) (s : Str) (r : Nat × Nat) :
    countJunkBetween isJunk s r = countIn r.1 r.2 (isJunk s) := rfl

/-- Counting over the inverted ranges counts the positions not covered. -/
theorem sum_invertRanges (stop : Nat) (p : Nat → Bool) (rs : List (Nat × Nat)) (i : Nat) (h : Ordered rs)
    (hi : ∀ r ∈ rs, i ≤ r.1) :
    ((invertRanges stop i rs).map (fun r => countIn r.1 r.2 p)).sum =
      countIn i stop (fun j => p j && !covered rs j) := by
  induction rs generalizing i with
  | nil =>
    unfold invertRanges
    split
    · simp [covered]
    · rw [countIn_of_ge _ _ _ (by omega)]; rfl
  | cons r rs ih =>
    obtain ⟨a, b⟩ := r
    have hr := h.each (a, b) (by simp)
    have hia := hi (a, b) (by simp)
    simp only at hr hia
    have hb : ∀ q ∈ rs, b ≤ q.1 := h.head
    rw [invertRanges]
    split
    · next h1 => rw [countIn_of_ge _ _ _ h1]; rfl
    · next h1 =>
      have ih' := ih b h.tail hb
      -- the part after the range
      have hrest : countIn (min stop b) stop (fun j => p j && !covered ((a, b) :: rs) j) =
          countIn b stop (fun j => p j && !covered rs j) := by
        by_cases hbs : b ≤ stop
        · rw [Nat.min_eq_right hbs]
          apply countIn_congr
          intro j hj1 hj2
          rw [covered_cons]
          have : (decide (a ≤ j) && decide (j < b)) = false := by
            rw [← Bool.not_eq_true]; simp only [Bool.and_eq_true, decide_eq_true_eq]; omega
          simp only [this, Bool.false_or]
        · rw [Nat.min_eq_left (by omega), countIn_self, countIn_of_ge _ _ _ (by omega)]
      have hin : countIn (min stop a) (min stop b) (fun j => p j && !covered ((a, b) :: rs) j) = 0 := by
        apply countIn_false
        intro j hj1 hj2
        rw [covered_cons]
        have : (decide (a ≤ j) && decide (j < b)) = true := by
          simp only [Bool.and_eq_true, decide_eq_true_eq]; omega
        simp only [this, Bool.true_or]; simp
      have hbefore : countIn i (min stop a) (fun j => p j && !covered ((a, b) :: rs) j) =
          countIn i (min stop a) p := by
        apply countIn_congr
        intro j hj1 hj2
        rw [covered_before ((a, b) :: rs) j a]
        · simp
        · intro q hq
          rcases List.mem_cons.1 hq with hq | hq
          · subst hq; exact Nat.le_refl _
          · have := hb q hq; omega
        · omega
      rw [countIn_split i (min stop a) stop _ (by omega) (by omega),
        countIn_split (min stop a) (min stop b) stop _ (by omega) (by omega), hin, hrest, hbefore, ← ih']
      split
      · rw [List.map_cons, List.sum_cons]; simp only; omega
      · have : countIn i (min stop a) p = 0 := countIn_of_ge _ _ _ (by omega)
        omega

/-- Sum of lengths of ordered ranges inside an interval. -/
theorem countIn_covered (rs : List (Nat × Nat)) (lo hi : Nat) (h : Ordered rs) (hlo : ∀ r ∈ rs, lo ≤ r.1)
    (hhi : ∀ r ∈ rs, r.2 ≤ hi) :
    countIn lo hi (covered rs) = (rs.map (fun r => r.2 - r.1)).sum := by
  induction rs generalizing lo with
  | nil =>
    rw [countIn_false _ _ _ (by intros; rfl)]; rfl
  | cons r rs ih =>
    obtain ⟨a, b⟩ := r
    have hr := h.each (a, b) (by simp)
    have h1 := hlo (a, b) (by simp)
    have h2 := hhi (a, b) (by simp)
    simp only at hr h1 h2
    have hb : ∀ q ∈ rs, b ≤ q.1 := h.head
    rw [countIn_split lo b hi _ (by omega) h2, countIn_split lo a b _ h1 hr]
    rw [countIn_false lo a, countIn_true a b, List.map_cons, List.sum_cons,
      ← ih b h.tail hb (fun r hr => hhi r (by simp [hr])), Nat.zero_add]
    · congr 1
      apply countIn_congr
      intro j hj1 hj2
      rw [covered_cons]
      have : (decide (a ≤ j) && decide (j < b)) = false := by
        rw [← Bool.not_eq_true]; simp only [Bool.and_eq_true, decide_eq_true_eq]; omega
      simp only [this, Bool.false_or]
    · intro j hj1 hj2
      rw [covered_cons]
      simp [hj1, hj2]
    · intro j hj1 hj2
      apply covered_before _ j a _ hj2
      intro q hq
      rcases List.mem_cons.1 hq with hq | hq
      · subst hq; exact Nat.le_refl _
      · have := hb q hq; omega

/-! Blocks -/

theorem total_filter (bs : List Block) : total (bs.filter (fun x => x.size ≠ 0)) = total bs := by
  unfold total
  induction bs with
  | nil => rfl
  | cons x bs ih =>
    rw [List.filter_cons]
    split
    · rw [List.map_cons, List.sum_cons, List.map_cons, List.sum_cons, ih]
    · next h =>
      have : x.size = 0 := by simpa using h
      rw [List.map_cons, List.sum_cons, ih, this, Nat.zero_add]

theorem Spec.Ordered.filter_aPart {bs : List Block} (h : Ordered (aPart bs)) (p : Block → Bool) :
    Ordered (aPart (bs.filter p)) := by
  have hs : (aPart (bs.filter p)).Sublist (aPart bs) := List.filter_sublist.map _
  exact ⟨fun r hr => h.each r (hs.subset hr), h.next.sublist hs⟩

theorem Spec.Ordered.filter_bPart {bs : List Block} (h : Ordered (bPart bs)) (p : Block → Bool) :
    Ordered (bPart (bs.filter p)) := by
  have hs : (bPart (bs.filter p)).Sublist (bPart bs) := List.filter_sublist.map _
  exact ⟨fun r hr => h.each r (hs.subset hr), h.next.sublist hs⟩

theorem sum_aPart (bs : List Block) : ((aPart bs).map (fun r => r.2 - r.1)).sum = total bs := by
  unfold aPart total
  rw [List.map_map]
  congr 1
  apply List.map_congr_left
  intro x _
  simp

theorem sum_bPart (bs : List Block) : ((bPart bs).map (fun r => r.2 - r.1)).sum = total bs := by
  unfold bPart total
  rw [List.map_map]
  congr 1
  apply List.map_congr_left
  intro x _
  simp

/-- Ordered ranges lie between the start of the first and the end of the last. -/
theorem Spec.Ordered.bounds {rs : List (Nat × Nat)} (h : Ordered rs) {x y : Nat × Nat} (hx : rs.head? = some x)
    (hy : rs.getLast? = some y) : ∀ r ∈ rs, x.1 ≤ r.1 ∧ r.2 ≤ y.2 := by
  intro r hr
  constructor
  · cases rs with
    | nil => simp at hx
    | cons a rs =>
      simp only [List.head?_cons, Option.some.injEq] at hx
      subst hx
      rcases List.mem_cons.1 hr with h1 | h1
      · subst h1; exact Nat.le_refl _
      · have := h.head r h1
        have := h.each a (by simp)
        omega
  · rw [List.getLast?_eq_some_iff] at hy
    obtain ⟨l, rfl⟩ := hy
    rcases List.mem_append.1 hr with h1 | h1
    · have h2 := (List.pairwise_append.1 h.next).2.2 r h1 y (by simp)
      have h3 := h.each y (by simp)
      omega
    · rw [List.mem_singleton] at h1
      subst h1; exact Nat.le_refl _

theorem coveredA_nonEmpty (r : FuzzyResult) (i : Nat) : covered r.aBlocks i = covered (aPart r.blocks) i := by
  unfold FuzzyResult.aBlocks FuzzyResult.nonEmpty aPart covered
  induction r.blocks with
  | nil => rfl
  | cons x bs ih =>
    rw [List.filter_cons]
    split
    · simp only [List.map_cons, List.any_cons, ih]
    · next hx =>
      have hx : x.size = 0 := by simpa using hx
      rw [ih]
      simp only [List.map_cons, List.any_cons]
      have : (decide (x.a ≤ i) && decide (i < x.a + x.size)) = false := by
        rw [← Bool.not_eq_true]; simp; omega
      rw [this, Bool.false_or]

theorem coveredB_nonEmpty (r : FuzzyResult) (i : Nat) : covered r.bBlocks i = covered (bPart r.blocks) i := by
  unfold FuzzyResult.bBlocks FuzzyResult.nonEmpty bPart covered
  induction r.blocks with
  | nil => rfl
  | cons x bs ih =>
    rw [List.filter_cons]
    split
    · simp only [List.map_cons, List.any_cons, ih]
    · next hx =>
      have hx : x.size = 0 := by simpa using hx
      rw [ih]
      simp only [List.map_cons, List.any_cons]
      have : (decide (x.b ≤ i) && decide (i < x.b + x.size)) = false := by
        rw [← Bool.not_eq_true]; simp; omega
      rw [this, Bool.false_or]

/-- Matched characters and unmatched junk fit into any interval containing the blocks. -/
theorem unmatched_le (p : Nat → Bool) (rs : List (Nat × Nat)) (lo hi : Nat) (h : Ordered rs)
    (hlo : ∀ r ∈ rs, lo ≤ r.1) (hhi : ∀ r ∈ rs, r.2 ≤ hi) :
    (rs.map (fun r => r.2 - r.1)).sum + ((invertRanges hi lo rs).map (fun r => countIn r.1 r.2 p)).sum ≤ hi - lo := by
  rw [sum_invertRanges hi p rs lo h hlo, ← countIn_covered rs lo hi h hlo hhi, ← countIn_not lo hi (covered rs)]
  apply Nat.add_le_add_left
  apply countIn_mono
  intro i hi
  simp at hi ⊢
  exact hi.2

theorem matchCount_eq (r : FuzzyResult) : r.matchCount = total r.blocks := rfl

theorem aBlocks_eq (r : FuzzyResult) : r.aBlocks = aPart r.nonEmpty := rfl

theorem bBlocks_eq (r : FuzzyResult) : r.bBlocks = bPart r.nonEmpty := rfl

theorem unmatchedA (r : FuzzyResult) (h : Consistent r.a r.b r.blocks) :
    r.matchCount + r.aNonMatchingJunk ≤ r.a.length := by
  have := unmatched_le (r.isJunk r.a) r.aBlocks 0 r.a.length (h.aOrd.filter_aPart _) (by intros; omega) (by
    intro q hq
    rw [aBlocks_eq, aPart, List.mem_map] at hq
    obtain ⟨x, hx, rfl⟩ := hq
    exact h.aIn x (List.mem_filter.1 hx).1)
  rw [aBlocks_eq, sum_aPart, FuzzyResult.nonEmpty, total_filter, ← matchCount_eq] at this
  exact this

theorem unmatchedB (r : FuzzyResult) (h : Consistent r.a r.b r.blocks) :
    r.matchCount + r.bNonMatchingJunk ≤ r.b.length := by
  have := unmatched_le (r.isJunk r.b) r.bBlocks 0 r.b.length (h.bOrd.filter_bPart _) (by intros; omega) (by
    intro q hq
    rw [bBlocks_eq, bPart, List.mem_map] at hq
    obtain ⟨x, hx, rfl⟩ := hq
    exact h.bIn x (List.mem_filter.1 hx).1)
  rw [bBlocks_eq, sum_bPart, FuzzyResult.nonEmpty, total_filter, ← matchCount_eq] at this
  exact this

theorem aRange_bounds (r : FuzzyResult) (h : Ordered (aPart r.blocks)) :
    ∀ q ∈ r.aBlocks, r.aRange.1 ≤ q.1 ∧ q.2 ≤ r.aRange.2 := by
  intro q hq
  cases hh : r.nonEmpty.head? with
  | none =>
    rw [List.head?_eq_none_iff] at hh
    rw [aBlocks_eq, hh] at hq
    simp [aPart] at hq
  | some x =>
    cases hl : r.nonEmpty.getLast? with
    | none =>
      rw [List.getLast?_eq_none_iff] at hl
      rw [hl] at hh; simp at hh
    | some y =>
      have e : r.aRange = (x.a, y.a + y.size) := by unfold FuzzyResult.aRange; rw [hh, hl]
      rw [e]
      exact (h.filter_aPart (fun x => x.size ≠ 0)).bounds (x := (x.a, x.a + x.size)) (y := (y.a, y.a + y.size))
        (by simp only [aPart, List.head?_map]; exact congrArg (Option.map _) hh)
        (by simp only [aPart, List.getLast?_map]; exact congrArg (Option.map _) hl) q hq

theorem bRange_bounds (r : FuzzyResult) (h : Ordered (bPart r.blocks)) :
    ∀ q ∈ r.bBlocks, r.bRange.1 ≤ q.1 ∧ q.2 ≤ r.bRange.2 := by
  intro q hq
  cases hh : r.nonEmpty.head? with
  | none =>
    rw [List.head?_eq_none_iff] at hh
    rw [bBlocks_eq, hh] at hq
    simp [bPart] at hq
  | some x =>
    cases hl : r.nonEmpty.getLast? with
    | none =>
      rw [List.getLast?_eq_none_iff] at hl
      rw [hl] at hh; simp at hh
    | some y =>
      have e : r.bRange = (x.b, y.b + y.size) := by unfold FuzzyResult.bRange; rw [hh, hl]
      rw [e]
      exact (h.filter_bPart (fun x => x.size ≠ 0)).bounds (x := (x.b, x.b + x.size)) (y := (y.b, y.b + y.size))
        (by simp only [bPart, List.head?_map]; exact congrArg (Option.map _) hh)
        (by simp only [bPart, List.getLast?_map]; exact congrArg (Option.map _) hl) q hq

theorem gapsA (r : FuzzyResult) (h : Consistent r.a r.b r.blocks) :
    r.matchCount + r.aNonMatchingJunk (some r.aRange) ≤ r.aRange.2 - r.aRange.1 := by
  have hb := aRange_bounds r h.aOrd
  have := unmatched_le (r.isJunk r.a) r.aBlocks r.aRange.1 r.aRange.2 (h.aOrd.filter_aPart _)
    (fun q hq => (hb q hq).1) (fun q hq => (hb q hq).2)
  rw [aBlocks_eq, sum_aPart, FuzzyResult.nonEmpty, total_filter, ← matchCount_eq] at this
  exact this

theorem gapsB (r : FuzzyResult) (h : Consistent r.a r.b r.blocks) :
    r.matchCount + r.bNonMatchingJunk (some r.bRange) ≤ r.bRange.2 - r.bRange.1 := by
  have hb := bRange_bounds r h.bOrd
  have := unmatched_le (r.isJunk r.b) r.bBlocks r.bRange.1 r.bRange.2 (h.bOrd.filter_bPart _)
    (fun q hq => (hb q hq).1) (fun q hq => (hb q hq).2)
  rw [bBlocks_eq, sum_bPart, FuzzyResult.nonEmpty, total_filter, ← matchCount_eq] at this
  exact this

theorem ratioTo_bounds (r : FuzzyResult) (size : Int) (h : (r.matchCount : Int) ≤ size) :
    0 ≤ r.ratioTo size ∧ r.ratioTo size ≤ 1 := by
  unfold FuzzyResult.ratioTo
  split
  · exact ⟨Rat.le_refl, by decide⟩
  · next h0 =>
    have hpos : (0 : Rat) < (size : Rat) := by
      have : 0 < size := by omega
      exact_mod_cast this
    constructor
    · rw [Rat.div_def]
      apply Rat.mul_nonneg
      · exact_mod_cast Nat.zero_le _
      · exact Rat.le_of_lt (Rat.inv_pos.2 hpos)
    · rw [← Rat.not_lt, Rat.lt_div_iff hpos, Rat.one_mul, Rat.not_lt]
      have : ((r.matchCount : Int) : Rat) ≤ ((size : Int) : Rat) := by exact_mod_cast h
      rwa [Rat.intCast_natCast] at this

/-! Splitting, seen from one of the two texts: `pos` is the position of a block in that text. -/

/-- The part of the blocks before the split. -/
def preRanges (pos : Block → Nat) (index : Nat) (bs : List Block) : List (Nat × Nat) :=
  (bs.filter (fun x => decide (pos x < index))).map (fun x => (pos x, pos x + min x.size (index - pos x)))

/-- The part of the blocks after the split. -/
def postRanges (pos : Block → Nat) (index : Nat) (bs : List Block) : List (Nat × Nat) :=
  (bs.filter (fun x => decide (index < pos x + x.size))).map
    (fun x => (pos x - index, (pos x - index) + if index ≤ pos x then x.size else x.size + pos x - index))

theorem covered_preRanges (pos : Block → Nat) (index : Nat) (bs : List Block) (p : Nat) :
    covered (preRanges pos index bs) p =
      (covered (bs.map (fun x => (pos x, pos x + x.size))) p && decide (p < index)) := by
  rw [Bool.eq_iff_iff, Bool.and_eq_true, covered_iff, covered_iff, decide_eq_true_eq]
  unfold preRanges
  simp only [List.mem_map, List.mem_filter, decide_eq_true_eq]
  constructor
  · rintro ⟨r, ⟨x, ⟨hx, h1⟩, rfl⟩, h2, h3⟩
    simp only at h2 h3
    exact ⟨⟨_, ⟨x, hx, rfl⟩, h2, by simp only; omega⟩, by omega⟩
  · rintro ⟨⟨r, ⟨x, hx, rfl⟩, h2, h3⟩, h4⟩
    simp only at h2 h3
    exact ⟨_, ⟨x, ⟨hx, by omega⟩, rfl⟩, h2, by simp only; omega⟩

theorem covered_postRanges (pos : Block → Nat) (index : Nat) (bs : List Block) (p : Nat) :
    covered (postRanges pos index bs) p =
      covered (bs.map (fun x => (pos x, pos x + x.size))) (p + index) := by
  rw [Bool.eq_iff_iff, covered_iff, covered_iff]
  unfold postRanges
  simp only [List.mem_map, List.mem_filter, decide_eq_true_eq]
  constructor
  · rintro ⟨r, ⟨x, ⟨hx, h1⟩, rfl⟩, h2, h3⟩
    simp only at h2 h3
    refine ⟨_, ⟨x, hx, rfl⟩, ?_, ?_⟩
    · simp only; omega
    · simp only; split at h3 <;> omega
  · rintro ⟨r, ⟨x, hx, rfl⟩, h2, h3⟩
    simp only at h2 h3
    refine ⟨_, ⟨x, ⟨hx, by omega⟩, rfl⟩, ?_, ?_⟩
    · simp only; omega
    · simp only; split <;> omega

theorem total_split (pos : Block → Nat) (index : Nat) (bs : List Block) :
    ((bs.filter (fun x => decide (pos x < index))).map (fun x => min x.size (index - pos x))).sum +
    ((bs.filter (fun x => decide (index < pos x + x.size))).map
      (fun x => if index ≤ pos x then x.size else x.size + pos x - index)).sum = total bs := by
  unfold total
  induction bs with
  | nil => rfl
  | cons x bs ih =>
    rw [List.map_cons, List.sum_cons, ← ih, List.filter_cons, List.filter_cons]
    by_cases h1 : pos x < index
    · by_cases h2 : index < pos x + x.size
      · simp only [h1, h2, decide_true, if_true, List.map_cons, List.sum_cons]
        rw [if_neg (by omega)]
        omega
      · simp only [h1, h2, decide_true, decide_false, if_true, Bool.false_eq_true, if_false, List.map_cons, List.sum_cons]
        omega
    · by_cases h2 : index < pos x + x.size
      · simp only [h1, h2, decide_true, decide_false, if_true, Bool.false_eq_true, if_false, List.map_cons, List.sum_cons]
        rw [if_pos (by omega)]
        omega
      · simp only [h1, h2, decide_false, Bool.false_eq_true, if_false]
        omega

theorem covered_after (rs : List (Nat × Nat)) (p hi : Nat) (h : ∀ r ∈ rs, r.2 ≤ hi) (hp : hi ≤ p) :
    covered rs p = false := by
  rw [← Bool.not_eq_true, covered_iff]
  rintro ⟨r, hr, h1, h2⟩
  have := h r hr
  omega

theorem take_getElem? {α : Type} (s : List α) (n i : Nat) (h : i < n) : (s.take n)[i]? = s[i]? := by
  rw [List.getElem?_take, if_pos h]

end Verif
