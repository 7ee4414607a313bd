import Verif.Lemmas.TargetText
import Verif.Lemmas.PyStr

namespace Verif

open Spec

theorem nonSpace_append (cc : CharClass) (s t : Str) : nonSpace cc (s ++ t) = nonSpace cc s ++ nonSpace cc t := by
  simp [nonSpace]

theorem nonSpace_spaces (cc : CharClass) (a : Str) (h : ∀ c ∈ a, cc.isSpace c = true) : nonSpace cc a = [] := by
  simp only [nonSpace, List.filter_eq_nil_iff]
  intro c hc
  simp [h c hc]

theorem nonSpace_strip (cc : CharClass) (s : Str) : nonSpace cc (strip cc s) = nonSpace cc s := by
  obtain ⟨a, b, hs, ha, hb⟩ := strip_decompose cc s
  rw [show nonSpace cc s = nonSpace cc (a ++ strip cc s ++ b) by rw [← hs]]
  rw [nonSpace_append, nonSpace_append, nonSpace_spaces cc a ha, nonSpace_spaces cc b hb]
  simp

theorem sliceStr_append_drop (s : Str) (a b : Nat) (h : a ≤ b) : sliceStr s a b ++ s.drop b = s.drop a := by
  unfold sliceStr
  rw [List.drop_take]
  conv => rhs; rw [← List.take_append_drop (b - a) (s.drop a)]
  rw [List.drop_drop]
  congr 2
  omega

/-- The text without the matches: every match is kept, a gap loses at most its first character. -/
theorem extractLoop_nonSpace (cc : CharClass) (s : Str) (spans : List (Nat × Nat)) (pos start : Nat)
    (hsp : SpansFrom s.length pos spans) (hf : AllFollowedBySpace cc s spans)
    (hst : start = pos ∨ (start = pos + 1 ∧ followedBySpace cc s pos spans)) :
    nonSpace cc ((extractLoop cc s spans start).1.flatten ++ s.drop (extractLoop cc s spans start).2) =
      nonSpace cc (s.drop pos) := by
  have hskip : ∀ p, (∀ c, s[p]? = some c → cc.isSpace c = true) → nonSpace cc (s.drop (p + 1)) = nonSpace cc (s.drop p) := by
    intro p hp
    by_cases hl : p < s.length
    · have := hp s[p] (List.getElem?_eq_getElem hl)
      conv => rhs; rw [List.drop_eq_getElem_cons hl]
      show _ = nonSpace cc ([s[p]] ++ s.drop (p + 1))
      rw [nonSpace_append, nonSpace_spaces cc [s[p]] (by intro c hc; rw [List.mem_singleton] at hc; rw [hc]; exact this)]
      rfl
    · rw [List.drop_eq_nil_of_le (by omega), List.drop_eq_nil_of_le (by omega)]
  induction spans generalizing pos start with
  | nil =>
    simp only [extractLoop, List.flatten_nil, List.nil_append]
    rcases hst with rfl | ⟨rfl, h⟩
    · rfl
    · rcases h with h | ⟨e, l, h⟩
      · exact hskip pos h
      · exact absurd h (by simp)
  | cons m ms ih =>
    obtain ⟨a, b⟩ := m
    obtain ⟨h1, h2, h3, h4⟩ := hsp
    obtain ⟨hf1, hf2⟩ := hf
    have hih := ih b (b + 1) h4 hf2 (.inr ⟨rfl, hf1⟩)
    simp only [extractLoop, List.flatten_append, List.flatten_cons, List.append_assoc]
    rw [nonSpace_append, nonSpace_append, hih, ← nonSpace_append, sliceStr_append_drop s a b h2]
    by_cases hlt : start < a
    · rw [if_pos hlt]
      simp only [List.flatten_cons, List.flatten_nil, List.append_nil]
      rw [nonSpace_strip, ← nonSpace_append, sliceStr_append_drop s start a (by omega)]
      rcases hst with rfl | ⟨rfl, h⟩
      · rfl
      · rcases h with h | ⟨e, l, h⟩
        · exact hskip pos h
        · have := (List.cons.inj h).1
          have : a = pos := congrArg Prod.fst this
          omega
    · rw [if_neg hlt]
      simp only [List.flatten_nil, nonSpace, List.filter_nil, List.nil_append]
      have hap : a = pos ∨ (a = pos + 1 ∧ followedBySpace cc s pos ((a, b) :: ms)) := by
        rcases hst with rfl | ⟨rfl, h⟩
        · left; omega
        · by_cases ha : a = pos
          · exact .inl ha
          · exact .inr ⟨by omega, h⟩
      rcases hap with rfl | ⟨rfl, h⟩
      · rfl
      · rcases h with h | ⟨e, l, h⟩
        · exact hskip pos h
        · have := congrArg Prod.fst (List.cons.inj h).1
          simp only [] at this
          omega

/-- All matches are results, in order. -/
theorem extractLoop_matches (cc : CharClass) (s : Str) (spans : List (Nat × Nat)) (start : Nat) :
    (spans.map (fun m => sliceStr s m.1 m.2)).Sublist (extractLoop cc s spans start).1 := by
  induction spans generalizing start with
  | nil => exact .refl _
  | cons m ms ih =>
    obtain ⟨a, b⟩ := m
    simp only [extractLoop, List.map_cons]
    exact (List.Sublist.cons_cons _ (ih _)).trans (List.sublist_append_right _ _)

theorem strip_infix (cc : CharClass) (s : Str) : strip cc s <:+: s := by
  obtain ⟨a, b, hs, _, _⟩ := strip_decompose cc s
  exact ⟨a, b, hs.symm⟩

theorem sliceStr_infix (s : Str) (a b : Nat) : sliceStr s a b <:+: s := by
  unfold sliceStr
  exact (List.drop_suffix _ _).isInfix.trans (List.take_prefix _ _).isInfix

theorem extractLoop_infix (cc : CharClass) (s : Str) (spans : List (Nat × Nat)) (start : Nat) :
    ∀ t ∈ (extractLoop cc s spans start).1, t <:+: s := by
  induction spans generalizing start with
  | nil => simp [extractLoop]
  | cons m ms ih =>
    obtain ⟨a, b⟩ := m
    intro t ht
    simp only [extractLoop, List.mem_append, List.mem_cons] at ht
    rcases ht with ht | rfl | ht
    · split at ht
      · rw [List.mem_singleton] at ht
        subst ht
        exact (strip_infix _ _).trans (sliceStr_infix _ _ _)
      · exact absurd ht List.not_mem_nil
    · exact sliceStr_infix _ _ _
    · exact ih _ t ht

theorem extractLoop_nonSpace_sublist (cc : CharClass) (s : Str) (spans : List (Nat × Nat)) (pos start : Nat)
    (hsp : SpansFrom s.length pos spans) (hst : pos ≤ start) :
    (nonSpace cc ((extractLoop cc s spans start).1.flatten ++ s.drop (extractLoop cc s spans start).2)).Sublist
      (nonSpace cc (s.drop pos)) := by
  have hdrop : ∀ p q, p ≤ q → (nonSpace cc (s.drop q)).Sublist (nonSpace cc (s.drop p)) := by
    intro p q hpq
    refine List.Sublist.filter _ ?_
    have : s.drop q = (s.drop p).drop (q - p) := by rw [List.drop_drop]; congr 1; omega
    rw [this]
    exact List.drop_sublist _ _
  induction spans generalizing pos start with
  | nil =>
    simp only [extractLoop, List.flatten_nil, List.nil_append]
    exact hdrop _ _ hst
  | cons m ms ih =>
    obtain ⟨a, b⟩ := m
    obtain ⟨h1, h2, h3, h4⟩ := hsp
    have hih := ih b (b + 1) h4 (by omega)
    simp only [extractLoop, List.flatten_append, List.flatten_cons, List.append_assoc]
    rw [nonSpace_append, nonSpace_append]
    have h5 : (nonSpace cc (sliceStr s a b) ++ nonSpace cc ((extractLoop cc s ms (b + 1)).1.flatten ++
        s.drop (extractLoop cc s ms (b + 1)).2)).Sublist (nonSpace cc (s.drop a)) := by
      rw [← sliceStr_append_drop s a b h2, nonSpace_append cc (sliceStr s a b)]
      exact List.Sublist.append (.refl _) hih
    by_cases hlt : start < a
    · rw [if_pos hlt]
      simp only [List.flatten_cons, List.flatten_nil, List.append_nil]
      rw [nonSpace_strip]
      refine List.Sublist.trans ?_ (hdrop pos start hst)
      rw [← sliceStr_append_drop s start a (by omega), nonSpace_append cc (sliceStr s start a)]
      exact List.Sublist.append (.refl _) h5
    · rw [if_neg hlt]
      simp only [List.flatten_nil]
      exact (h5.trans (hdrop pos a h1))

/-- The characters from `lo` to before `hi` at the positions with a property. -/
def charsIn (s : Str) (p : Nat → Bool) (lo hi : Nat) : Str :=
  ((List.range' lo (hi - lo)).filter p).filterMap (fun i => s[i]?)

theorem charsIn_split (s : Str) (p : Nat → Bool) (lo mid hi : Nat) (h1 : lo ≤ mid) (h2 : mid ≤ hi) :
    charsIn s p lo hi = charsIn s p lo mid ++ charsIn s p mid hi := by
  unfold charsIn
  have e : List.range' lo (hi - lo) = List.range' lo (mid - lo) ++ List.range' mid (hi - mid) := by
    have := List.range'_append_1 (s := lo) (m := mid - lo) (n := hi - mid)
    rw [show lo + (mid - lo) = mid by omega, show mid - lo + (hi - mid) = hi - lo by omega] at this
    exact this.symm
  rw [e, List.filter_append, List.filterMap_append]

theorem charsIn_congr (s : Str) (p p' : Nat → Bool) (lo hi : Nat) (h : ∀ i, lo ≤ i → i < hi → p i = p' i) :
    charsIn s p lo hi = charsIn s p' lo hi := by
  unfold charsIn
  congr 1
  apply List.filter_congr
  intro i hi'
  rw [List.mem_range'_1] at hi'
  exact h i hi'.1 (by omega)

theorem charsIn_all (s : Str) (p : Nat → Bool) (lo hi : Nat) (hle : lo ≤ hi) (h : ∀ i, lo ≤ i → i < hi → p i = true) :
    charsIn s p lo hi = sliceStr s lo hi := by
  rw [charsIn_congr s p (fun _ => true) lo hi h]
  unfold charsIn sliceStr
  rw [List.filter_eq_self.2 (fun _ _ => rfl)]
  induction hd : hi - lo generalizing lo hi with
  | zero =>
    have : hi = lo := by omega
    subst this
    simp
  | succ n ih =>
    rw [List.range'_succ, List.filterMap_cons]
    have := ih (lo + 1) hi (by omega) (fun i h1 h2 => h i (by omega) h2) (by omega)
    rw [this]
    by_cases hl : lo < s.length
    · rw [List.getElem?_eq_getElem hl]
      have hl' : lo < (s.take hi).length := by rw [List.length_take]; omega
      rw [List.drop_eq_getElem_cons hl', List.getElem_take]
    · rw [List.getElem?_eq_none (by omega)]
      simp only []
      rw [List.drop_eq_nil_of_le (by rw [List.length_take]; omega), List.drop_eq_nil_of_le (by rw [List.length_take]; omega)]

theorem charsIn_none (s : Str) (p : Nat → Bool) (lo hi : Nat) (h : ∀ i, lo ≤ i → i < hi → p i = false) :
    charsIn s p lo hi = [] := by
  unfold charsIn
  rw [List.filter_eq_nil_iff.2, List.filterMap_nil]
  intro i hi'
  rw [List.mem_range'_1] at hi'
  rw [h i hi'.1 (by omega)]
  simp

/-- Which positions are kept, from `pos` on, where `e` says if `pos` is directly behind a match. -/
def keptFrom (e : Bool) (pos : Nat) (spans : List (Nat × Nat)) (i : Nat) : Bool :=
  !((e && decide (i = pos) || spans.any (fun m => decide (m.2 = i))) &&
    !spans.any (fun m => decide (m.1 ≤ i) && decide (i < m.2)))

theorem spansFrom_ge {n : Nat} : ∀ {spans : List (Nat × Nat)} {pos : Nat}, SpansFrom n pos spans →
    ∀ m ∈ spans, pos ≤ m.1 ∧ m.1 ≤ m.2 ∧ m.2 ≤ n
  | [], _, _, m, hm => by cases hm
  | (a, b) :: l, pos, ⟨h1, h2, h3, h4⟩, m, hm => by
    rcases List.mem_cons.1 hm with rfl | hm
    · exact ⟨h1, h2, h3⟩
    · have := spansFrom_ge h4 m hm
      exact ⟨by omega, this.2⟩

theorem any_false_of {α : Type} {l : List α} {p : α → Bool} (h : ∀ x ∈ l, p x = false) : l.any p = false := by
  rw [List.any_eq_false]
  intro x hx
  rw [h x hx]
  simp

/-- The characters before the first match. -/
theorem charsIn_gap (s : Str) (e : Bool) (pos start : Nat) (spans : List (Nat × Nat)) (hst : start = if e then pos + 1 else pos)
    (a : Nat) (h1 : pos ≤ a) (h2 : a ≤ s.length) (hm : ∀ m ∈ spans, a ≤ m.1 ∧ m.1 ≤ m.2) :
    charsIn s (keptFrom e pos spans) pos a = if start < a then sliceStr s start a else [] := by
  have hin : ∀ i, i < a → spans.any (fun m => decide (m.1 ≤ i) && decide (i < m.2)) = false := by
    intro i hi
    refine any_false_of (fun m hmm => ?_)
    have := hm m hmm
    simp only [Bool.and_eq_false_iff, decide_eq_false_iff_not]
    omega
  have hen : ∀ i, i < a → spans.any (fun m => decide (m.2 = i)) = false := by
    intro i hi
    refine any_false_of (fun m hmm => ?_)
    have := hm m hmm
    simp only [decide_eq_false_iff_not]
    omega
  have hk : ∀ i, i < a → keptFrom e pos spans i = !(e && decide (i = pos)) := by
    intro i hi
    unfold keptFrom
    rw [hin i hi, hen i hi]
    simp
  cases e with
  | false =>
    simp only [Bool.false_eq_true, if_false] at hst
    subst hst
    rw [charsIn_all s _ start a h1 (fun i _ hi => by rw [hk i hi]; simp)]
    split
    · rfl
    · unfold sliceStr
      rw [List.drop_eq_nil_of_le (by rw [List.length_take]; omega)]
  | true =>
    simp only [if_true] at hst
    subst hst
    by_cases hlt : pos < a
    · rw [charsIn_split s _ pos (pos + 1) a (by omega) (by omega)]
      rw [charsIn_none s _ pos (pos + 1) (fun i h3 h4 => by
        rw [hk i (by omega)]
        have : i = pos := by omega
        simp [this])]
      rw [charsIn_all s _ (pos + 1) a (by omega) (fun i h3 hi => by
        rw [hk i hi]
        have : i ≠ pos := by omega
        simp [this])]
      split
      · rfl
      · unfold sliceStr
        rw [List.drop_eq_nil_of_le (by rw [List.length_take]; omega)]
        rfl
    · have : a = pos := by omega
      subst this
      rw [if_neg (by omega)]
      unfold charsIn
      simp

/-- Exactly the characters directly behind a match are lost, unless the next match begins there. -/
theorem extractLoop_exact (cc : CharClass) (s : Str) (spans : List (Nat × Nat)) (pos start : Nat) (e : Bool)
    (hsp : SpansFrom s.length pos spans) (hpos : pos ≤ s.length) (hst : start = if e then pos + 1 else pos) :
    nonSpace cc ((extractLoop cc s spans start).1.flatten ++ s.drop (extractLoop cc s spans start).2) =
      nonSpace cc (charsIn s (keptFrom e pos spans) pos s.length) := by
  induction spans generalizing pos start e with
  | nil =>
    have := charsIn_gap s e pos start [] hst s.length hpos (Nat.le_refl _) (by intro m hm; cases hm)
    rw [this]
    simp only [extractLoop, List.flatten_nil, List.nil_append]
    split
    · unfold sliceStr
      rw [List.take_length]
    · rw [List.drop_eq_nil_of_le (by omega)]
  | cons m ms ih =>
    obtain ⟨a, b⟩ := m
    obtain ⟨h1, h2, h3, h4⟩ := hsp
    have hge := spansFrom_ge h4
    have hih := ih b (b + 1) true h4 h3 rfl
    · simp only [extractLoop, List.flatten_append, List.flatten_cons, List.append_assoc]
      rw [nonSpace_append, nonSpace_append, hih]
      have hg := charsIn_gap s e pos start ((a, b) :: ms) hst a h1 (by omega) (by
        intro m hm
        rcases List.mem_cons.1 hm with rfl | hm
        · exact ⟨Nat.le_refl _, h2⟩
        · have := hge m hm; omega)
      rw [charsIn_split s _ pos a s.length h1 (by omega), charsIn_split s _ a b s.length h2 h3, hg]
      rw [charsIn_all s _ a b h2 (fun i g1 g2 => by
        unfold keptFrom
        have : ((a, b) :: ms).any (fun m => decide (m.1 ≤ i) && decide (i < m.2)) = true :=
          List.any_eq_true.2 ⟨(a, b), List.mem_cons_self, by simp; omega⟩
        rw [this]; simp)]
      have hlast : charsIn s (keptFrom e pos ((a, b) :: ms)) b s.length = charsIn s (keptFrom true b ms) b s.length := by
        apply charsIn_congr
        intro i g1 g2
        unfold keptFrom
        rw [List.any_cons, List.any_cons]
        have e1 : (decide (a ≤ i) && decide (i < b)) = false := by
          simp only [Bool.and_eq_false_iff, decide_eq_false_iff_not]; omega
        have e2 : (e && decide (i = pos) || (decide (b = i) || ms.any (fun m => decide (m.2 = i)))) =
            (true && decide (i = b) || ms.any (fun m => decide (m.2 = i))) := by
          by_cases hib : i = b
          · simp [hib]
          · have : i ≠ pos := by omega
            have : ¬ b = i := fun h => hib h.symm
            simp [*]
        simp only []
        rw [e1, e2, Bool.false_or]
      rw [hlast, nonSpace_append, nonSpace_append]
      congr 1
      split
      · simp only [List.flatten_cons, List.flatten_nil, List.append_nil, nonSpace_strip]
      · rfl

/-- The pieces of `extract_using_regex`, without the full text. -/
def extractPieces (cc : CharClass) (s : Str) (spans : List (Nat × Nat)) : List Str :=
  (extractLoop cc s spans 0).1 ++ (if (extractLoop cc s spans 0).2 < s.length then
    [strip cc (s.drop (extractLoop cc s spans 0).2)] else [])

theorem extractUsingRegex_cons (cc : CharClass) (s : Str) (m : Nat × Nat) (ms : List (Nat × Nat)) :
    extractUsingRegex cc s (m :: ms) = if (extractPieces cc s (m :: ms)).length = 1 then
      extractPieces cc s (m :: ms) else extractPieces cc s (m :: ms) ++ [s] := rfl

theorem extractPieces_flatten (cc : CharClass) (s : Str) (spans : List (Nat × Nat)) :
    nonSpace cc (extractPieces cc s spans).flatten =
      nonSpace cc ((extractLoop cc s spans 0).1.flatten ++ s.drop (extractLoop cc s spans 0).2) := by
  unfold extractPieces
  rw [List.flatten_append, nonSpace_append, nonSpace_append]
  congr 1
  split
  · simp only [List.flatten_cons, List.flatten_nil, List.append_nil, nonSpace_strip]
  · rw [List.drop_eq_nil_of_le (by omega)]; rfl

end Verif
