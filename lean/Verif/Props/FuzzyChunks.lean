/-
C37, C38, C55, C62: which characters do not count, perfect scores, whole words and chunks.
-/
import Verif.Spec.FuzzyChunks
import Verif.Props.FuzzySearch

namespace Verif
open Spec

/-! ## C55 Which characters do not count -/

theorem getElem?_mid (before after : Str) (c : Char) : (before ++ c :: after)[before.length]? = some c := by
  rw [List.getElem?_append_right (Nat.le_refl _), Nat.sub_self]; rfl

theorem exists_last_other (s : Str) : (∀ y ∈ s, y = ' ') ∨ ∃ start x spaces, s = start ++ x :: spaces ∧ x ≠ ' ' ∧ ∀ y ∈ spaces, y = ' ' := by
  induction s with
  | nil => exact .inl (by simp)
  | cons a s ih =>
    rcases ih with h | ⟨start, x, spaces, rfl, hx, hs⟩
    · by_cases ha : a = ' '
      · left
        intro y hy
        rcases List.mem_cons.mp hy with rfl | hy
        · exact ha
        · exact h y hy
      · exact .inr ⟨[], a, s, rfl, ha, h⟩
    · exact .inr ⟨a :: start, x, spaces, rfl, hx, hs⟩

theorem prev_of_split (start spaces : Str) (x : Char) (hx : x ≠ ' ') (hs : ∀ y ∈ spaces, y = ' ') :
    ((start ++ x :: spaces).reverse.dropWhile (fun c => decide (c = ' '))).head? = some x := by
  rw [List.reverse_append, List.reverse_cons, List.append_assoc, List.dropWhile_append_of_pos (by
    intro y hy
    exact decide_eq_true (hs y (List.mem_reverse.mp hy)))]
  simp [hx]

/-- C55: the characters the search does not count. -/
theorem C55_search_junk (cc : CharClass) (hsp : cc.isAlpha ' ' = false) (before after : Str) (c : Char) :
    defaultIsJunk cc (before ++ c :: after) before.length = true ↔ IgnoredBySearch cc before c := by
  unfold defaultIsJunk IgnoredBySearch
  rw [getElem?_mid, List.take_left]
  rcases exists_last_other before with h | ⟨start, x, spaces, rfl, hx, hs⟩
  · have hp : (before.reverse.dropWhile (fun c => decide (c = ' '))).head? = none := by
      rw [List.head?_eq_none_iff]
      have := List.dropWhile_append_of_pos (p := fun c => decide (c = ' ')) (l₁ := before.reverse) (l₂ := [])
        (by intro y hy; exact decide_eq_true (h y (List.mem_reverse.mp hy)))
      simpa using this
    rw [hp]
    have hno : ¬ ∃ start x spaces, before = start ++ x :: spaces ∧ (∀ y ∈ spaces, y = ' ') ∧
        (c = ',' ∧ x = '.' ∨ c = '.' ∧ cc.isAlpha x = true) := by
      rintro ⟨start, x, spaces, rfl, _, h2⟩
      have : x = ' ' := h x (by simp)
      subst this
      rcases h2 with ⟨_, h2⟩ | ⟨_, h2⟩
      · exact absurd h2 (by decide)
      · rw [hsp] at h2; cases h2
    simp only [hno, or_false]
    simp
  · rw [prev_of_split _ _ _ hx hs]
    have hiff : (∃ start' x' spaces', start ++ x :: spaces = start' ++ x' :: spaces' ∧ (∀ y ∈ spaces', y = ' ') ∧
        (c = ',' ∧ x' = '.' ∨ c = '.' ∧ cc.isAlpha x' = true)) ↔ (c = ',' ∧ x = '.' ∨ c = '.' ∧ cc.isAlpha x = true) := by
      constructor
      · rintro ⟨start', x', spaces', he, hs', h2⟩
        have hx' : x' ≠ ' ' := by
          rintro rfl
          rcases h2 with ⟨_, h2⟩ | ⟨_, h2⟩
          · exact absurd h2 (by decide)
          · rw [hsp] at h2; cases h2
        have := prev_of_split start' spaces' x' hx' hs'
        rw [← he, prev_of_split _ _ _ hx hs] at this
        cases this
        exact h2
      · intro h
        exact ⟨start, x, spaces, rfl, hs, h⟩
    rw [hiff]
    by_cases h1 : c = '*' <;> by_cases h2 : c = ' ' <;> by_cases h3 : c = ',' <;> by_cases h4 : c = '.' <;> simp_all

/-- C55: the characters the comparison of the other tools does not count. -/
theorem C55_comparison_junk (cc : CharClass) (before after : Str) (c : Char) :
    coreIsJunk cc (before ++ c :: after) before.length = true ↔ IgnoredByComparison cc before c := by
  unfold coreIsJunk IgnoredByComparison
  rw [getElem?_mid]
  rcases List.eq_nil_or_concat before with rfl | ⟨start, x, rfl⟩
  · simp
  · have h1 : (start ++ [x]).length - 1 = start.length := by simp
    have h2 : (start ++ [x] ++ c :: after)[start.length]? = some x := by
      rw [List.append_assoc]; exact getElem?_mid start (c :: after) x
    rw [List.concat_eq_append, h1, h2]
    have hiff : (∃ start' x', start ++ [x] = start' ++ [x'] ∧ (c = x' ∨ (c = ' ' ∨ c = ',') ∧ x' = '.' ∨ c = '.' ∧ cc.isAlpha x' = true)) ↔
        (c = x ∨ (c = ' ' ∨ c = ',') ∧ x = '.' ∨ c = '.' ∧ cc.isAlpha x = true) := by
      constructor
      · rintro ⟨s', x', he, h⟩
        have := (List.append_inj' he rfl).2
        cases this
        exact h
      · intro h; exact ⟨start, x, rfl, h⟩
    rw [hiff]
    simp only [List.length_append, List.length_singleton, Nat.zero_lt_succ, decide_true, Bool.true_and, Option.map_some, Option.getD_some,
      Bool.or_eq_true, Bool.and_eq_true, beq_iff_eq, Option.some.injEq]
    constructor
    · rintro (((⟨h, h'⟩ | ⟨h, h'⟩) | h) | h)
      · exact .inr (.inr (.inl ⟨h', h⟩))
      · exact .inr (.inr (.inr ⟨h', h⟩))
      · exact .inr (.inl h.symm)
      · exact .inl h
    · rintro (h | h | ⟨h, h'⟩ | ⟨h, h'⟩)
      · exact .inr h
      · exact .inl (.inr h.symm)
      · exact .inl (.inl (.inl ⟨h', h⟩))
      · exact .inl (.inl (.inr ⟨h', h⟩))

example : IgnoredBySearch asciiClass c!"J . " ',' ∧ IgnoredByComparison asciiClass c!"J." ',' :=
  ⟨.inr (.inr ⟨c!"J ", '.', c!" ", rfl, by simp, .inl ⟨rfl, rfl⟩⟩), .inr ⟨c!"J", '.', rfl, .inr (.inl ⟨.inr rfl, rfl⟩)⟩⟩

/-! ## C37 Perfect scores -/

theorem countIn_pos {lo hi : Nat} {p : Nat → Bool} : countIn lo hi p = 0 ↔ ∀ i, lo ≤ i → i < hi → p i = false := by
  constructor
  · intro h i h1 h2
    have h' : ((List.range' lo (hi - lo)).filter p) = [] := List.length_eq_zero_iff.mp h
    have hm : i ∈ List.range' lo (hi - lo) := List.mem_range'_1.mpr ⟨h1, by omega⟩
    have := List.filter_eq_nil_iff.mp h' i hm
    simpa using this
  · exact countIn_false lo hi p

/-- C37: the score of the search is 1 exactly if something is matched and everything not matched, in the value
and between the first and the last matched character of the text, are characters that do not count. -/
theorem C37_perfect (r : FuzzyResult) (h : Consistent r.a r.b r.blocks) :
    r.bGapRatioFixed = 1 ↔ 0 < total r.blocks ∧
      (∀ i, i < r.b.length → covered (bPart r.blocks) i = true ∨ r.isJunk r.b i = true) ∧
      (∀ i, r.aRange.1 ≤ i → i < r.aRange.2 → covered (aPart r.blocks) i = true ∨ r.isJunk r.a i = true) := by
  have hmc : r.matchCount = total r.blocks := rfl
  have hcov : countIn 0 r.b.length (covered (bPart r.blocks)) = total r.blocks := by
    have := countIn_covered (bPart r.blocks) 0 r.b.length h.bOrd (by intros; omega) (by
      intro q hq
      obtain ⟨x, hx, rfl⟩ := List.mem_map.mp hq
      exact h.bIn x hx)
    rw [this, total, bPart, List.map_map]
    congr 1
    apply List.map_congr_left
    intro x _
    simp
  have h4 := countIn_not 0 r.b.length (covered (bPart r.blocks))
  have h5 : countIn 0 r.b.length (fun i => !covered (bPart r.blocks) i) =
      countIn 0 r.b.length (fun i => r.isJunk r.b i && !covered (bPart r.blocks) i) +
      countIn 0 r.b.length (fun i => !r.isJunk r.b i && !covered (bPart r.blocks) i) := by
    unfold countIn
    generalize List.range' 0 (r.b.length - 0) = l
    induction l with
    | nil => rfl
    | cons i l ih =>
      rw [List.filter_cons, List.filter_cons, List.filter_cons]
      cases r.isJunk r.b i <;> cases covered (bPart r.blocks) i <;> simp <;> omega
  have hB : countIn 0 r.b.length (fun i => !r.isJunk r.b i && !covered (bPart r.blocks) i) = 0 ↔
      ∀ i, i < r.b.length → covered (bPart r.blocks) i = true ∨ r.isJunk r.b i = true := by
    rw [countIn_pos]
    constructor
    · intro hh i hi
      have := hh i (Nat.zero_le _) hi
      cases h1 : r.isJunk r.b i <;> cases h2 : covered (bPart r.blocks) i <;> simp_all
    · intro hh i _ hi
      rcases hh i hi with e | e <;> simp [e]
  have hA : countIn r.aRange.1 r.aRange.2 (fun i => !r.isJunk r.a i && !covered (aPart r.blocks) i) = 0 ↔
      ∀ i, r.aRange.1 ≤ i → i < r.aRange.2 → covered (aPart r.blocks) i = true ∨ r.isJunk r.a i = true := by
    rw [countIn_pos]
    constructor
    · intro hh i hl hi
      have := hh i hl hi
      cases h1 : r.isJunk r.a i <;> cases h2 : covered (aPart r.blocks) i <;> simp_all
    · intro hh i hl hi
      rcases hh i hl hi with e | e <;> simp [e]
  rw [Props.C37_search_score_value r h, ← hB, ← hA]
  generalize hx : countIn 0 r.b.length (fun i => !r.isJunk r.b i && !covered (bPart r.blocks) i) = x at h5
  generalize hy : countIn r.aRange.1 r.aRange.2 (fun i => !r.isJunk r.a i && !covered (aPart r.blocks) i) = y
  generalize hj : countIn 0 r.b.length (fun i => r.isJunk r.b i && !covered (bPart r.blocks) i) = j at h5
  rw [show r.b.length - j + y = r.matchCount + (x + y) by omega]
  unfold FuzzyResult.ratioTo
  rw [hmc]
  generalize total r.blocks = m
  by_cases h0 : m + (x + y) = 0
  · rw [if_pos (by omega)]
    constructor
    · intro hh; exact absurd hh (by decide)
    · intro hh; omega
  · rw [if_neg (by omega)]
    have hcast : (((m + (x + y) : Nat) : Int) : Rat) = ((m + (x + y) : Nat) : Rat) := rfl
    rw [hcast]
    constructor
    · intro hh
      have hne : ((m + (x + y) : Nat) : Rat) ≠ 0 := by exact_mod_cast h0
      have h1 : (m : Rat) = ((m + (x + y) : Nat) : Rat) := by
        have h2 := congrArg (· * ((m + (x + y) : Nat) : Rat)) hh
        rw [Rat.div_mul_cancel hne, Rat.one_mul] at h2
        exact h2
      have h2 : m = m + (x + y) := by exact_mod_cast h1
      omega
    · rintro ⟨h1, h2, h3⟩
      have h0' : (m : Rat) ≠ 0 := by
        have : m ≠ 0 := by omega
        exact_mod_cast this
      rw [show m + (x + y) = m by omega, Rat.div_def, Rat.mul_inv_cancel _ h0']

/-- Non-vacuity: the title without its full stops and asterisk. -/
example : let r : FuzzyResult := ⟨c!"see Smith J, K.* now", c!"Smith J. K", [⟨4, 0, 7⟩, ⟨13, 9, 1⟩], defaultIsJunk asciiClass⟩
    r.bGapRatioFixed < 1 ∧ (FuzzyResult.bGapRatioFixed ⟨c!"see Smith J. K now", c!"Smith J K", [⟨4, 0, 7⟩, ⟨13, 8, 1⟩], defaultIsJunk asciiClass⟩) = 1 := by
  decide +kernel

/-! ## C62 Whole words -/

theorem splitLoop_adjacent (sep : List Char) (prev : Nat) (cur s : Str) (p q : List (Nat × Str)) (x y : Nat × Str)
    (h : splitWithOffsetLoop sep prev cur s = p ++ x :: y :: q) :
    (∃ c, x.2 = [c] ∧ c ∈ sep) ∨ ∃ c, y.2 = [c] ∧ c ∈ sep := by
  induction s generalizing prev cur p with
  | nil =>
    unfold splitWithOffsetLoop at h
    have := congrArg List.length h
    split at this <;> simp at this <;> omega
  | cons c s ih =>
    unfold splitWithOffsetLoop at h
    split at h
    · next hc =>
      have hc : c ∈ sep := by simpa using hc
      simp only at h
      split at h
      · rw [List.nil_append] at h
        cases p with
        | nil =>
          rw [List.nil_append, List.cons.injEq] at h
          exact .inl ⟨c, by rw [← h.1], hc⟩
        | cons p0 p =>
          rw [List.cons_append, List.cons.injEq] at h
          exact ih _ _ p h.2
      · rw [List.cons_append, List.nil_append] at h
        cases p with
        | nil =>
          rw [List.nil_append, List.cons.injEq, List.cons.injEq] at h
          exact .inr ⟨c, by rw [← h.2.1], hc⟩
        | cons p0 p =>
          rw [List.cons_append, List.cons.injEq] at h
          cases p with
          | nil =>
            rw [List.nil_append, List.cons.injEq] at h
            exact .inl ⟨c, by rw [← h.2.1], hc⟩
          | cons p1 p =>
            rw [List.cons_append, List.cons.injEq] at h
            exact ih _ _ p h.2.2
    · exact ih _ _ p h

theorem wordStart_boundary (s : Str) (k : Nat) : ¬ InsideWord s (wordStart (splitWithOffset wordSeparators s) k) := by
  rintro ⟨before, u, v, after, hs, hi, hu, hv⟩
  have hsep : ∀ c ∈ wordSeparators, c.isAlphanum = false := by decide
  obtain ⟨hflat, _, hkind⟩ := Props.C62_words wordSeparators s
  generalize hW : splitWithOffset wordSeparators s = W at *
  have hle : wordStart W W.length = s.length := by
    unfold wordStart
    rw [List.take_length, ← hflat, length_flatten_words]
  have hlen : s.length = before.length + 1 + 1 + after.length := by rw [hs]; simp; omega
  have hk : k < W.length := by
    apply Classical.byContradiction
    intro hk
    have := wordStart_mono W W.length k (by omega)
    omega
  cases k with
  | zero => unfold wordStart at hi; simp at hi
  | succ k =>
    have hsplit : W = W.take k ++ W[k] :: W[k + 1] :: W.drop (k + 2) := by
      rw [← List.drop_eq_getElem_cons (by omega : k + 1 < W.length), ← List.drop_eq_getElem_cons (by omega : k < W.length), List.take_append_drop]
    have hadj := splitLoop_adjacent wordSeparators 0 [] s (W.take k) (W.drop (k + 2)) W[k] W[k + 1] (by
      rw [← hsplit]; exact hW)
    have hw1 : W[k].2 ≠ [] := by
      rcases hkind _ (List.getElem_mem (by omega : k < W.length)) with ⟨c, hc, _⟩ | ⟨h1, _⟩
      · rw [hc]; exact List.cons_ne_nil _ _
      · exact h1
    have hw2 : W[k + 1].2 ≠ [] := by
      rcases hkind _ (List.getElem_mem hk) with ⟨c, hc, _⟩ | ⟨h1, _⟩
      · rw [hc]; exact List.cons_ne_nil _ _
      · exact h1
    have hst : before ++ u :: v :: after = ((W.take k).map Prod.snd).flatten ++ W[k].2 ++ (W[k + 1].2 ++ ((W.drop (k + 2)).map Prod.snd).flatten) := by
      rw [← hs, ← hflat]
      conv => lhs; rw [hsplit]
      rw [List.map_append, List.flatten_append, List.map_cons, List.map_cons, List.flatten_cons, List.flatten_cons, List.append_assoc]
    have hlen2 : (((W.take k).map Prod.snd).flatten ++ W[k].2).length = before.length + 1 := by
      rw [← hi]
      unfold wordStart
      rw [List.take_succ_eq_append_getElem (by omega), List.map_append, List.sum_append, List.length_append, length_flatten_words]
      simp
    have hst2 : (before ++ [u]) ++ (v :: after) = (((W.take k).map Prod.snd).flatten ++ W[k].2) ++ (W[k + 1].2 ++ ((W.drop (k + 2)).map Prod.snd).flatten) := by
      rw [← hst]; simp
    obtain ⟨e1, e2⟩ := List.append_inj hst2 (by rw [hlen2]; simp)
    rcases hadj with ⟨c, hc, hm⟩ | ⟨c, hc, hm⟩
    · rw [hc] at e1
      have := (List.append_inj' e1 rfl).2
      cases this
      rw [hsep _ hm] at hu; cases hu
    · rw [hc] at e2
      cases e2
      rw [hsep _ hm] at hv; cases hv

/-- C62: when words are compared, a match never starts or ends inside a word. -/
theorem C62_whole_words (diff : List Str → List Str → List Block)
    (hd : ∀ a b, Consistent a b (diff a b) ∧ Aligned a b (diff a b)) (a b : Str) :
    ∃ bs, wordBlocks diff a b = .ok bs ∧ ∀ x ∈ bs, ¬ InsideWord a x.a ∧ ¬ InsideWord a (x.a + x.size) ∧ ¬ InsideWord b x.b := by
  have h := hd ((splitWithOffset wordSeparators a).map Prod.snd) ((splitWithOffset wordSeparators b).map Prod.snd)
  refine ⟨_, wordBlocks_ok diff a b h.1, ?_⟩
  intro x hx
  obtain ⟨y, _, rfl⟩ := List.mem_map.mp hx
  refine ⟨wordStart_boundary a y.a, ?_, wordStart_boundary b y.b⟩
  have hm := wordStart_mono (splitWithOffset wordSeparators a) y.a (y.a + y.size) (by omega)
  have : (charBlock (splitWithOffset wordSeparators a) (splitWithOffset wordSeparators b) y).a +
      (charBlock (splitWithOffset wordSeparators a) (splitWithOffset wordSeparators b) y).size =
      wordStart (splitWithOffset wordSeparators a) (y.a + y.size) := by
    simp only [charBlock]; omega
  rw [this]
  exact wordStart_boundary a _

example : InsideWord c!"abcd" 2 ∧ okAnd (wordBlocks Props.prefixMatcher c!"a cat" c!"a car") (fun bs => bs = [⟨0, 0, 2⟩]) = true :=
  ⟨⟨c!"a", 'b', 'c', c!"d", rfl, rfl, by decide, by decide⟩, by decide +kernel⟩

/-! ## C38 Chunks -/

/-- C38: the first chunk of a match is the longest acceptable part of its blocks, among those with at most the
given number of blocks; blocks without characters end the search for it. -/
theorem C38_first_chunk (env : StridedEnv) (haystack needle : Str) (bs : List Block) (n : Nat)
    (hb : ∀ x ∈ bs, 0 < x.size) (hn : n ≤ bs.length) :
    (firstChunk env haystack needle bs n = [] ∧ ∀ j, 0 < j → j ≤ n → ¬ GoodStart env haystack needle (bs.take j)) ∨
    ∃ j, 0 < j ∧ j ≤ n ∧ firstChunk env haystack needle bs n = bs.take j ∧ GoodStart env haystack needle (bs.take j) ∧
      ∀ i, j < i → i ≤ n → ¬ GoodStart env haystack needle (bs.take i) := by
  induction n with
  | zero => exact .inl ⟨rfl, fun j h1 h2 => by omega⟩
  | succ n ih =>
    have hlast : ∃ x, (bs.take (n + 1)).getLast? = some x ∧ x ∈ bs := by
      have hne : bs.take (n + 1) ≠ [] := by
        intro h
        have := congrArg List.length h
        rw [List.length_take] at this
        simp at this
        have : bs.length = 0 := by rw [this]; rfl
        omega
      exact ⟨_, List.getLast?_eq_some_getLast hne, List.mem_of_mem_take (List.getLast_mem hne)⟩
    obtain ⟨x, hx, hxm⟩ := hlast
    have hsz := hb x hxm
    have he : blocksEnd (bs.take (n + 1)) = x.b + x.size := by
      unfold blocksEnd
      rw [hx]
      simp only
      rw [if_neg (by omega)]
    unfold firstChunk
    simp only
    rw [he, if_neg (by omega)]
    by_cases ht : env.threshold ≤ env.gap haystack (needle.take (x.b + x.size)) (bs.take (n + 1))
    · rw [if_pos ht]
      exact .inr ⟨n + 1, by omega, Nat.le_refl _, rfl, ⟨x, hx, hsz, ht⟩, fun i h1 h2 => by omega⟩
    · rw [if_neg ht]
      have hnot : ¬ GoodStart env haystack needle (bs.take (n + 1)) := by
        rintro ⟨x', hx', _, h'⟩
        rw [hx] at hx'
        cases hx'
        exact ht h'
      rcases ih (by omega) with ⟨h1, h2⟩ | ⟨j, h1, h2, h3, h4, h5⟩
      · refine .inl ⟨h1, ?_⟩
        intro j hj1 hj2
        by_cases e : j = n + 1
        · rw [e]; exact hnot
        · exact h2 j hj1 (by omega)
      · refine .inr ⟨j, h1, by omega, h3, h4, ?_⟩
        intro i hi1 hi2
        by_cases e : i = n + 1
        · rw [e]; exact hnot
        · exact h5 i hi1 (by omega)

/-- C38: the last chunk of a match is the longest acceptable end of its blocks. -/
theorem C38_last_chunk (env : StridedEnv) (haystack needle : Str) (bs : List Block) (hb : ∀ x ∈ bs, 0 < x.size) :
    (lastChunk env haystack needle bs = [] ∧ ∀ j, ¬ GoodEnd env haystack needle (bs.drop j)) ∨
    ∃ j, lastChunk env haystack needle bs = bs.drop j ∧ GoodEnd env haystack needle (bs.drop j) ∧
      ∀ i, i < j → ¬ GoodEnd env haystack needle (bs.drop i) := by
  induction bs with
  | nil =>
    refine .inl ⟨rfl, ?_⟩
    rintro j ⟨x, rest, h, _⟩
    simp at h
  | cons x bs ih =>
    have hsz := hb x List.mem_cons_self
    unfold lastChunk
    have hst : blocksStart (x :: bs) = some x.b := by
      unfold blocksStart
      simp only [List.head?_cons]
      rw [if_neg (by omega)]
    rw [hst]
    simp only
    by_cases ht : env.threshold ≤ env.gap haystack (needle.drop x.b) (offsetBlocksBack x.b (x :: bs))
    · rw [if_pos ht]
      exact .inr ⟨0, rfl, ⟨x, bs, rfl, hsz, ht⟩, fun i h => by omega⟩
    · rw [if_neg ht]
      have hnot : ¬ GoodEnd env haystack needle (x :: bs) := by
        rintro ⟨x', rest, h, _, h'⟩
        cases h
        exact ht h'
      rcases ih (fun y hy => hb y (List.mem_cons_of_mem _ hy)) with ⟨h1, h2⟩ | ⟨j, h1, h2, h3⟩
      · refine .inl ⟨h1, ?_⟩
        intro j
        cases j with
        | zero => exact hnot
        | succ j => exact h2 j
      · refine .inr ⟨j + 1, h1, h2, ?_⟩
        intro i hi
        cases i with
        | zero => exact hnot
        | succ i => exact h3 i (by omega)

/-- Non-vacuity: two blocks, of which the first one is acceptable. -/
example : let env : StridedEnv := ⟨Props.prefixMatcher, fun _ _ => false, 9/10, 100, 100⟩
    firstChunk env c!"abcd xxxxxxxxxx efgh" c!"abcdefgh" [⟨0, 0, 4⟩, ⟨16, 4, 4⟩] 2 = [⟨0, 0, 4⟩] ∧
    lastChunk env c!"abcd xxxxxxxxxx efgh" c!"abcdefgh" [⟨0, 0, 4⟩, ⟨16, 4, 4⟩] = [⟨16, 4, 4⟩] := by decide +kernel

end Verif
