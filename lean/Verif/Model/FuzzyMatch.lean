/-
Model of `core/annotation/fuzzy_match.py`. Positions are natural numbers: negative indices, which
Python counts from the end, are not modelled.
-/
import Verif.Model.Basic

namespace Verif

/-- A junk predicate `isjunk(s, i)`. -/
abbrev IsJunk := Str → Nat → Bool

/-- `DEFAULT_ISJUNK` (core/annotation/fuzzy_match.py:34-40), for `i` within the string. -/
def coreIsJunk (cc : CharClass) : IsJunk := fun s i =>
  (decide (0 < i) && s[i - 1]? == some '.' && (s[i]? == some ' ' || s[i]? == some ',')) ||
  (decide (0 < i) && (s[i - 1]?.map cc.isAlpha).getD false && s[i]? == some '.') ||
  (decide (0 < i) && s[i - 1]? == s[i]?) ||
  s[i]? == some '*'

/-- The loop of `remove_junk` (core/annotation/fuzzy_match.py:52-58): `result` and `start` after
the positions given. -/
def removeJunkLoop (isJunk : IsJunk) (s : Str) : Option (List Str) × Nat → List Nat → Option (List Str) × Nat
  | st, [] => st
  | (result, start), i :: is =>
    if isJunk s i then
      let r := result.getD []
      let r := if start < i then r ++ [(s.take i).drop start] else r
      removeJunkLoop isJunk s (some r, i + 1) is
    else removeJunkLoop isJunk s (result, start) is

/-- `remove_junk` (core/annotation/fuzzy_match.py:47-63). -/
def removeJunk (isJunk : IsJunk) (s : Str) : Str :=
  match removeJunkLoop isJunk s (none, 0) (List.range s.length) with
  | (none, _) => s
  | (some r, start) => (if start < s.length then r ++ [s.drop start] else r).flatten

/-- The loop of `invert_index_ranges` (core/annotation/fuzzy_match.py:66-75). -/
def invertRanges (stop : Nat) : Nat → List (Nat × Nat) → List (Nat × Nat)
  | i, [] => if i < stop then [(i, stop)] else []
  | i, (rs, re) :: ranges =>
    if stop ≤ i then []
    else if i < rs then (i, min stop rs) :: invertRanges stop re ranges
    else invertRanges stop re ranges

/-- A matching block `(ai, bi, size)`. -/
structure Block where
  a : Nat
  b : Nat
  size : Nat
  deriving DecidableEq

/-- `FuzzyMatchResult` (core/annotation/fuzzy_match.py:78-87). -/
structure FuzzyResult where
  a : Str
  b : Str
  blocks : List Block
  isJunk : IsJunk

/-- `sum(self.isjunk(s, i) for i in range(lo, hi))` (core/annotation/fuzzy_match.py:124-127). -/
def countJunkBetween (isJunk : IsJunk) (s : Str) (r : Nat × Nat) : Nat :=
  ((List.range' r.1 (r.2 - r.1)).filter (isJunk s)).length

namespace FuzzyResult

/-- `non_empty_matching_blocks` (core/annotation/fuzzy_match.py:83). -/
def nonEmpty (r : FuzzyResult) : List Block := r.blocks.filter (fun x => x.size ≠ 0)

/-- `has_match` (89-90). -/
def hasMatch (r : FuzzyResult) : Bool := decide (0 < r.nonEmpty.length)

/-- `match_count` (92-95). -/
def matchCount (r : FuzzyResult) : Nat := (r.blocks.map Block.size).sum

/-- `ratio_to` (97-100). Exact fractions instead of floats; `size` is an integer because it is
computed by subtraction. -/
def ratioTo (r : FuzzyResult) (size : Int) : Rat := if size = 0 then 0 else (r.matchCount : Rat) / (size : Rat)

/-- `a_matching_blocks` (178-179). -/
def aBlocks (r : FuzzyResult) : List (Nat × Nat) := r.nonEmpty.map (fun x => (x.a, x.a + x.size))

/-- `b_matching_blocks` (181-182). -/
def bBlocks (r : FuzzyResult) : List (Nat × Nat) := r.nonEmpty.map (fun x => (x.b, x.b + x.size))

/-- `a_index_range` (193-198) with `a_start_index` and `a_end_index` (184-191). -/
def aRange (r : FuzzyResult) : Nat × Nat :=
  match r.nonEmpty.head?, r.nonEmpty.getLast? with
  | some x, some y => (x.a, y.a + y.size)
  | _, _ => (0, 0)

/-- `b_index_range` (205-210) with `b_start_index` and `b_end_index` (200-203). -/
def bRange (r : FuzzyResult) : Nat × Nat :=
  match r.nonEmpty.head?, r.nonEmpty.getLast? with
  | some x, some y => (x.b, y.b + y.size)
  | _, _ => (0, 0)

/-- `count_non_matching_junk` (129-139). -/
def countNonMatchingJunk (r : FuzzyResult) (s : Str) (ranges : List (Nat × Nat)) (index : Option (Nat × Nat)) : Nat :=
  let index := index.getD (0, s.length)
  ((invertRanges index.2 index.1 ranges).map (countJunkBetween r.isJunk s)).sum

/-- `a_non_matching_junk_count` (147-148). -/
def aNonMatchingJunk (r : FuzzyResult) (index : Option (Nat × Nat) := none) : Nat :=
  r.countNonMatchingJunk r.a r.aBlocks index

/-- `b_non_matching_junk_count` (156-157). -/
def bNonMatchingJunk (r : FuzzyResult) (index : Option (Nat × Nat) := none) : Nat :=
  r.countNonMatchingJunk r.b r.bBlocks index

/-- `len_index_range` (core/annotation/fuzzy_match.py:29-30), which is negative for blocks in another order. -/
def rangeLen (r : Nat × Nat) : Int := (r.2 : Int) - r.1

/-- `ratio` (102-119). -/
def ratio (r : FuzzyResult) : Rat :=
  let aLen := rangeLen r.aRange
  let bLen := rangeLen r.bRange
  let maxLen := max aLen bLen
  let junk := if maxLen = aLen then r.aNonMatchingJunk (some r.aRange) else r.bNonMatchingJunk (some r.bRange)
  r.ratioTo (maxLen - junk)

/-- `a_ratio` (159-160). -/
def aRatio (r : FuzzyResult) : Rat := r.ratioTo ((r.a.length : Int) - r.aNonMatchingJunk)

/-- `b_ratio` (162-163). -/
def bRatio (r : FuzzyResult) : Rat := r.ratioTo ((r.b.length : Int) - r.bNonMatchingJunk)

/-- `b_gap_ratio` (165-176). -/
def bGapRatio (r : FuzzyResult) : Rat :=
  let aGaps := rangeLen r.aRange - r.matchCount
  r.ratioTo ((r.b.length : Int) + aGaps - r.aNonMatchingJunk (some r.aRange) - r.bNonMatchingJunk)

/-- `a_split_at` (212-233) without the optional texts. The results get the default junk predicate. -/
def aSplitAt (cc : CharClass) (r : FuzzyResult) (index : Nat) : FuzzyResult × FuzzyResult :=
  let pre := r.a.take index
  let post := r.a.drop index
  if r.nonEmpty.isEmpty || decide (r.aRange.2 ≤ index) then
    (⟨pre, r.b, r.nonEmpty, coreIsJunk cc⟩, ⟨post, r.b, [], coreIsJunk cc⟩)
  else
    (⟨pre, r.b, (r.nonEmpty.filter (fun x => decide (x.a < index))).map
        (fun x => ⟨x.a, x.b, min x.size (index - x.a)⟩), coreIsJunk cc⟩,
     ⟨post, r.b, (r.nonEmpty.filter (fun x => decide (index < x.a + x.size))).map
        (fun x => ⟨x.a - index, x.b, if index ≤ x.a then x.size else x.size + x.a - index⟩), coreIsJunk cc⟩)

/-- `b_split_at` (235-257) without the optional texts. -/
def bSplitAt (cc : CharClass) (r : FuzzyResult) (index : Nat) : FuzzyResult × FuzzyResult :=
  let pre := r.b.take index
  let post := r.b.drop index
  if r.nonEmpty.isEmpty || decide (r.bRange.2 ≤ index) then
    (⟨r.a, pre, r.nonEmpty, coreIsJunk cc⟩, ⟨r.a, post, [], coreIsJunk cc⟩)
  else
    (⟨r.a, pre, (r.nonEmpty.filter (fun x => decide (x.b < index))).map
        (fun x => ⟨x.a, x.b, min x.size (index - x.b)⟩), coreIsJunk cc⟩,
     ⟨r.a, post, (r.nonEmpty.filter (fun x => decide (index < x.b + x.size))).map
        (fun x => ⟨x.a, x.b - index, if index ≤ x.b then x.size else x.size + x.b - index⟩), coreIsJunk cc⟩)

end FuzzyResult

end Verif
