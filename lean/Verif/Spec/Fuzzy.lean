/-
Specification of matches: positions, alignment, counting.
-/
import Verif.Model.FuzzyMatch

namespace Verif.Spec

/-- The position lies in one of the index ranges. -/
def covered (ranges : List (Nat × Nat)) (p : Nat) : Bool := ranges.any (fun r => decide (r.1 ≤ p) && decide (p < r.2))

/-- The index ranges follow one another without overlap. -/
structure Ordered (ranges : List (Nat × Nat)) : Prop where
  each : ∀ r ∈ ranges, r.1 ≤ r.2
  next : ranges.Pairwise (fun r q => r.2 ≤ q.1)

/-- The number of positions from `lo` to before `hi` with a property. -/
def countIn (lo hi : Nat) (p : Nat → Bool) : Nat := ((List.range' lo (hi - lo)).filter p).length

/-- The characters which are not junk, in order. -/
def nonJunk (isJunk : IsJunk) (s : Str) : Str := (s.zipIdx.filter (fun c => !isJunk s c.2)).map Prod.fst

/-- The index ranges of the blocks in the first text. -/
def aPart (bs : List Block) : List (Nat × Nat) := bs.map (fun x => (x.a, x.a + x.size))

/-- The index ranges of the blocks in the second text. -/
def bPart (bs : List Block) : List (Nat × Nat) := bs.map (fun x => (x.b, x.b + x.size))

/-- The blocks follow one another in both texts and lie within the texts. -/
structure Consistent {α : Type} (a b : List α) (bs : List Block) : Prop where
  aOrd : Ordered (aPart bs)
  bOrd : Ordered (bPart bs)
  aIn : ∀ x ∈ bs, x.a + x.size ≤ a.length
  bIn : ∀ x ∈ bs, x.b + x.size ≤ b.length

/-- The blocks pair equal characters (or words). -/
def Aligned {α : Type} (a b : List α) (bs : List Block) : Prop :=
  ∀ x ∈ bs, ∀ k, k < x.size → ∃ c, a[x.a + k]? = some c ∧ b[x.b + k]? = some c

/-- The blocks pair a position of the first text with a position of the second one. -/
def Paired (bs : List Block) (p q : Nat) : Prop := ∃ x ∈ bs, ∃ k, k < x.size ∧ p = x.a + k ∧ q = x.b + k

/-- The number of characters matched. -/
def total (bs : List Block) : Nat := (bs.map Block.size).sum

end Verif.Spec
