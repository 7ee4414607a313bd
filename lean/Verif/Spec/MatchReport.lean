/-
Specification of the report of comparisons.
-/
import Verif.Model.MatchReport
import Verif.Spec.Fuzzy

namespace Verif.Spec

/-- A row and the matches found by its comparison: none if it was not accepted, otherwise one in the current choice and
possibly one in the next choice. -/
def RowMatches (text : CoreSeq → Str) (row : ReportRow) (found : List SeqMatch) : Prop :=
  (row.accepted = false ∧ found = []) ∨
  (row.accepted = true ∧ ∃ m, text m.seq = row.choice ∧
    (found = [m] ∨ ∃ m', row.next = some (text m'.seq) ∧ found = [m, m']))

/-- Each row starts in the value where the one before it has ended. -/
def RowsChained : Nat → List ReportRow → Prop
  | _, [] => True
  | n, row :: rows => row.start = n ∧ RowsChained row.nextStart rows

/-- What a row says on its own: the value is divided at the start, the text compared are the choice and the next choice,
and nothing is left of the value only if the comparison was accepted. -/
def RowSound (ctx : ReportCtx) (value : Str) (row : ReportRow) : Prop :=
  row.tag = ctx.tag ∧ row.matchMultiple = ctx.matchMultiple ∧ row.sub = ctx.isSub ∧
  row.pre = value.take row.start ∧ row.current = value.drop row.start ∧
  row.combined = (match row.next with | none => row.choice | some n => row.choice ++ ' ' :: n) ∧
  (row.reachedEnd = some true → row.accepted = true) ∧
  (row.tagToChoice = true ↔ ctx.isSub = true ∨ value.length < row.start + row.choice.length)

/-- The rows of the search for one value: they explain all matches found, and the search is over with the first row
which has reached the end of the value, or has accepted a choice longer than the rest of it. -/
structure SearchRows (ctx : ReportCtx) (value : Str) (text : CoreSeq → Str) (choices : List CoreSeq)
    (rows : List ReportRow) (found : List SeqMatch) : Prop where
  explained : ∃ groups : List (List SeqMatch), found = groups.flatten ∧ groups.length = rows.length ∧
    ∀ p ∈ rows.zip groups, RowMatches text p.1 p.2
  chained : RowsChained 0 rows
  sound : ∀ row ∈ rows, RowSound ctx value row
  choices : (rows.map (·.choice)).Sublist (choices.map text)
  over : ∀ row ∈ rows.dropLast, row.reachedEnd ≠ some true ∧ ¬ (row.accepted = true ∧ row.tagToChoice = true)

/-- The texts of a value. -/
def valueTexts : TargetValue → List Str
  | .one s => [s]
  | .many ss => ss

/-- The rows of a search made for one of the target annotations: for one of the texts of its value, or for one of those of
a sub annotation. -/
def SearchOf (env : CoreEnv) (targets : List CoreTarget) (rows : List ReportRow) : Prop :=
  ∃ t ∈ targets,
    (∃ v ∈ valueTexts t.value, ∃ d choices found, SearchRows ⟨t.name, t.matchMultiple, false⟩ (coreNormalise env v)
      (coreSeqText env (coreNormalise env) d) choices rows found) ∨
    (∃ s ∈ t.subs, ∃ v ∈ valueTexts s.value, ∃ d choices found, SearchRows ⟨s.name, false, true⟩ (normaliseStr env.lower v)
      (coreSeqText env (normaliseStr env.lower) d) choices rows found)

/-- The cells of a row with its number, in the order of the columns. -/
def rowCells (id : Nat) (r : ReportRow) : List Cell :=
  [.nat id, .text r.tag, .bool r.matchMultiple, .text r.pre, .text r.current, .nat r.start, .nat r.nextStart,
   (match r.reachedEnd with | none => .missing | some b => .bool b), .text r.combined, .text r.choice,
   (match r.next with | none => .missing | some s => .text s), .bool r.accepted, .bool r.tagToChoice, .bool r.sub,
   .result r.fmCombined, .text r.fmCombined.detailedStr, .result r.fm, .text r.fm.detailedStr, .result r.fmNext,
   .text r.fmNext.detailedStr]

/-- The text for a matching block: its places in both texts and what is there. -/
def BlockShown (a b : Str) (x : Block) (item : Str) : Prop :=
  ∃ aPre aPost bPre bPost s, a = aPre ++ s ++ aPost ∧ aPre.length = x.a ∧ b = bPre ++ s ++ bPost ∧ bPre.length = x.b ∧ s.length = x.size ∧
    item = c!"(a[" ++ Nat.toDigits 10 aPre.length ++ c!":+" ++ Nat.toDigits 10 s.length ++ c!"] = b[" ++ Nat.toDigits 10 bPre.length ++ c!":+" ++
      Nat.toDigits 10 s.length ++ c!"] = \"" ++ s ++ c!"\")"

/-- The texts for the matching blocks, in order. -/
def BlocksShown (a b : Str) : List Block → List Str → Prop
  | [], [] => True
  | x :: xs, item :: items => BlockShown a b x item ∧ BlocksShown a b xs items
  | _, _ => False

end Verif.Spec
