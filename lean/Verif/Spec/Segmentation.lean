/-
Specification vocabulary for segmentation.
-/
import Verif.Model.Segmentation

namespace Verif.Spec

/-- The most frequent value of the list, the first one of these if there are several. -/
def IsMajority {α : Type} [DecidableEq α] (l : List α) (m : α) : Prop :=
  ∃ a b, l = a ++ m :: b ∧ (∀ x, l.count x ≤ l.count m) ∧ ∀ x ∈ a, l.count x < l.count m

/-- The tags of blocks: page numbers and page headers do not count. -/
def blockTags (tags : List (Option Str)) : List Str :=
  tags.filterMap (fun t => if truthy t ∧ t ≠ some c!"headnote" ∧ t ≠ some c!"page" then t else none)

/-- The tag of the block before a line, given the tags of all lines before it: at first that is the front. -/
def blockBefore (tags : List (Option Str)) : Str := (blockTags tags).getLast?.getD c!"front"

/-- The tag of the block after a line. -/
def blockAfter (tags : List (Option Str)) : Option Str := (blockTags tags).head?

/-- The tag of a line after merging: a line without tag between two parts of a block of an enabled kind
belongs to the block, and so does a line behind the last block, if it is of one of the remaining kinds. -/
def mergedTag (enabled remaining : List Str) (isPage : Bool) (before : List (Option Str)) (t : Option Str)
    (after : List (Option Str)) : Option Str :=
  if truthy t = false ∧ isPage = false ∧ blockBefore before ∈ enabled ∧
      (blockAfter after = some (blockBefore before) ∨ (blockAfter after = none ∧ blockBefore before ∈ remaining))
  then some (blockBefore before) else t

/-- The text may be that of a page header, given the texts of the lines without tag: it is there more than
once, has white space and not only digits, white space and dots, and it is the text of one of the first
lines. -/
structure HeaderLike (env : SegEnv) (maxFirst : Int) (ls : List SegLine) (texts : List Str) (s : Str) : Prop where
  repeated : 2 ≤ texts.count s
  space : ∃ c ∈ s, env.isSpace c = true
  other : ∃ c ∈ s, env.isDigit c = false ∧ env.isSpace c = false ∧ c ≠ '.'
  first : ∃ l ∈ ls, l.text = s ∧ (l.index : Int) < maxFirst

/-- The text is that of a page header: no other such text is there more often, except for one time. -/
def IsHeader (env : SegEnv) (maxFirst : Int) (ls : List SegLine) (texts : List Str) (s : Str) : Prop :=
  HeaderLike env maxFirst ls texts s ∧ ∀ s', HeaderLike env maxFirst ls texts s' → texts.count s' ≤ texts.count s + 1

/-- The text is a number: one or more digits, possibly followed by a line feed. -/
def IsNumber (env : SegEnv) (s : Str) : Prop :=
  ∃ ds, ds ≠ [] ∧ (∀ c ∈ ds, env.isDigit c = true) ∧ (s = ds ∨ s = ds ++ ['\n'])

/-- The number given by the text, `-1` if there is none. -/
def pageNumber (env : SegEnv) (s : Str) : Int := (env.parseInt s).getD (-1)

/-- The smallest page number that may follow the given lines: that of the last line which is a page number
already, `1` at first, increased by one for each line found since, where the next number known is `hi`. -/
inductive Expected (env : SegEnv) (tag : Nat → Option Str) (hi : Int) : List SegLine → Int → Prop
  | start : Expected env tag hi [] 1
  | page {a l n} : Expected env tag hi a n → tag l.index = some c!"page" →
      Expected env tag hi (a ++ [l]) (pageNumber env l.text)
  | found {a l n} : Expected env tag hi a n → truthy (tag l.index) = false → IsNumber env l.text →
      n ≤ pageNumber env l.text → pageNumber env l.text < hi → Expected env tag hi (a ++ [l]) (n + 1)
  | other {a l n} : Expected env tag hi a n → tag l.index ≠ some c!"page" →
      ¬ (truthy (tag l.index) = false ∧ IsNumber env l.text ∧ n ≤ pageNumber env l.text ∧ pageNumber env l.text < hi) →
      Expected env tag hi (a ++ [l]) n

/-- The line, between the lines `a` and `b`, is a page number not yet known: it has no tag and is a number,
at least the one expected and less than that of the next line which is a page number already. -/
def FoundPage (env : SegEnv) (tag : Nat → Option Str) (a : List SegLine) (l : SegLine) (b : List SegLine) : Prop :=
  truthy (tag l.index) = false ∧ IsNumber env l.text ∧
  ∃ e n, (b.filter (fun x => tag x.index = some c!"page")).head? = some e ∧ Expected env tag (pageNumber env e.text) a n ∧
    n ≤ pageNumber env l.text ∧ pageNumber env l.text < pageNumber env e.text

/-- The line belongs to a block of consecutive lines of the front that starts behind the threshold; `a` are
the lines before it. -/
def LateFront (maxStart : Int) (tag : Nat → Option Str) (a : List SegLine) (l : SegLine) : Prop :=
  ∃ a1 first a2, a ++ [l] = a1 ++ first :: a2 ∧ (∀ x ∈ first :: a2, tag x.index = some c!"front") ∧
    (∀ y, a1.getLast? = some y → tag y.index ≠ some c!"front") ∧ maxStart < first.index

/-- The segmentation label of a tag: the last one configured for it. -/
def labelOf (cfg : SegConfig) (name : Str) : Option Str := ((cfg.mapping.filter (fun p => name ∈ p.2)).getLast?).map (·.1)

/-- The label given to a line at first, from the tags of its tokens: that of the most frequent one, or this tag
itself if there is no (non empty) label for it. -/
inductive InitialLabel (cfg : SegConfig) (values : List (Option Str)) : Option Str → Prop
  | empty : values = [] → InitialLabel cfg values none
  | mapped {n s} : IsMajority values (some n) → labelOf cfg n = some s → s ≠ [] → InitialLabel cfg values (some s)
  | tag {m} : IsMajority values m → (∀ n s, m = some n → labelOf cfg n = some s → s = []) → InitialLabel cfg values m

/-- The tags of the tokens of the line are kept at first: their most frequent one has no label, or it is its
own label and references are not merged. -/
def KeepsTags (cfg : SegConfig) (values : List (Option Str)) : Prop :=
  values = [] ∨ ∃ n, IsMajority values (some n) ∧
    ((∀ s, labelOf cfg n = some s → s = []) ∨ (labelOf cfg n = some n ∧ n ≠ [] ∧ cfg.noMergeReferences = true))

/-- The labels of the lines through segmentation, where `values` are the tags of the tokens of each line and
`kept` tells which lines have a preserved page number:
`t1` the first labels, `t2` without the front behind the threshold, `t3` with preserved page numbers, `t4` with
the page numbers found, `t5` with page headers, `t6` with blocks merged. -/
structure Stages (env : SegEnv) (cfg : SegConfig) (ls : List SegLine) (values : SegLine → List (Option Str)) (kept : SegLine → Prop)
    (t1 t2 t3 t4 t5 t6 : Nat → Option Str) : Prop where
  first : ∀ l ∈ ls, InitialLabel cfg (values l) (t1 l.index)
  late : ∀ a l b, ls = a ++ l :: b → cfg.frontMaxStartLineIndex ≠ 0 → LateFront cfg.frontMaxStartLineIndex t1 a l → t2 l.index = none
  notLate : ∀ a l b, ls = a ++ l :: b → (cfg.frontMaxStartLineIndex = 0 ∨ ¬ LateFront cfg.frontMaxStartLineIndex t1 a l) →
    t2 l.index = t1 l.index
  preserved : ∀ l ∈ ls, truthy (t2 l.index) = false → kept l → t3 l.index = some c!"page"
  notPreserved : ∀ l ∈ ls, (truthy (t2 l.index) = true ∨ ¬ kept l) → t3 l.index = t2 l.index
  page : ∀ a l b, ls = a ++ l :: b → FoundPage env t3 a l b → t4 l.index = some c!"page"
  notPage : ∀ a l b, ls = a ++ l :: b → ¬ FoundPage env t3 a l b → t4 l.index = t3 l.index
  header : ∀ l ∈ ls, IsHeader env cfg.pageHeaderMaxFirstLineIndex ls ((ls.filter (fun l => !truthy (t4 l.index))).map SegLine.text) l.text →
    t5 l.index = some c!"headnote"
  notHeader : ∀ l ∈ ls, ¬ IsHeader env cfg.pageHeaderMaxFirstLineIndex ls ((ls.filter (fun l => !truthy (t4 l.index))).map SegLine.text) l.text →
    t5 l.index = t4 l.index
  merged : ∀ a l b, ls = a ++ l :: b → t6 l.index =
    mergedTag ([c!"front", c!"annex"] ++ if cfg.noMergeReferences then [] else [c!"reference"]) [c!"annex"] false
      (a.map (fun l => t5 l.index)) (t5 l.index) (b.map (fun l => t5 l.index))

/-- The last label: lines without label belong to the body, unless tags are preserved. -/
def finalLabel (preserve : Bool) (t : Option Str) : Option Str := if preserve ∨ truthy t then t else some c!"body"

/-- All tokens of the line have the label; without label, they have no tag. -/
def LineShows (d : Doc) (l : SegLine) (t : Option Str) : Prop :=
  (∀ s, t = some s → ∀ i ∈ l.line.tokens, d.getTag i = some s) ∧ (t = none → ∀ i ∈ l.line.tokens, truthy (d.getTag i) = false)

/-- The labels: those configured and the fixed ones. -/
def IsLabel (cfg : SegConfig) (s : Str) : Prop :=
  s ∈ [c!"front", c!"page", c!"headnote", c!"body", c!"reference", c!"annex"] ∨ ∃ p ∈ cfg.mapping, p.1 = s

end Verif.Spec
