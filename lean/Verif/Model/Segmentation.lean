/-
Model of `annotation/segmentation_annotator.py`. Line numbers refer to this file.

The `SegmentationLine` objects are modelled by a fixed list of lines (their index, line and text) and a
state with the current segmentation tag by line index. `parse_segmentation_config` (76-95, reading of the
file) is modelled in `Verif/Model/ConfigFile.lean`.
-/
import Verif.Model.PyList
import Verif.Model.PyStr
import Verif.Model.TeiDoc

namespace Verif

/-- `SegmentationConfig` (69-73). -/
structure SegConfig where
  mapping : Dict (List Str)
  frontMaxStartLineIndex : Int := 0
  pageHeaderMaxFirstLineIndex : Int := 50
  noMergeReferences : Bool := false

/-- What the annotator depends on outside the code: the regular expression classes `\d` and `\s`, and
`int(text)` (`none` if it raises `ValueError`). -/
structure SegEnv where
  isDigit : Char → Bool
  isSpace : Char → Bool
  parseInt : Str → Option Int

/-- `SegmentationTagNames` (45-51). -/
def segFront : Str := c!"front"
def segPage : Str := c!"page"
def segHeadnote : Str := c!"headnote"
def segBody : Str := c!"body"
def segReference : Str := c!"reference"
def segAnnex : Str := c!"annex"

/-- The keys of a `Counter`, in order of first insertion. -/
def uniqueKeys {α : Type} [DecidableEq α] : List α → List α
  | [] => []
  | a :: l => a :: (uniqueKeys l).filter (fun b => !decide (b = a))

/-- `Counter(l)`: keys in order of first insertion with their counts. -/
def counterOf {α : Type} [DecidableEq α] (l : List α) : List (α × Nat) := (uniqueKeys l).map (fun k => (k, l.count k))

/-- `max(items, key=count)`: the first of the items with the largest count. -/
def maxItem {α : Type} : List (α × Nat) → Option (α × Nat)
  | [] => none
  | a :: l => match maxItem l with
    | none => some a
    | some b => if a.2 < b.2 then some b else some a

/-- `Counter.most_common()`: sorted by descending count, ties in order of insertion. -/
def mostCommon {α : Type} [DecidableEq α] (l : List α) : List (α × Nat) :=
  sortBy (fun a b => decide (b.2 ≤ a.2)) (counterOf l)

/-- A `SegmentationLine` (158-186) without its tag. -/
structure SegLine where
  index : Nat
  line : Line
  text : Str

/-- The document and the `segmentation_tag` of the lines by index. -/
structure SegState where
  doc : Doc
  tag : Nat → Option Str

/-- `get_segmentation_tag_name_by_tag_name` (149-155). -/
def segTagByName (cfg : SegConfig) : Dict Str :=
  Dict.ofPairs (cfg.mapping.flatMap (fun p => p.2.map (fun n => (n, p.1))))

/-- `_set_line_tokens_tag` (106-112). -/
def setLineTokensTag (d : Doc) (l : Line) (tag : Option Str) : Doc := l.tokens.foldl (fun d i => d.setTag i tag) d

/-- `_clear_line_token_tags` (141-146). -/
def clearLineTokens (d : Doc) (l : Line) : Doc :=
  l.tokens.foldl (fun d i => if truthy (d.getTag i) then d.setTag i none else d) d

/-- `SegmentationLine.segmentation_tag = tag`. -/
def SegState.put (st : SegState) (l : SegLine) (tag : Option Str) : SegState :=
  { st with tag := fun j => if j = l.index then tag else st.tag j }

/-- `SegmentationLine.set_segmentation_tag` (177-179). -/
def SegState.set (st : SegState) (l : SegLine) (tag : Option Str) : SegState :=
  { st.put l tag with doc := setLineTokensTag st.doc l.line tag }

/-- `SegmentationLine.clear_line_token_tags` (181-183). -/
def SegState.clear (st : SegState) (l : SegLine) : SegState :=
  { st.put l none with doc := clearLineTokens st.doc l.line }

/-- `_get_line_token_tags_or_preserved_tags` (133-138). -/
def lineTagsOrPreserved (d : Doc) (l : Line) : List (Option Str) := l.nonSpace.map (fun i => d.getTagOrPreserved i)

/-- The lines of the document (410-418, 170; `join_tokens_text`, annotation/matching_utils.py:105-106). -/
def segLines (d : Doc) : List SegLine :=
  d.lines.zipIdx.map (fun p => ⟨p.2, p.1, joinStr c!" " (p.1.nonSpace.map (fun i => (d.tok i).text))⟩)

/-- The loop body of `annotate` (419-447). -/
def segInitStep (cfg : SegConfig) (st : SegState) (l : SegLine) : SegState :=
  match maxItem (counterOf (l.line.nonSpace.map (fun i => st.doc.getTagValue i))) with
  | none => st
  | some (majority, _) =>
    let seg := majority.bind (segTagByName cfg).get?
    let st1 :=
      if truthy seg ∧ seg = majority then
        if !cfg.noMergeReferences then st.set l seg else st
      else if truthy seg then st.set l seg
      else if majority = none then st.clear l
      else st
    st1.put l (pyOr seg majority)

/-- State of the loop in `clear_front_tags_for_front_blocks_starting_after_threshold`: the tag and the
start of the block. -/
structure FrontState where
  st : SegState
  block : Option Str
  start : Nat

/-- The loop body (217-229). -/
def clearFrontStep (maxStart : Int) (f : FrontState) (l : SegLine) : FrontState :=
  let f1 : FrontState := if f.st.tag l.index ≠ f.block then ⟨f.st, f.st.tag l.index, l.index⟩ else f
  if f1.block = some segFront ∧ maxStart < f1.start then { f1 with st := f1.st.clear l } else f1

/-- `clear_front_tags_for_front_blocks_starting_after_threshold` (208-229). -/
def clearFront (maxStart : Int) (ls : List SegLine) (st : SegState) : SegState :=
  if maxStart = 0 then st else (ls.foldl (clearFrontStep maxStart) ⟨st, none, 0⟩).st

/-- `apply_preserved_page_numbers` (232-240). -/
def applyPreservedPages (ls : List SegLine) (st : SegState) : SegState :=
  ls.foldl (fun st l =>
    if truthy (st.tag l.index) then st
    else if some segPage ∈ lineTagsOrPreserved st.doc l.line then st.set l (some segPage)
    else st) st

/-- `is_valid_page_number_candidate` (248-249): `^\d+$`, where `$` also matches before a final line feed. -/
def isPageNumberText (env : SegEnv) (s : Str) : Bool :=
  let s' := if s.getLast? = some '\n' then s.dropLast else s
  !s'.isEmpty && s'.all env.isDigit

/-- `parse_page_number` (252-256). -/
def parsePageNumber (env : SegEnv) (s : Str) : Int := (env.parseInt s).getD (-1)

/-- State of the loops of `find_missing_page_numbers`. -/
structure PageState where
  st : SegState
  minLine : Nat
  minPage : Int

/-- The body of the inner loop (285-296). -/
def pageInnerStep (maxLine : Nat) (maxPage : Int) (p : PageState) (c : Int × SegLine) : PageState :=
  if c.2.index < p.minLine then p
  else if maxLine < c.2.index then p
  else if c.1 < p.minPage then p
  else if maxPage < c.1 then p
  else { p with st := p.st.set c.2 (some segPage), minPage := p.minPage + 1 }

/-- The body of the outer loop (282-298). -/
def pageOuterStep (cands : List (Int × SegLine)) (p : PageState) (e : Int × SegLine) : PageState :=
  let p1 := cands.foldl (pageInnerStep e.2.index (e.1 - 1)) p
  ⟨p1.st, e.2.index, e.1 - 1 + 1⟩

/-- `find_missing_page_numbers` (259-298). -/
def findMissingPages (env : SegEnv) (ls : List SegLine) (st : SegState) : SegState :=
  let existing := (ls.filter (fun l => st.tag l.index = some segPage)).map (fun l => (parsePageNumber env l.text, l))
  let cands := (ls.filter (fun l => !truthy (st.tag l.index) && isPageNumberText env l.text)).map
    (fun l => (parsePageNumber env l.text, l))
  (existing.foldl (pageOuterStep cands) ⟨st, 0, 1⟩).st

/-- `is_valid_page_header_candidate` (301-317); `minCount` after the default has been applied. The
expression `^(\d|\s|\.)+$` matches texts of such characters only; splitting at white space characters gives
at least two parts if there is one. -/
def isPageHeaderText (env : SegEnv) (text : Str) (count minCount : Nat) : Bool :=
  if count < minCount then false
  else if !text.isEmpty && text.all (fun c => env.isDigit c || env.isSpace c || c = '.') then false
  else if !text.any env.isSpace then false
  else true

/-- State of the loop of `find_and_tag_page_headers`. -/
structure HeaderState where
  st : SegState
  minCount : Option Nat

/-- `first_line_index` (334-338): `-1` if no line has the text. -/
def firstLineIndex (ls : List SegLine) (text : Str) : Int :=
  match ls.find? (fun l => l.text = text) with
  | some l => l.index
  | none => -1

/-- The loop body (331-350). -/
def headerStep (env : SegEnv) (maxFirst : Int) (ls : List SegLine) (h : HeaderState) (p : Str × Nat) : HeaderState :=
  if !isPageHeaderText env p.1 p.2 (h.minCount.getD 2) then h
  else if maxFirst ≤ firstLineIndex ls p.1 then h
  else
    ⟨ls.foldl (fun st l => if l.text = p.1 then st.set l (some segHeadnote) else st) h.st,
      some (h.minCount.getD (max 2 (p.2 - 1)))⟩

/-- `find_and_tag_page_headers` (320-350). -/
def findPageHeaders (env : SegEnv) (maxFirst : Int) (ls : List SegLine) (st : SegState) : SegState :=
  ((mostCommon ((ls.filter (fun l => !truthy (st.tag l.index))).map SegLine.text)).foldl
    (headerStep env maxFirst ls) ⟨st, none⟩).st

/-- State of the loop of `merge_lines`. -/
structure MergeState where
  st : SegState
  cands : List SegLine
  prev : Option Str

/-- Tags all lines (377-378, 397-398). -/
def setAllLines (st : SegState) (ls : List SegLine) (tag : Option Str) : SegState := ls.foldl (fun st l => st.set l tag) st

/-- The loop body (363-390). -/
def mergeStep (preserve : Bool) (enabled : List Str) (m : MergeState) (l : SegLine) : MergeState :=
  let t := m.st.tag l.index
  if t = some segHeadnote ∨ t = some segPage then m
  else
    let m1 : MergeState :=
      if truthy t then ⟨m.st, if m.prev ≠ t then [] else m.cands, t⟩ else m
    if t ∈ enabled.map some then ⟨setAllLines m1.st m1.cands t, [], m1.prev⟩
    else if truthy t then { m1 with cands := [] }
    else if preserve && decide (some segPage ∈ lineTagsOrPreserved m1.st.doc l.line) then m1
    else if m1.prev ∈ enabled.map some then { m1 with cands := m1.cands ++ [l] }
    else m1

/-- `merge_lines` (353-399). -/
def mergeLines (preserve : Bool) (enabled remaining : List Str) (ls : List SegLine) (st : SegState) : SegState :=
  let m := ls.foldl (mergeStep preserve enabled) ⟨st, [], some segFront⟩
  if m.prev ∈ remaining.map some then setAllLines m.st m.cands m.prev else m.st

/-- The tags for which `annotate` merges lines (461-463). -/
def segMergedTags (cfg : SegConfig) : List Str :=
  [segFront, segAnnex] ++ (if cfg.noMergeReferences then [] else [segReference])

/-- The last loop of `annotate` (471-473). -/
def tagRemaining (ls : List SegLine) (st : SegState) : SegState :=
  ls.foldl (fun st l => if truthy (st.tag l.index) then st else st.set l (some segBody)) st

/-- `SegmentationAnnotator.annotate` (409-474). -/
def segment (env : SegEnv) (cfg : SegConfig) (preserve : Bool) (d : Doc) : Doc :=
  let ls := segLines d
  let st1 := ls.foldl (segInitStep cfg) ⟨d, fun _ => none⟩
  let st2 := clearFront cfg.frontMaxStartLineIndex ls st1
  let st3 := if preserve then applyPreservedPages ls st2 else st2
  let st4 := findMissingPages env ls st3
  let st5 := findPageHeaders env cfg.pageHeaderMaxFirstLineIndex ls st4
  let st6 := mergeLines preserve (segMergedTags cfg) [segAnnex] ls st5
  let st7 := if preserve then st6 else tagRemaining ls st6
  st7.doc

end Verif
