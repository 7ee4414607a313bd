/-
Model of `utils/fuzzy.py`. The matchers `LocalSequenceMatcher` (sciencebeam_alignment) and
`difflib.SequenceMatcher` are external and parameters of the model. Positions are natural numbers.
-/
import Verif.Model.FuzzyMatch

namespace Verif

/-- `default_is_junk` (utils/fuzzy.py:33-48), for `i` within the string. -/
def defaultIsJunk (cc : CharClass) : IsJunk := fun s i =>
  if s[i]? == some '*' || s[i]? == some ' ' then true
  else
    let prev := ((s.take i).reverse.dropWhile (fun c => decide (c = ' '))).head?
    if s[i]? == some ',' && prev == some '.' then true
    else if s[i]? == some '.' && (prev.map cc.isAlpha).getD false then true
    else false

/-- `space_is_junk` (utils/fuzzy.py:51-52). -/
def spaceIsJunk : IsJunk := fun s i => s[i]? == some ' ' || s[i]? == some '\t' || s[i]? == some '\n'

/-- `FuzzyMatchResult.b_gap_ratio` of utils/fuzzy.py (57-72). -/
def FuzzyResult.bGapRatioFixed (r : FuzzyResult) : Rat :=
  let aLen := r.aRange.2 - r.aRange.1
  let aGaps := max 0 ((aLen : Int) - r.matchCount)
  r.ratioTo ((r.b.length : Int) + aGaps - r.aNonMatchingJunk (some r.aRange) - r.bNonMatchingJunk)

/-- `StringView` (utils/fuzzy.py:104-117). -/
structure StringView where
  original : Str
  view : Str
  originalIndexAt : List Nat

/-- `StringView.__init__` (utils/fuzzy.py:105-117). -/
def StringView.ofInView (original : Str) (inView : List Bool) : StringView where
  original := original
  view := ((original.zip inView).filter (fun p => p.2)).map Prod.fst
  originalIndexAt := (inView.zipIdx.filter (fun p => p.1)).map Prod.snd

/-- `get_no_junk_string_view` (utils/fuzzy.py:147-157) with a junk function. -/
def noJunkView (isJunk : IsJunk) (s : Str) : StringView :=
  StringView.ofInView s ((List.range s.length).map (fun i => !isJunk s i))

/-- The loop of `split_with_offset` (utils/fuzzy.py:132-144) with separators included: `prev` is
`previous_start`, `cur` are the characters from there on. -/
def splitWithOffsetLoop (sep : List Char) (prev : Nat) (cur : Str) : Str → List (Nat × Str)
  | [] => if cur.isEmpty then [] else [(prev, cur)]
  | c :: s =>
    if sep.contains c then
      let i := prev + cur.length
      (if cur.isEmpty then [] else [(prev, cur)]) ++ (i, [c]) :: splitWithOffsetLoop sep (i + 1) [] s
    else splitWithOffsetLoop sep prev (cur ++ [c]) s

/-- `split_with_offset` (utils/fuzzy.py:132-144). -/
def splitWithOffset (sep : List Char) (s : Str) : List (Nat × Str) := splitWithOffsetLoop sep 0 [] s

/-- `DEFAULT_WORD_SEPARATORS` (utils/fuzzy.py:19). -/
def wordSeparators : List Char := c!" .,-:;()[]\n\t"

/-- `WordSequenceMatcher.get_matching_blocks` (utils/fuzzy.py:174-195); `diff` is
`SequenceMatcher(None, a_words, b_words, autojunk=False).get_matching_blocks()`. A block outside the
words raises an `IndexError`. -/
def wordBlocks (diff : List Str → List Str → List Block) (a b : Str) : Except Err (List Block) :=
  let aw := splitWithOffset wordSeparators a
  let bw := splitWithOffset wordSeparators b
  ((diff (aw.map Prod.snd) (bw.map Prod.snd)).filter (fun x => x.size ≠ 0)).mapM (fun x =>
    match aw[x.a]?, bw[x.b]? with
    | some (ai, _), some (bi, _) =>
      if x.a + x.size ≤ aw.length then
        .ok ⟨ai, bi, (((aw.drop x.a).take x.size).map (fun w => w.2.length)).sum⟩
      else .error .indexError
    | _, _ => .error .indexError)

/-- `get_matching_blocks_end_offset(_, 1)` (utils/fuzzy.py:249-259). -/
def blocksEnd (bs : List Block) : Nat :=
  match bs.getLast? with
  | none => 0
  | some x => if x.size = 0 then 0 else x.b + x.size

/-- `get_matching_blocks_start_offset(_, 1)` (utils/fuzzy.py:262-272). -/
def blocksStart (bs : List Block) : Option Nat :=
  match bs.head? with
  | none => none
  | some x => if x.size = 0 then none else some x.b

/-- `get_offset_matching_blocks` (utils/fuzzy.py:355-365). -/
def offsetBlocks (a b : Nat) (bs : List Block) : List Block := bs.map (fun x => ⟨x.a + a, x.b + b, x.size⟩)

/-- `get_offset_matching_blocks` with a negative `b_offset` (utils/fuzzy.py:327-330); for blocks in
order no position becomes negative. -/
def offsetBlocksBack (b : Nat) (bs : List Block) : List Block := bs.map (fun x => ⟨x.a, x.b - b, x.size⟩)

/-- What the strided search depends on. -/
structure StridedEnv where
  /-- `LocalSequenceMatcher(a, b, scoring).get_matching_blocks()` (external). -/
  lsm : Str → Str → List Block
  isJunk : IsJunk
  threshold : Rat
  maxLength : Nat
  stride : Nat

/-- `get_matching_blocks_b_gap_ratio` (utils/fuzzy.py:227-240). -/
def StridedEnv.gap (env : StridedEnv) (haystack needle : Str) (bs : List Block) : Rat :=
  FuzzyResult.bGapRatioFixed ⟨haystack, needle, bs, env.isJunk⟩

/-- The loop of `get_first_chunk_matching_blocks` (utils/fuzzy.py:284-310); the argument is
`block_count`. -/
def firstChunk (env : StridedEnv) (haystack needle : Str) (bs : List Block) : Nat → List Block
  | 0 => []
  | n + 1 =>
    let chunk := bs.take (n + 1)
    let e := blocksEnd chunk
    if e = 0 then []
    else if env.threshold ≤ env.gap haystack (needle.take e) chunk then chunk
    else firstChunk env haystack needle bs n

/-- The loop of `get_last_chunk_matching_blocks` (utils/fuzzy.py:313-343); the argument are the blocks
from `block_start` on. -/
def lastChunk (env : StridedEnv) (haystack needle : Str) : List Block → List Block
  | [] => []
  | x :: bs =>
    match blocksStart (x :: bs) with
    | none => []
    | some st =>
      if env.threshold ≤ env.gap haystack (needle.drop st) (offsetBlocksBack st (x :: bs)) then x :: bs
      else lastChunk env haystack needle bs

/-- `get_str_left_strided_matching_blocks_chunks` (utils/fuzzy.py:368-465). The first argument bounds
the number of nested iterations and calls; `none` means that it was too small. -/
def stridedSearch (env : StridedEnv) (haystack : Str) : Nat → Int → Str → Nat → Option (List (List Block))
  | 0, _, _, _ => none
  | fuel + 1, maxChunks, needle, start =>
    if ¬ start < haystack.length then some []
    else
      let bs := env.lsm ((haystack.drop start).take env.maxLength) needle
      match bs with
      | [] => stridedSearch env haystack fuel maxChunks needle (start + env.stride)
      | x :: _ =>
        if env.stride < x.a || x.size = 0 then
          stridedSearch env haystack fuel maxChunks needle (start + env.stride)
        else if env.gap haystack needle bs < env.threshold then
          if maxChunks ≤ 1 then stridedSearch env haystack fuel maxChunks needle (start + env.stride)
          else
            let first := firstChunk env haystack needle bs (bs.length - 1)
            let last := lastChunk env haystack needle bs
            if !first.isEmpty then
              let e := blocksEnd first
              match stridedSearch env haystack fuel (maxChunks - 1) (needle.drop e) (start + e) with
              | none => none
              | some [] => stridedSearch env haystack fuel maxChunks needle (start + env.stride)
              | some (r :: rs) => some (first :: (r :: rs).map (offsetBlocks 0 e))
            else if !last.isEmpty then
              match stridedSearch env haystack fuel (maxChunks - 1) (needle.take ((blocksStart last).getD 0)) 0 with
              | none => none
              | some [] => stridedSearch env haystack fuel maxChunks needle (start + env.stride)
              | some (r :: rs) => some ((r :: rs) ++ [last])
            else stridedSearch env haystack fuel maxChunks needle (start + env.stride)
        else some [offsetBlocks start 0 bs]

/-- Enough iterations for `stridedSearch` when the stride is positive. -/
def searchFuel (length : Nat) (maxChunks : Int) (start : Nat) : Nat :=
  (length - start) + maxChunks.toNat * (length + 1) + 1

/-- `get_default_max_length_and_stride` (utils/fuzzy.py:475-487); `rnd` is Python's `round`. -/
def defaultMaxLengthAndStride (rnd : Rat → Int) (haystackLength needleLength : Nat) (threshold : Rat)
    (minMaxLength : Nat := 1000) : Int × Int :=
  if haystackLength ≤ minMaxLength then (haystackLength, haystackLength)
  else
    let maxLDist := rnd ((min haystackLength needleLength : Nat) * (1 - threshold))
    let maxMatched := (needleLength : Int) + maxLDist
    let maxLength := max (minMaxLength : Int) (maxMatched * 4)
    (maxLength, maxLength - maxMatched)

/-- What the search depends on: the matchers, Python's `round` and the arguments of
`fuzzy_search_chunks` (utils/fuzzy.py:520-528). -/
structure SearchEnv where
  lsm : Str → Str → List Block
  diff : List Str → List Str → List Block
  rnd : Rat → Int
  isJunk : IsJunk
  threshold : Rat
  exactWordMatchThreshold : Nat
  maxChunks : Int

/-- `get_str_auto_left_strided_matching_blocks_chunks` (utils/fuzzy.py:490-503). -/
def autoStridedSearch (env : SearchEnv) (haystack needle : Str) : Option (List (List Block)) :=
  let (maxLength, stride) := defaultMaxLengthAndStride env.rnd haystack.length needle.length env.threshold
  stridedSearch ⟨env.lsm, env.isJunk, env.threshold, maxLength.toNat, stride.toNat⟩ haystack
    (searchFuel haystack.length env.maxChunks 0) env.maxChunks needle 0

/-- A block of the views as a block of the original texts (utils/fuzzy.py:562-574). -/
def mapBlock (hv nv : StringView) (x : Block) : Except Err Block :=
  match hv.originalIndexAt[x.a]?, nv.originalIndexAt[x.b]?, hv.originalIndexAt[x.a + x.size - 1]? with
  | some a, some b, some last => .ok ⟨a, b, last - a + 1⟩
  | _, _, _ => .error .indexError

/-- `fuzzy_search_chunks` (utils/fuzzy.py:520-596): the matches, if any. That the bound on the search
is never reached is part of C38. -/
def fuzzySearchChunks (env : SearchEnv) (haystack needle : Str) (start : Nat) :
    Except Err (Option (List FuzzyResult)) :=
  let h := haystack.drop start
  if min h.length needle.length < env.exactWordMatchThreshold then
    match wordBlocks env.diff h needle with
    | .error e => .error e
    | .ok bs =>
      let fm : FuzzyResult := ⟨haystack, needle, offsetBlocks start 0 bs, env.isJunk⟩
      if fm.bGapRatioFixed < env.threshold then .ok none else .ok (some [fm])
  else
    let hv := noJunkView spaceIsJunk h
    let nv := noJunkView spaceIsJunk needle
    match autoStridedSearch env hv.view nv.view with
    | none => .error .runtimeError
    | some [] => .ok none
    | some (c :: cs) =>
      match (c :: cs).mapM (fun bs => (bs.filter (fun x => x.size ≠ 0)).mapM (mapBlock hv nv)) with
      | .error e => .error e
      | .ok chunks => .ok (some (chunks.map (fun bs => ⟨haystack, needle, offsetBlocks start 0 bs, env.isJunk⟩)))

/-- `fuzzy_search` (utils/fuzzy.py:599-603) with `ChunkedFuzzyMatchResult.merge` (92-101). -/
def fuzzySearch (env : SearchEnv) (haystack needle : Str) (start : Nat) : Except Err (Option FuzzyResult) :=
  match fuzzySearchChunks env haystack needle start with
  | .error e => .error e
  | .ok none => .ok none
  | .ok (some ms) => .ok (some ⟨haystack, needle, ms.flatMap FuzzyResult.blocks, env.isJunk⟩)

/-- `iter_fuzzy_search_all` (utils/fuzzy.py:606-620): the matches yielded and the exception which ends
the iteration, if any. -/
def searchAll (search : Nat → Except Err (Option FuzzyResult)) (length start : Nat) :
    List FuzzyResult × Option Err :=
  if start < length then
    match search start with
    | .error e => ([], some e)
    | .ok none => ([], none)
    | .ok (some fm) =>
      let new := fm.aRange.2
      if new ≤ start then ([fm], none)
      else
        let rest := searchAll search length new
        (fm :: rest.1, rest.2)
  else ([], none)
termination_by length - start

/-- `iter_fuzzy_search_all_index_ranges` (utils/fuzzy.py:640-644). -/
def searchAllRanges (env : SearchEnv) (haystack needle : Str) : List (Nat × Nat) × Option Err :=
  let r := searchAll (fun start => fuzzySearch env haystack needle start) haystack.length 0
  (r.1.map FuzzyResult.aRange, r.2)

/-- `fuzzy_search_index_range_chunks` (utils/fuzzy.py:630-637). -/
def searchRangeChunks (env : SearchEnv) (haystack needle : Str) (start : Nat) :
    Except Err (Option (List (Nat × Nat))) :=
  match fuzzySearchChunks env haystack needle start with
  | .error e => .error e
  | .ok none => .ok none
  | .ok (some ms) => .ok (some (ms.map FuzzyResult.aRange))

end Verif
