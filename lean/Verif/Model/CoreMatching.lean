/-
Model of `core/annotation/matching_annotator.py`: the annotator which compares the values of the target
annotations with the lines of a document one after the other.
-/
import Verif.Model.SimpleMatching

namespace Verif

/-- What the annotator depends on outside the code: character classes, `str.lower` and the matchers of the
alignment library. -/
structure CoreEnv where
  cc : CharClass
  lower : Str → Str
  words : Str → Str → List Block
  align : Str → Str → List Block

/-- `fuzzy_match` (core/annotation/fuzzy_match.py:283-289). -/
def coreFuzzyMatch (env : CoreEnv) (a b : Str) : FuzzyResult :=
  ⟨a, b, if min a.length b.length < 5 then env.words a b else env.align a b, coreIsJunk env.cc⟩

/-- `normalise_and_remove_junk_str` (core/annotation/matching_annotator.py:70-71); `normalise_str` (55-60)
is the same as that of `annotation/matching_utils.py`. -/
def coreNormalise (env : CoreEnv) (s : Str) : Str := removeJunk (coreIsJunk env.cc) (normaliseStr env.lower s)

/-- `normalise_str_or_list` (63-67) and `normalise_and_remove_junk_str_or_list` (74-78). -/
def TargetValue.map (f : Str → Str) : TargetValue → TargetValue
  | .one s => .one (f s)
  | .many ss => .many (ss.map f)

/-! ### Sequences (core/annotation/matching_annotator.py:81-197) -/

/-- `SequenceWrapperWithPosition` (130-144) without the filter of the texts, which is the same for all
sequences compared with one another. -/
structure CoreSeq where
  tokens : List Nat
  position : Nat
  deriving DecidableEq

/-- `token_str_list` (86-88); the text of a token is never `None` here. -/
def coreTokenTexts (env : CoreEnv) (filter : Str → Str) (d : Doc) (s : CoreSeq) : List Str :=
  s.tokens.map (fun i => filter (d.getText env.cc i))

/-- `tokens_as_str` (89). -/
def coreSeqText (env : CoreEnv) (filter : Str → Str) (d : Doc) (s : CoreSeq) : Str :=
  joinStr [' '] (coreTokenTexts env filter d s)

/-- The loop of `tokens_between` (92-100) over tokens with their texts from the position `i` on. -/
def coreBetweenLoop (start e : Nat) : Nat → List (Nat × Str) → List Nat
  | _, [] => []
  | i, (t, s) :: ts =>
    if e ≤ i then []
    else if start < i + s.length then t :: coreBetweenLoop start e (i + s.length + 1) ts
    else coreBetweenLoop start e (i + s.length + 1) ts

/-- `tokens_between` (91-100). -/
def coreTokensBetween (env : CoreEnv) (filter : Str → Str) (d : Doc) (r : Nat × Nat) (s : CoreSeq) : List Nat :=
  coreBetweenLoop r.1 r.2 0 (s.tokens.zip (coreTokenTexts env filter d s))

/-- `untagged_sub_sequences` (105-121) with `sub_sequence_for_tokens` (136-141); the loop is the same as
that of `annotation/matching_utils.py`. -/
def coreSubSeqs (d : Doc) (s : CoreSeq) : List CoreSeq :=
  (untaggedSubSequences d s.tokens).map (fun ts => ⟨ts, s.position⟩)

/-- `SequenceMatch` (148-153) without `seq1`: `range1` lies in the value, `range2` in the sequence. -/
structure SeqMatch where
  seq : CoreSeq
  range1 : Nat × Nat
  range2 : Nat × Nat
  deriving DecidableEq

/-- `abs(a - b)`. -/
def natDist (a b : Nat) : Nat := (a - b) + (b - a)

/-- `PositionedSequenceSet.is_close_to_any` (174-182); no maximum gap is zero. -/
def isCloseToAny (matched : List Nat) (maxGap : Nat) (s : CoreSeq) : Bool :=
  decide (maxGap = 0) || matched.isEmpty || matched.any (fun p => decide (natDist s.position p ≤ maxGap + 1))

/-- `offset_range_by` (188-191). -/
def offsetRange (r : Nat × Nat) (offset : Nat) : Nat × Nat := (offset + r.1, offset + r.2)

/-- `skip_whitespaces` (194-197). -/
def skipWhitespaces (cc : CharClass) (s : Str) (start : Nat) : Nat :=
  start + ((s.drop start).takeWhile cc.isSpace).length

/-! ### Accepting matches (core/annotation/matching_annotator.py:200-249) -/

/-- The arguments of `get_fuzzy_match_filter` (200-202). -/
structure CoreFilter where
  bScore : Rat
  minCount : Nat
  totalThreshold : Rat
  ratioMinCount : Nat
  ratioThreshold : Rat

/-- `check` of `get_fuzzy_match_filter` (203-218). -/
def CoreFilter.check (f : CoreFilter) (fm : FuzzyResult) (next : Option FuzzyResult) (previous : Bool) : Bool :=
  (decide (f.ratioMinCount ≤ fm.matchCount) && decide (f.ratioThreshold ≤ fm.ratio)) ||
  (decide (f.bScore ≤ fm.bGapRatio) &&
    (previous ||
      (decide (f.minCount ≤ fm.matchCount) &&
        (match next with
          | none => true
          | some n => decide (f.ratioThreshold ≤ n.ratio))) ||
      decide (f.totalThreshold ≤ fm.aRatio)))

/-- `get_simple_fuzzy_match_filter` (222-230). -/
def simpleFilter (threshold : Rat) (minCount ratioMinCount : Nat) : CoreFilter :=
  ⟨threshold, minCount, threshold, ratioMinCount, threshold⟩

/-- `MatchingAnnotatorConfig` (299-311) without the reporter of debug information. -/
structure CoreCfg where
  /-- `DEFAULT_SEQ_FUZZY_MATCH_FILTER` (239-243) -/
  seqFilter : CoreFilter := simpleFilter (9/10) 5 50
  /-- `DEFAULT_CHOICE_FUZZY_MATCH_FILTER` (245-249) -/
  choiceFilter : CoreFilter := simpleFilter (9/10) 1 100
  maxGap : Nat := 5
  useBeginPrefix : Bool := false

/-! ### Finding matches (core/annotation/matching_annotator.py:314-523) -/

/-- The variables of `_do_find_next_best_matches` which change from choice to choice (374-383): `start_index`,
`previous_match` and the positions in `matched_choices`. -/
structure FindState where
  start : Nat
  previous : Bool
  matched : List Nat

/-- What one choice leads to: the matches found, the state afterwards and `is_last_match`. -/
structure ChoiceResult where
  found : List SeqMatch
  state : FindState
  last : Bool

/-- `choice_str` (392-397). -/
def choiceStr (cur : Str) (next : Option (CoreSeq × Str)) : Str :=
  match next with
  | none => cur
  | some n => cur ++ [' '] ++ n.2

/-- A choice of at most the length of the rest of the value (412-454). `SequenceMatch(…, next_choice, …)` with
`None` for `next_choice` leads to an `AttributeError` when the matches are sorted. The position of the choice
is added to the matched ones also for the next choice (442). -/
def regularStep (env : CoreEnv) (cfg : CoreCfg) (s1 : Str) (st : FindState) (choice : CoreSeq) (cur : Str)
    (next : Option (CoreSeq × Str)) : Except Err ChoiceResult :=
  let combined := coreFuzzyMatch env s1 (choiceStr cur next)
  let fm := (combined.bSplitAt env.cc cur.length).1
  let fmNext := (combined.bSplitAt env.cc cur.length).2
  if fm.hasMatch && (cfg.seqFilter.check fm (some fmNext) st.previous ||
      (cfg.seqFilter.check combined none false && decide (fm.bRange.1 < cur.length))) then
    let m : SeqMatch := ⟨choice, fm.aRange, fm.bRange⟩
    let matched := choice.position :: st.matched
    if fmNext.hasMatch then
      match next with
      | none => .error .attributeError
      | some n =>
        let e := skipWhitespaces env.cc s1 fmNext.aRange.2
        .ok ⟨[m, ⟨n.1, fmNext.aRange, fmNext.bRange⟩],
          ⟨if s1.length ≤ e then st.start else e, true, matched⟩, decide (s1.length ≤ e)⟩
    else
      let e := skipWhitespaces env.cc s1 fm.aRange.2
      .ok ⟨[m], ⟨if s1.length ≤ e then st.start else e, true, matched⟩, decide (s1.length ≤ e)⟩
  else .ok ⟨[], st, false⟩

/-- A choice longer than the rest of the value, and all choices for sub annotations (455-491). The position
of the next choice is added to the matched ones (489), so that `None` raises an `AttributeError`. -/
def shortStep (env : CoreEnv) (cfg : CoreCfg) (s1 : Str) (st : FindState) (choice : CoreSeq) (cur : Str)
    (next : Option (CoreSeq × Str)) : Except Err ChoiceResult :=
  let combined := coreFuzzyMatch env (choiceStr cur next) (s1.drop st.start)
  let fm := (combined.aSplitAt env.cc cur.length).1
  let fmNext := (combined.aSplitAt env.cc cur.length).2
  if fm.hasMatch && (cfg.choiceFilter.check fm none st.previous ||
      (cfg.choiceFilter.check combined none false && decide (combined.aRange.1 < cur.length))) then
    let m : SeqMatch := ⟨choice, offsetRange fm.bRange st.start, fm.aRange⟩
    if fmNext.hasMatch then
      match next with
      | none => .error .attributeError
      | some n =>
        .ok ⟨[m, ⟨n.1, offsetRange fmNext.bRange st.start, fmNext.aRange⟩],
          { st with matched := n.1.position :: choice.position :: st.matched }, true⟩
    else .ok ⟨[m], { st with matched := choice.position :: st.matched }, true⟩
  else .ok ⟨[], st, false⟩

/-- The two cases (410-412, 455). -/
def choiceStep (env : CoreEnv) (cfg : CoreCfg) (isSub : Bool) (s1 : Str) (st : FindState) (choice : CoreSeq)
    (cur : Str) (next : Option (CoreSeq × Str)) : Except Err ChoiceResult :=
  if isSub || decide (s1.length - st.start < cur.length) then shortStep env cfg s1 st choice cur next
  else regularStep env cfg s1 st choice cur next

/-- The result of `_do_find_next_best_matches`: the matches, the matched positions, and the number of
choices taken, unless all of them have been taken. -/
structure FindResult where
  found : List SeqMatch
  matched : List Nat
  used : Option Nat

/-- The loop of `_do_find_next_best_matches` (385-517) over the choices, each with the next choice. -/
def findLoop (env : CoreEnv) (cfg : CoreCfg) (isSub : Bool) (text : CoreSeq → Str) (s1 : Str) :
    FindState → List (CoreSeq × Option CoreSeq) → Except Err FindResult
  | st, [] => .ok ⟨[], st.matched, none⟩
  | st, (choice, next) :: ps =>
    if !isCloseToAny st.matched cfg.maxGap choice then
      match findLoop env cfg isSub text s1 st ps with
      | .error e => .error e
      | .ok r => .ok { r with used := r.used.map (· + 1) }
    else if (text choice).isEmpty then .ok ⟨[], st.matched, some 1⟩
    else
      match choiceStep env cfg isSub s1 st choice (text choice) (next.map (fun n => (n, text n))) with
      | .error e => .error e
      | .ok r =>
        if r.last then .ok ⟨r.found, r.state.matched, some 1⟩
        else
          match findLoop env cfg isSub text s1 r.state ps with
          | .error e => .error e
          | .ok r' => .ok ⟨r.found ++ r'.found, r'.matched, r'.used.map (· + 1)⟩

/-- The loop of `find_next_best_matches` over the texts of a list (341-353): the matches of all of them, the
matched positions, and the numbers of choices taken. -/
def findTexts (env : CoreEnv) (cfg : CoreCfg) (isSub : Bool) (text : CoreSeq → Str)
    (pairs : List (CoreSeq × Option CoreSeq)) :
    List Nat → List Str → Except Err (List SeqMatch × List Nat × List (Option Nat))
  | matched, [] => .ok ([], matched, [])
  | matched, s :: ss =>
    match findLoop env cfg isSub text s ⟨0, false, matched⟩ pairs with
    | .error e => .error e
    | .ok r =>
      match findTexts env cfg isSub text pairs r.matched ss with
      | .error e => .error e
      | .ok (found, matched', used) => .ok (r.found ++ found, matched', r.used :: used)

/-- `find_next_best_matches` (339-369) of the target annotation with this name and flag `bonding`. -/
def findNext (env : CoreEnv) (cfg : CoreCfg) (isSub : Bool) (text : CoreSeq → Str) (name : Str) (bonding : Bool)
    (pairs : List (CoreSeq × Option CoreSeq)) (matched : List Nat) :
    TargetValue → Except Err (List SeqMatch × List Nat × List (Option Nat))
  | .one s =>
    match findLoop env cfg isSub text s ⟨0, false, matched⟩ pairs with
    | .error e => .error e
    | .ok r => .ok (r.found, r.matched, [r.used])
  | .many ss =>
    match findTexts env cfg isSub text pairs matched ss with
    | .error e => .error e
    | .ok (found, matched', used) =>
      .ok (if !bonding || decide (1 < found.length) || name == c!"author" then found else [], matched', used)

/-! ### The choices (core/annotation/matching_annotator.py:336-337, 344-348, 684-686) -/

/-- The choices of a match finder: an iterator over the untagged sub sequences of the pending sequences,
read by two cursors. `made` are the sub sequences read so far, `rest` the pending sequences whose sub
sequences have not been asked for. `cur` and `nxt` are the positions of `current_choices` and
`next_choices`. -/
structure Choices where
  made : List CoreSeq
  rest : List CoreSeq
  cur : Nat
  nxt : Nat

/-- The choices with the sub sequences as they are for the tags of the document. -/
def Choices.all (d : Doc) (c : Choices) : List CoreSeq := c.made ++ c.rest.flatMap (coreSubSeqs d)

/-- `zip_longest(current_choices, next_choices)` (385). The current choices never run out before the next
ones, which are ahead of them. -/
def pairUp : List CoreSeq → List CoreSeq → List (CoreSeq × Option CoreSeq)
  | [], _ => []
  | c :: cs, ns => (c, ns.head?) :: pairUp cs ns.tail

/-- The choices from the cursors on, in pairs. -/
def Choices.pairs (d : Doc) (c : Choices) : List (CoreSeq × Option CoreSeq) :=
  pairUp ((c.all d).drop c.cur) ((c.all d).drop c.nxt)

/-- The iterator asked for its first `n` items: only so many of the pending sequences are looked at as
necessary. -/
def drawChoices (d : Doc) (n : Nat) : List CoreSeq → List CoreSeq → List CoreSeq × List CoreSeq
  | made, [] => (made, [])
  | made, s :: rest => if n ≤ made.length then (made, s :: rest) else drawChoices d n (made ++ coreSubSeqs d s) rest

/-- The largest number taken; `none` stands for all. -/
def mostUsed : List (Option Nat) → Option Nat
  | [] => some 0
  | none :: _ => none
  | some n :: us => (mostUsed us).map (max n)

/-- The choices after a call which has taken these numbers of choices for the texts: `tee` of
`current_choices`, which is itself made by `tee`, uses the same iterator for the first text, and
`next_choices` has been read as far as for any of the texts. -/
def Choices.after (d : Doc) (c : Choices) (used : List (Option Nat)) : Choices :=
  match used with
  | [] => c
  | u :: _ =>
    let drawn := match mostUsed used with
      | none => (c.all d, [])
      | some n => drawChoices d (c.nxt + n) c.made c.rest
    { made := drawn.1
      rest := drawn.2
      cur := match u with
        | none => (c.all d).length
        | some n => c.cur + n
      nxt := match mostUsed used with
        | none => max c.nxt ((c.all d).length + 1)
        | some n => c.nxt + n }

/-! ### Applying matches (core/annotation/matching_annotator.py:549-641) -/

/-- Order of the keys of `sorted_matches_by_position` (549-553). -/
def matchLe (m m' : SeqMatch) : Bool :=
  decide (m.seq.position < m'.seq.position) ||
  (decide (m.seq.position = m'.seq.position) && rangeLe m.range2 m'.range2)

/-- `matches_position_range` (556-558) of a nonempty list. -/
def positionRange : List SeqMatch → Nat × Nat
  | [] => (0, 0)
  | m :: ms => (ms.foldl (fun p x => min p x.seq.position) m.seq.position,
      ms.foldl (fun p x => max p x.seq.position) m.seq.position)

/-- `distance_between_matches` (561-567). -/
def matchDistance (ms ms' : List SeqMatch) : Nat :=
  min (natDist (positionRange ms').1 (positionRange ms).2) (natDist (positionRange ms).1 (positionRange ms').2)

/-- The prefix of a tag (602-604, 627-629). -/
def corePrefix (cfg : CoreCfg) (first : Bool) : Option Str :=
  if cfg.useBeginPrefix then some (if first then bPrefix else iPrefix) else none

/-- A sub annotation: the fields of `TargetAnnotation` (core/annotation/target_annotation.py:51-62) used. -/
structure CoreSub where
  name : Str
  value : TargetValue
  bonding : Bool := false

/-- `TargetAnnotation` (core/annotation/target_annotation.py:51-62); no sub annotations are an empty list. -/
structure CoreTarget where
  name : Str
  value : TargetValue
  matchMultiple : Bool := false
  bonding : Bool := false
  requireNext : Bool := false
  subs : List CoreSub := []

/-- The loop over the tokens of all matches of a sub annotation (592-606). -/
def subTagLoop (cfg : CoreCfg) (name : Str) : Doc → Bool → List Nat → Doc
  | d, _, [] => d
  | d, first, i :: is => subTagLoop cfg name (d.setSubTag i (addTagPrefix (some name) (corePrefix cfg first))) false is

/-- The loop of `_apply_sub_annotations` (570-606) over the sub annotations; `seq` are all tokens matched
(574-577). Texts do not depend on tags. -/
def applySubs (env : CoreEnv) (cfg : CoreCfg) (seq : CoreSeq) : Doc → List Nat → List CoreSub → Except Err Doc
  | d, _, [] => .ok d
  | d, matched, s :: ss =>
    match findNext env cfg true (coreSeqText env (normaliseStr env.lower) d) s.name s.bonding [(seq, none)] matched
        (s.value.map (normaliseStr env.lower)) with
    | .error e => .error e
    | .ok (found, matched', _) =>
      applySubs env cfg seq
        (subTagLoop cfg s.name d true
          (found.flatMap (fun m => coreTokensBetween env (normaliseStr env.lower) d m.range2 m.seq)))
        matched' ss

/-- The loop of `_apply_annotations_to_matches` (625-636) over the tokens of a match: the document and
`all_matching_tokens`. `first_token` is true as long as that list is empty. -/
def tagLoop (cfg : CoreCfg) (name : Str) : Doc × List Nat → List Nat → Doc × List Nat
  | st, [] => st
  | (d, all), i :: is =>
    if truthy (d.getTag i) then tagLoop cfg name (d, all) is
    else tagLoop cfg name (d.setTag i (addTagPrefix (some name) (corePrefix cfg all.isEmpty)), all ++ [i]) is

/-- `_apply_annotations_to_matches` (609-641). -/
def applyMatches (env : CoreEnv) (cfg : CoreCfg) (t : CoreTarget) : Doc × List Nat → List SeqMatch → Except Err Doc
  | (d, _), [] => .ok d
  | (d, all), m :: ms =>
    let st := tagLoop cfg t.name (d, all) (coreTokensBetween env (coreNormalise env) d m.range2 m.seq)
    if t.subs.isEmpty then applyMatches env cfg t st ms
    else
      match applySubs env cfg ⟨st.2, 0⟩ st.1 [] t.subs with
      | .error e => .error e
      | .ok d' => applyMatches env cfg t (d', st.2) ms

/-! ### The annotator (core/annotation/matching_annotator.py:644-732) -/

/-- `conditional_match` (678, 721-725): a target annotation with its matches. -/
abbrev Conditional := Option (CoreTarget × List SeqMatch)

/-- Applies the conditional match if the matches are next to it (711-720). -/
def applyConditional (env : CoreEnv) (cfg : CoreCfg) (cond : Conditional) (ms : List SeqMatch) (d : Doc) : Except Err Doc :=
  match cond with
  | none => .ok d
  | some (t, ms') => if matchDistance ms ms' ≤ 1 then applyMatches env cfg t (d, []) ms' else .ok d

/-- The `while` loop for one target annotation (701-731): the document, the conditional match and the matched
positions. The first argument bounds the number of iterations; `none` means that it was too small. -/
def annotateItems (env : CoreEnv) (cfg : CoreCfg) (t : CoreTarget) :
    Nat → Doc → Conditional → List Nat → Choices → Except Err (Option (Doc × Conditional × List Nat))
  | 0, _, _, _, _ => .ok none
  | n + 1, d, cond, matched, choices =>
    match findNext env cfg false (coreSeqText env (coreNormalise env) d) t.name t.bonding (choices.pairs d) matched
        (t.value.map (coreNormalise env)) with
    | .error e => .error e
    | .ok (found, matched', used) =>
      let ms := sortBy matchLe found
      if ms.isEmpty then .ok (some (d, none, matched'))
      else
        match applyConditional env cfg cond ms d with
        | .error e => .error e
        | .ok d1 =>
          match (if t.requireNext then .ok d1 else applyMatches env cfg t (d1, []) ms) with
          | .error e => .error e
          | .ok d2 =>
            let cond' := if t.requireNext then some (t, ms) else cond
            if t.matchMultiple then annotateItems env cfg t n d2 cond' matched' (choices.after d used)
            else .ok (some (d2, cond', matched'))

/-- The pending sequences (658-676). -/
def corePending (d : Doc) : List CoreSeq := (pendingOfDoc d).zipIdx.map (fun x => ⟨x.1, x.2⟩)

/-- State of the loop over the target annotations (678-681). -/
structure CoreState where
  doc : Doc
  cond : Conditional
  /-- `matched_choices_map` -/
  matchedMap : Dict (List Nat)

/-- The loop over the target annotations (681-731). -/
def annotateTargets (env : CoreEnv) (cfg : CoreCfg) (fuel : Nat) (pending : List CoreSeq) :
    CoreState → List CoreTarget → Except Err (Option CoreState)
  | st, [] => .ok (some st)
  | st, t :: ts =>
    let matched := if t.bonding then st.matchedMap.getD t.name [] else []
    match annotateItems env cfg t fuel st.doc st.cond matched ⟨[], pending, 0, 1⟩ with
    | .error e => .error e
    | .ok none => .ok none
    | .ok (some (d, cond, matched')) =>
      annotateTargets env cfg fuel pending
        ⟨d, cond, if t.bonding then st.matchedMap.set t.name matched' else st.matchedMap⟩ ts

/-- `MatchingAnnotator.annotate` (657-732): one iteration more than there are tokens suffices for each target
annotation (`C84_terminates`). -/
def coreAnnotate (env : CoreEnv) (cfg : CoreCfg) (targets : List CoreTarget) (d : Doc) : Except Err Doc :=
  let pending := corePending d
  match annotateTargets env cfg ((pending.flatMap (·.tokens)).length + 1) pending ⟨d, none, []⟩ targets with
  | .error e => .error e
  | .ok none => .error .runtimeError
  | .ok (some st) => .ok st.doc

end Verif
