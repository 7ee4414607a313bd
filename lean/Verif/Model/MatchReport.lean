/-
Model of the report of the comparisons made by `MatchingAnnotator`, which is written with the option `--debug-match`
(core/annotation/matching_annotator.py:252-296, 492-515, 526-546; auto_annotate_utils.py:430-436).
-/
import Verif.Model.CoreMatching

namespace Verif

/-- The values in the columns of a report. A result of a comparison is written by its `__repr__`, which belongs to the
parameter for the text of a row. -/
inductive Cell where
  | missing
  | bool (b : Bool)
  | nat (n : Nat)
  | text (s : Str)
  | result (fm : FuzzyResult)

def Cell.ofOption {α : Type} (f : α → Cell) : Option α → Cell
  | none => .missing
  | some a => f a

/-- `MatchDebugFields` and `DEFAULT_MATCH_DEBUG_COLUMNS` (252-296). -/
def reportColumns : List Str :=
  [c!"id", c!"tag", c!"match_multiple", c!"tag_value_pre", c!"tag_value_current", c!"start_index", c!"next_start_index",
   c!"reached_end", c!"choice_combined", c!"choice_current", c!"choice_next", c!"accepted", c!"tag_to_choice_match",
   c!"sub_annotation", c!"fm_combined", c!"fm_combined_detailed", c!"fm_current", c!"fm_current_detailed", c!"fm_next",
   c!"fm_next_detailed"]

/-- `detailed_str` (core/annotation/fuzzy_match.py:259-265). -/
def FuzzyResult.detailedStr (fm : FuzzyResult) : Str :=
  let n := Nat.toDigits 10
  c!"matching_blocks=[" ++ joinStr c!", " (fm.nonEmpty.map (fun b =>
    c!"(a[" ++ n b.a ++ c!":+" ++ n b.size ++ c!"] = b[" ++ n b.b ++ c!":+" ++ n b.size ++ c!"] = \"" ++
      (fm.a.drop b.a).take b.size ++ c!"\")")) ++ c!"]"

/-- The values passed to the reporter for one comparison (493-515). -/
structure ReportRow where
  tag : Str
  matchMultiple : Bool
  pre : Str
  current : Str
  start : Nat
  nextStart : Nat
  reachedEnd : Option Bool
  combined : Str
  choice : Str
  next : Option Str
  accepted : Bool
  tagToChoice : Bool
  sub : Bool
  fmCombined : FuzzyResult
  fm : FuzzyResult
  fmNext : FuzzyResult

/-- The dictionary passed to the reporter (493-515). A result of a comparison counts as true, so the detailed texts
(508-510, 512) are always there. -/
def ReportRow.dict (r : ReportRow) : Dict Cell :=
  [(c!"tag", .text r.tag), (c!"match_multiple", .bool r.matchMultiple), (c!"tag_value_pre", .text r.pre),
   (c!"tag_value_current", .text r.current), (c!"start_index", .nat r.start), (c!"next_start_index", .nat r.nextStart),
   (c!"reached_end", .ofOption .bool r.reachedEnd), (c!"choice_combined", .text r.combined), (c!"choice_current", .text r.choice),
   (c!"choice_next", .ofOption .text r.next), (c!"accepted", .bool r.accepted), (c!"tag_to_choice_match", .bool r.tagToChoice),
   (c!"sub_annotation", .bool r.sub), (c!"fm_combined", .result r.fmCombined),
   (c!"fm_combined_detailed", .text r.fmCombined.detailedStr), (c!"fm_current", .result r.fm),
   (c!"fm_current_detailed", .text r.fm.detailedStr), (c!"fm_next", .result r.fmNext),
   (c!"fm_next_detailed", .text r.fmNext.detailedStr)]

/-- What the reporter needs to know of the target annotation and the search. -/
structure ReportCtx where
  tag : Str
  matchMultiple : Bool
  isSub : Bool

/-- `accept_match` of a regular comparison (421-424). -/
def regularAccepted (env : CoreEnv) (cfg : CoreCfg) (s1 : Str) (st : FindState) (cur : Str) (next : Option (CoreSeq × Str)) : Bool :=
  let combined := coreFuzzyMatch env s1 (choiceStr cur next)
  let fm := (combined.bSplitAt env.cc cur.length).1
  let fmNext := (combined.bSplitAt env.cc cur.length).2
  fm.hasMatch && (cfg.seqFilter.check fm (some fmNext) st.previous ||
    (cfg.seqFilter.check combined none false && decide (fm.bRange.1 < cur.length)))

/-- `index1_end` of a regular comparison (445-447). -/
def regularEnd (env : CoreEnv) (s1 cur : Str) (next : Option (CoreSeq × Str)) : Nat :=
  let split := (coreFuzzyMatch env s1 (choiceStr cur next)).bSplitAt env.cc cur.length
  skipWhitespaces env.cc s1 (if split.2.hasMatch then split.2.aRange.2 else split.1.aRange.2)

/-- The row for a regular comparison (413-454, 492-515). -/
def regularRow (env : CoreEnv) (cfg : CoreCfg) (ctx : ReportCtx) (s1 : Str) (st : FindState) (cur : Str)
    (next : Option (CoreSeq × Str)) : ReportRow :=
  let combined := coreFuzzyMatch env s1 (choiceStr cur next)
  let accepted := regularAccepted env cfg s1 st cur next
  let e := regularEnd env s1 cur next
  { tag := ctx.tag
    matchMultiple := ctx.matchMultiple
    pre := s1.take st.start
    current := s1.drop st.start
    start := st.start
    nextStart := if accepted && !decide (s1.length ≤ e) then e else st.start
    reachedEnd := if accepted then some (decide (s1.length ≤ e)) else none
    combined := choiceStr cur next
    choice := cur
    next := next.map (·.2)
    accepted := accepted
    tagToChoice := false
    sub := ctx.isSub
    fmCombined := combined
    fm := (combined.bSplitAt env.cc cur.length).1
    fmNext := (combined.bSplitAt env.cc cur.length).2 }

/-- The row for a comparison with a longer choice (455-515). -/
def shortRow (env : CoreEnv) (cfg : CoreCfg) (ctx : ReportCtx) (s1 : Str) (st : FindState) (cur : Str)
    (next : Option (CoreSeq × Str)) : ReportRow :=
  let combined := coreFuzzyMatch env (choiceStr cur next) (s1.drop st.start)
  let fm := (combined.aSplitAt env.cc cur.length).1
  { tag := ctx.tag
    matchMultiple := ctx.matchMultiple
    pre := s1.take st.start
    current := s1.drop st.start
    start := st.start
    nextStart := st.start
    reachedEnd := none
    combined := choiceStr cur next
    choice := cur
    next := next.map (·.2)
    accepted := fm.hasMatch && (cfg.choiceFilter.check fm none st.previous ||
      (cfg.choiceFilter.check combined none false && decide (combined.aRange.1 < cur.length)))
    tagToChoice := true
    sub := ctx.isSub
    fmCombined := combined
    fm := fm
    fmNext := (combined.aSplitAt env.cc cur.length).2 }

/-- The row for a choice (410-515). -/
def choiceRow (env : CoreEnv) (cfg : CoreCfg) (ctx : ReportCtx) (s1 : Str) (st : FindState) (cur : Str)
    (next : Option (CoreSeq × Str)) : ReportRow :=
  if ctx.isSub || decide (s1.length - st.start < cur.length) then shortRow env cfg ctx s1 st cur next
  else regularRow env cfg ctx s1 st cur next

/-! ### The annotator with a reporter

The functions of `Verif.Model.CoreMatching` with the rows passed to the reporter besides their result. -/

/-- A result with the rows reported so far. -/
abbrev Reported (α : Type) := Except Err α × List ReportRow

/-- One computation after another. -/
def Reported.then {α β : Type} (x : Reported α) (f : α → Reported β) : Reported β :=
  match x.1 with
  | .error e => (.error e, x.2)
  | .ok a => ((f a).1, x.2 ++ (f a).2)

/-- A computation without a report. -/
def Reported.silent {α : Type} (x : Except Err α) : Reported α := (x, [])

/-- `findLoop` (385-517). A row is only reported behind the processing of a choice (492). -/
def findLoopR (env : CoreEnv) (cfg : CoreCfg) (ctx : ReportCtx) (text : CoreSeq → Str) (s1 : Str) :
    FindState → List (CoreSeq × Option CoreSeq) → Reported FindResult
  | st, [] => .silent (.ok ⟨[], st.matched, none⟩)
  | st, (choice, next) :: ps =>
    if !isCloseToAny st.matched cfg.maxGap choice then
      (findLoopR env cfg ctx text s1 st ps).then fun r => .silent (.ok { r with used := r.used.map (· + 1) })
    else if (text choice).isEmpty then .silent (.ok ⟨[], st.matched, some 1⟩)
    else
      let next' := next.map (fun n => (n, text n))
      (Reported.silent (choiceStep env cfg ctx.isSub s1 st choice (text choice) next')).then fun r =>
        Reported.then (.ok (), [choiceRow env cfg ctx s1 st (text choice) next']) fun _ =>
          if r.last then .silent (.ok ⟨r.found, r.state.matched, some 1⟩)
          else (findLoopR env cfg ctx text s1 r.state ps).then fun r' =>
            .silent (.ok ⟨r.found ++ r'.found, r'.matched, r'.used.map (· + 1)⟩)

/-- `findTexts` (341-353). -/
def findTextsR (env : CoreEnv) (cfg : CoreCfg) (ctx : ReportCtx) (text : CoreSeq → Str)
    (pairs : List (CoreSeq × Option CoreSeq)) :
    List Nat → List Str → Reported (List SeqMatch × List Nat × List (Option Nat))
  | matched, [] => .silent (.ok ([], matched, []))
  | matched, s :: ss =>
    (findLoopR env cfg ctx text s ⟨0, false, matched⟩ pairs).then fun r =>
      (findTextsR env cfg ctx text pairs r.matched ss).then fun q =>
        .silent (.ok (r.found ++ q.1, q.2.1, r.used :: q.2.2))

/-- `findNext` (339-369). -/
def findNextR (env : CoreEnv) (cfg : CoreCfg) (ctx : ReportCtx) (text : CoreSeq → Str) (bonding : Bool)
    (pairs : List (CoreSeq × Option CoreSeq)) (matched : List Nat) :
    TargetValue → Reported (List SeqMatch × List Nat × List (Option Nat))
  | .one s =>
    (findLoopR env cfg ctx text s ⟨0, false, matched⟩ pairs).then fun r => .silent (.ok (r.found, r.matched, [r.used]))
  | .many ss =>
    (findTextsR env cfg ctx text pairs matched ss).then fun q =>
      .silent (.ok (if !bonding || decide (1 < q.1.length) || ctx.tag == c!"author" then q.1 else [], q.2.1, q.2.2))

/-- `applySubs` (570-606); sub annotations are not matched multiple times. -/
def applySubsR (env : CoreEnv) (cfg : CoreCfg) (seq : CoreSeq) : Doc → List Nat → List CoreSub → Reported Doc
  | d, _, [] => .silent (.ok d)
  | d, matched, s :: ss =>
    (findNextR env cfg ⟨s.name, false, true⟩ (coreSeqText env (normaliseStr env.lower) d) s.bonding [(seq, none)] matched
        (s.value.map (normaliseStr env.lower))).then fun q =>
      applySubsR env cfg seq
        (subTagLoop cfg s.name d true
          (q.1.flatMap (fun m => coreTokensBetween env (normaliseStr env.lower) d m.range2 m.seq)))
        q.2.1 ss

/-- `applyMatches` (609-641). -/
def applyMatchesR (env : CoreEnv) (cfg : CoreCfg) (t : CoreTarget) : Doc × List Nat → List SeqMatch → Reported Doc
  | (d, _), [] => .silent (.ok d)
  | (d, all), m :: ms =>
    let st := tagLoop cfg t.name (d, all) (coreTokensBetween env (coreNormalise env) d m.range2 m.seq)
    if t.subs.isEmpty then applyMatchesR env cfg t st ms
    else (applySubsR env cfg ⟨st.2, 0⟩ st.1 [] t.subs).then fun d' => applyMatchesR env cfg t (d', st.2) ms

/-- `applyConditional` (711-720). -/
def applyConditionalR (env : CoreEnv) (cfg : CoreCfg) (cond : Conditional) (ms : List SeqMatch) (d : Doc) : Reported Doc :=
  match cond with
  | none => .silent (.ok d)
  | some (t, ms') => if matchDistance ms ms' ≤ 1 then applyMatchesR env cfg t (d, []) ms' else .silent (.ok d)

/-- `annotateItems` (701-731). -/
def annotateItemsR (env : CoreEnv) (cfg : CoreCfg) (t : CoreTarget) :
    Nat → Doc → Conditional → List Nat → Choices → Reported (Option (Doc × Conditional × List Nat))
  | 0, _, _, _, _ => .silent (.ok none)
  | n + 1, d, cond, matched, choices =>
    (findNextR env cfg ⟨t.name, t.matchMultiple, false⟩ (coreSeqText env (coreNormalise env) d) t.bonding (choices.pairs d) matched
        (t.value.map (coreNormalise env))).then fun q =>
      let ms := sortBy matchLe q.1
      if ms.isEmpty then .silent (.ok (some (d, none, q.2.1)))
      else
        (applyConditionalR env cfg cond ms d).then fun d1 =>
          Reported.then (if t.requireNext then .silent (.ok d1) else applyMatchesR env cfg t (d1, []) ms) fun d2 =>
            let cond' := if t.requireNext then some (t, ms) else cond
            if t.matchMultiple then annotateItemsR env cfg t n d2 cond' q.2.1 (choices.after d q.2.2)
            else .silent (.ok (some (d2, cond', q.2.1)))

/-- `annotateTargets` (681-731). -/
def annotateTargetsR (env : CoreEnv) (cfg : CoreCfg) (fuel : Nat) (pending : List CoreSeq) :
    CoreState → List CoreTarget → Reported (Option CoreState)
  | st, [] => .silent (.ok (some st))
  | st, t :: ts =>
    let matched := if t.bonding then st.matchedMap.getD t.name [] else []
    (annotateItemsR env cfg t fuel st.doc st.cond matched ⟨[], pending, 0, 1⟩).then fun o =>
      match o with
      | none => .silent (.ok none)
      | some (d, cond, matched') =>
        annotateTargetsR env cfg fuel pending
          ⟨d, cond, if t.bonding then st.matchedMap.set t.name matched' else st.matchedMap⟩ ts

/-- `MatchingAnnotator.annotate` (657-732) with a reporter. -/
def coreAnnotateR (env : CoreEnv) (cfg : CoreCfg) (targets : List CoreTarget) (d : Doc) : Reported Doc :=
  let pending := corePending d
  (annotateTargetsR env cfg ((pending.flatMap (·.tokens)).length + 1) pending ⟨d, none, []⟩ targets).then fun o =>
    match o with
    | none => .silent (.error .runtimeError)
    | some st => .silent (.ok st.doc)

/-! ### The file -/

/-- `__call__` (537-543): the values of the columns of a row; `id` is the number of the row. -/
def reportCells (id : Nat) (r : ReportRow) : List Cell :=
  reportColumns.map (fun k => if k = c!"id" then .nat id else (r.dict.get? k).getD .missing)

/-- The rows of a report from a number on (537-543). -/
def reportBody (id : Nat) : List ReportRow → List (List Cell)
  | [] => []
  | r :: rs => reportCells id r :: reportBody (id + 1) rs

/-- The rows of the file written by a reporter: first the names of the columns (527-535). -/
def reportFile (rows : List ReportRow) : List (List Cell) := reportColumns.map .text :: reportBody 1 rows

/-- The file after some documents have been annotated one after the other. For each document a new reporter is made
(auto_annotate_utils.py:430-436, 474), which opens the file; `opened` is what a file contains when it has been opened
with `open_csv_output` of sciencebeam_utils. -/
def reportAfter (opened : List (List Cell) → List (List Cell)) (file : List (List Cell)) :
    List (List ReportRow) → List (List Cell)
  | [] => file
  | rows :: rest => reportAfter opened (opened file ++ reportFile rows) rest

end Verif
