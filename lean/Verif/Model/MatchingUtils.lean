/-
Model of `annotation/matching_utils.py`: joined texts, sequences of tokens and pending sequences.
-/
import Verif.Model.TeiDoc
import Verif.Model.PyStr

namespace Verif

/-- Python `s.replace(old, new)` for a nonempty `old`. -/
def replaceAll (old new : Str) : Str → Str
  | [] => []
  | c :: s =>
    if old ≠ [] ∧ startsWith old (c :: s) = true then new ++ replaceAll old new (s.drop (old.length - 1))
    else c :: replaceAll old new s
termination_by s => s.length
decreasing_by all_goals simp_wf <;> omega

/-- `normalise_str` (annotation/matching_utils.py:47-52); `lower` is `str.lower`. -/
def normaliseStr (lower : Str → Str) (s : Str) : Str :=
  replaceAll ['\''] ['"'] (replaceAll c!"&apos;" ['"'] (replaceAll ['\u2009'] [' ']
    (replaceAll ['\u2013'] ['-'] (replaceAll ['\u2014'] ['-'] (lower s)))))

/-- The index ranges computed by `join_with_index_ranges` (annotation/matching_utils.py:132-141) for
the items, each with the white space behind it, from `item_start` on. -/
def itemRanges (pad : Str) : Nat → List (Str × Str) → List (Nat × Nat)
  | _, [] => []
  | start, (s, w) :: items =>
    let e := start + (pad ++ s ++ pad).length
    (start, e) :: itemRanges pad (e + w.length + 2 * pad.length) items

/-- `''.join(iter_flatten(zip(item_str_list, whitespace_list)))` (annotation/matching_utils.py:129). -/
def joinedText (pad : Str) (items : List (Str × Str)) : Str :=
  items.flatMap (fun x => pad ++ x.1 ++ pad ++ x.2)

/-- `whitespace_list[-1] = ''` (annotation/matching_utils.py:128). -/
def clearLast (ws : List Str) : List Str := ws.dropLast ++ (if ws.isEmpty then [] else [[]])

/-- `join_with_index_ranges` (annotation/matching_utils.py:116-142). -/
def joinWithIndexRanges (items : List Str) (sep pad : Str) (whitespace : Option (List (Option Str))) :
    Except Err (Str × List (Nat × Nat)) :=
  match whitespace with
  | some (w :: ws) =>
    let ws' := clearLast ((w :: ws).map (fun x => x.getD sep))
    let pairs := items.zip ws'
    if ws'.length < items.length then .error .indexError
    else .ok (joinedText pad pairs, itemRanges pad pad.length pairs)
  | _ =>
    .ok (joinStr sep (items.map (fun s => pad ++ s ++ pad)),
      itemRanges pad pad.length (items.map (fun s => (s, sep))))

/-- `JoinedText.end_index` (annotation/matching_utils.py:158-164). -/
def endIndex (ranges : List (Nat × Nat)) : Nat := (ranges.getLast?.map Prod.snd).getD 0

/-- The loop of `JoinedText.iter_item_indices_and_index_range_between`
(annotation/matching_utils.py:166-172) over the items, which carry their ranges. Positions asked for
may be negative. -/
def itemsBetween {α : Type} (start e : Int) : List (α × Nat × Nat) → List (α × Nat × Nat)
  | [] => []
  | (x, r) :: items =>
    if e ≤ r.1 then []
    else if start < r.2 then (x, r) :: itemsBetween start e items
    else itemsBetween start e items

/-- What a sequence of tokens depends on besides the tags: `str_filter_f`. -/
structure SeqEnv where
  cc : CharClass
  filter : Str → Str

/-- `get_token_whitespace` (annotation/matching_utils.py:109-113). -/
def tokenWhitespace (d : Doc) (i : Nat) : Str := (d.getWhitespace i).getD [' ']

/-- The items of the joined text of a `SequenceWrapper` (annotation/matching_utils.py:190-208): the
filtered text of each token with the white space behind it. A sequence is modelled by its tokens; text
and white space of a token never change. -/
def seqItems (env : SeqEnv) (d : Doc) (tokens : List Nat) : List (Str × Str) :=
  (tokens.map (fun i => env.filter (d.getText env.cc i))).zip (clearLast (tokens.map (tokenWhitespace d)))

/-- `str(SequenceWrapper)` (annotation/matching_utils.py:208, 235-236). -/
def seqText (env : SeqEnv) (d : Doc) (tokens : List Nat) : Str := joinedText [] (seqItems env d tokens)

/-- `SequenceWrapper.tokens_between` (annotation/matching_utils.py:210-212). -/
def tokensBetween (env : SeqEnv) (d : Doc) (start e : Int) (tokens : List Nat) : List Nat :=
  (itemsBetween start e (tokens.zip (itemRanges [] 0 (seqItems env d tokens)))).map Prod.fst

/-- The loop of `SequenceWrapper.untagged_sub_sequences` (annotation/matching_utils.py:225-233). -/
def untaggedLoop (d : Doc) (untagged : List Nat) : List Nat → List (List Nat)
  | [] => if untagged.isEmpty then [] else [untagged]
  | i :: is =>
    if !truthy (d.getTag i) then untaggedLoop d (untagged ++ [i]) is
    else if !untagged.isEmpty then untagged :: untaggedLoop d [] is
    else untaggedLoop d untagged is

/-- `SequenceWrapper.untagged_sub_sequences` (annotation/matching_utils.py:217-233). -/
def untaggedSubSequences (d : Doc) (tokens : List Nat) : List (List Nat) :=
  let tagged := (tokens.filter (fun i => truthy (d.getTag i))).length
  if tagged = 0 then [tokens]
  else if tagged = tokens.length then []
  else untaggedLoop d [] tokens

/-- `PendingSequences.get_pending_sequences` (annotation/matching_utils.py:264-273); a limit of `None`
or `0` is no limit. -/
def pendingSequences (d : Doc) (seqs : List (List Nat)) (limit : Option Nat) : List (List Nat) :=
  let all := seqs.flatMap (untaggedSubSequences d)
  match limit with
  | none => all
  | some 0 => all
  | some n => all.take n

/-- `PendingSequences.from_structured_document` (annotation/matching_utils.py:275-292) with
`get_untagged_line_tokens` (97-102); the positions are not used. -/
def pendingOfDoc (d : Doc) : List (List Nat) :=
  (d.lines.map (fun l => l.nonSpace.filter (fun i => !truthy (d.getTag i)))).filter (fun s => !s.isEmpty)

/-- The sequences of a `SequencesText` (annotation/matching_utils.py:295-297) with the default
separator, with their index ranges. -/
def seqRanges (env : SeqEnv) (d : Doc) (seqs : List (List Nat)) : List (List Nat × Nat × Nat) :=
  seqs.zip (itemRanges [] 0 (seqs.map (fun s => (seqText env d s, ['\n']))))

/-- `SequencesText.get_text` (annotation/matching_utils.py:328-329). -/
def seqsText (env : SeqEnv) (d : Doc) (seqs : List (List Nat)) : Str := joinStr ['\n'] (seqs.map (seqText env d))

/-- `SequencesText.end_index` (annotation/matching_utils.py:299-301). -/
def seqsEnd (env : SeqEnv) (d : Doc) (seqs : List (List Nat)) : Nat :=
  endIndex ((seqRanges env d seqs).map Prod.snd)

/-- `SequencesText.iter_sequences_between` (annotation/matching_utils.py:303-308). -/
def seqsBetween (env : SeqEnv) (d : Doc) (start e : Int) (seqs : List (List Nat)) : List (List Nat) :=
  (itemsBetween start e (seqRanges env d seqs)).map Prod.fst

/-- `SequencesText.iter_tokens_between` (annotation/matching_utils.py:310-316). -/
def seqTokensBetween (env : SeqEnv) (d : Doc) (start e : Int) (seqs : List (List Nat)) : List Nat :=
  (itemsBetween start e (seqRanges env d seqs)).flatMap (fun x =>
    tokensBetween env d (start - (x.2.1 : Int)) (e - (x.2.1 : Int)) x.1)

end Verif
