/-
Model of fix_jats_xml.py: functions on texts (identifiers, quotes, URLs).
-/
import Verif.Model.Basic
import Verif.Model.PyStr
import Verif.Model.TargetText

namespace Verif

/-- Python `x in s` for strings. -/
def strIn (x : Str) : Str → Bool
  | [] => x.isEmpty
  | c :: s => startsWith x (c :: s) || strIn x s

/-- Python `s.rstrip(chars)`. -/
def rstripOf (p : Char → Bool) (s : Str) : Str := (s.reverse.dropWhile p).reverse

/-- Parameters of the functions on identifiers. -/
structure JatsTextEnv where
  cc : CharClass
  /-- `\p{Punct}` of the package regex -/
  isPunct : Char → Bool
  /-- `m.start(1)` of `re.search(DOI_TRUNCATE_AT_PATTERN, doi)` (fix_jats_xml.py:96-100) -/
  truncateAt : Str → Option Nat
  /-- positions of group 1 of `re.search(ARTICLE_TITLE_PATTERN, text)` (fix_jats_xml.py:93) -/
  titleSpan : Str → Option (Nat × Nat)

/-- The part `\d*(?:\.\d{1,})*/` of DOI_PATTERN (fix_jats_xml.py:80); the result is the text behind
it.  `need` is whether a digit is required, behind a dot.  A digit is neither `.` nor `/`, so that
there is only one way to match. -/
def doiRest (cc : CharClass) : Bool → Str → Option Str
  | _, [] => none
  | need, c :: s =>
    if cc.isDigit c then doiRest cc false s
    else if need then none
    else if c = '.' then doiRest cc true s
    else if c = '/' then some s
    else none

/-- Group 1 of DOI_PATTERN (fix_jats_xml.py:80) at the start of a text: its length. -/
def doiAt (cc : CharClass) : Str → Option Nat
  | '1' :: '0' :: '.' :: r =>
    if (r.takeWhile cc.isDigit).length < 4 then none
    else match doiRest cc false r with
      | none => none
      | some rest =>
        let line := rest.takeWhile (fun c => c ≠ '\n')
        if line.isEmpty then none else some (3 + (r.length - rest.length) + line.length)
  | _ => none

/-- `re.search(DOI_PATTERN, text)` from position `pos` on; `prev` is the character before. -/
def doiSearch (cc : CharClass) : Option Char → Nat → Str → Option (Nat × Nat)
  | _, _, [] => none
  | prev, pos, c :: s =>
    match (if (prev.map cc.isWord).getD false != cc.isWord c then doiAt cc (c :: s) else none) with
    | some n => some (pos, pos + n)
    | none => doiSearch cc (some c) (pos + 1) s

/-- `remove_punct` (fix_jats_xml.py:255-256). -/
def removePunct (env : JatsTextEnv) (s : Str) : Str := s.filter (fun c => !env.isPunct c)

/-- `remove_punct_or_whitespace` (fix_jats_xml.py:259-260). -/
def removePunctOrSpace (env : JatsTextEnv) (s : Str) : Str := s.filter (fun c => !(env.isPunct c || env.cc.isSpace c))

/-- Python `s.rsplit(' ', maxsplit=1)`, if there is a space. -/
def rsplitSpace (s : Str) : Option (Str × Str) :=
  if ' ' ∈ s then
    let last := (s.reverse.takeWhile (fun c => c ≠ ' ')).reverse
    some (s.take (s.length - last.length - 1), last)
  else none

/-- `strip_pii_from_doi` (fix_jats_xml.py:263-286). -/
def stripPiiFromDoi (env : JatsTextEnv) (doi : Str) : Str :=
  if !endsWith c!"[pii]" doi then doi
  else
    let doi := rstrip env.cc (doi.take (doi.length - 5))
    match rsplitSpace doi with
    | none => doi
    | some (start, dup) =>
      if dup.length < 3 then doi
      else if strIn dup start then rstrip env.cc start
      else if (removePunct env dup).length < 3 then doi
      else if strIn (removePunct env dup) (removePunct env start) then rstrip env.cc start
      else doi

/-- `remove_duplicate_doi` (fix_jats_xml.py:289-303). -/
def removeDuplicateDoi (env : JatsTextEnv) (doi : Str) : Except Err Str :=
  match splitOnce '/' doi with
  | [pre, path] =>
    match doiSearch env.cc none 0 path with
    | none => .ok doi
    | some (other, _) =>
      let start := pre ++ '/' :: path.take other
      if strIn (path.drop other) start then .ok (rstrip env.cc start)
      else if strIn (removePunctOrSpace env (path.drop other)) (removePunctOrSpace env start) then .ok (rstrip env.cc start)
      else .ok doi
  | _ => .error .valueError

/-- `truncate_doi_at_known_tokens` (fix_jats_xml.py:306-314). -/
def truncateDoi (env : JatsTextEnv) (doi : Str) : Str :=
  match env.truncateAt doi with
  | none => doi
  | some i => rstripOf (· = '.') (rstrip env.cc (doi.take i))

/-- `find_doi_start_end` (fix_jats_xml.py:317-334). -/
def findDoi (env : JatsTextEnv) (text : Str) : Except Err (Option (Nat × Nat)) :=
  match doiSearch env.cc none 0 text with
  | none => .ok none
  | some (start, stop) =>
    let doi := rstrip env.cc (rstripOf (· = '.') (rstrip env.cc (sliceStr text start stop)))
    let doi := truncateDoi env doi
    let doi := if endsWith c!"[doi]" doi then rstrip env.cc (doi.take (doi.length - 5)) else doi
    let doi := stripPiiFromDoi env doi
    match removeDuplicateDoi env doi with
    | .error e => .error e
    | .ok doi =>
      let doi := rstripOf (· = ';') doi
      let doi := if doi.count ']' > doi.count '[' then rstrip env.cc (rstripOf (· = ']') doi) else doi
      if sliceStr text start (start + doi.length) = doi then .ok (some (start, start + doi.length))
      else .error .assertionError

/-- The pairs of quotes of `has_surrounding_quotes` (fix_jats_xml.py:386-388). -/
def quotePairs : List (Char × Char) := [('"', '"'), ('‘', '’'), ('“', '”')]

/-- `has_surrounding_quotes` (fix_jats_xml.py:380-390). -/
def hasSurroundingQuotes (text : Str) (start stop : Nat) : Bool :=
  decide (stop > start + 2) &&
    quotePairs.any (fun q => decide (text[start]? = some q.1) && decide (text[stop - 1]? = some q.2))

/-- `find_article_title_start_end` (fix_jats_xml.py:393-401). -/
def findArticleTitle (env : JatsTextEnv) (text : Str) : Nat × Nat :=
  let (start, stop) := (env.titleSpan text).getD (0, text.length)
  if hasSurroundingQuotes text start stop then (start + 1, stop - 1) else (start, stop)

/-- Positions of the matches of `https?://`, from position `pos` on; `skip` is the number of
characters left of the current match. -/
def urlStarts : Nat → Nat → Str → List Nat
  | _, _, [] => []
  | skip + 1, pos, _ :: s => urlStarts skip (pos + 1) s
  | 0, pos, c :: s =>
    if startsWith c!"https://" (c :: s) then pos :: urlStarts 7 (pos + 1) s
    else if startsWith c!"http://" (c :: s) then pos :: urlStarts 6 (pos + 1) s
    else urlStarts 0 (pos + 1) s

/-- The loop of `split_url` (fix_jats_xml.py:529-535). -/
def splitUrlLoop (url : Str) : List Nat → Nat → List Str
  | [], pos => if url.length > pos then [url.drop pos] else []
  | start :: starts, pos =>
    (if start > pos then [sliceStr url pos start] else []) ++ splitUrlLoop url starts start

/-- `split_url` (fix_jats_xml.py:526-536). -/
def splitUrl (url : Str) : List Str := splitUrlLoop url (urlStarts 0 0 url) 0

/-- `get_full_cleaned_url` (fix_jats_xml.py:166-170). -/
def fullCleanedUrl (cc : CharClass) (text : Str) : Str :=
  let url := text.filter (fun c => !cc.isSpace c)
  if strIn c!"://" url then url else c!"https://" ++ url

end Verif
