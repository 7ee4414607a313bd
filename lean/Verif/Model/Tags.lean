/-
Model of `core/structured_document/__init__.py`: tag prefixes, scoped attribute
names, simple tokens and merging of documents.
-/
import Verif.Model.Basic

namespace Verif

/-- `B_TAG_PREFIX` (core/structured_document/__init__.py:5). -/
def bPrefix : Str := c!"b-"
/-- `I_TAG_PREFIX` (core/structured_document/__init__.py:6). -/
def iPrefix : Str := c!"i-"

/-- `split_tag_prefix` (core/structured_document/__init__.py:49-55). -/
def splitTagPrefix : Option Str → Option Str × Option Str
  | none => (none, none)
  | some tag =>
    if truthy (some tag) then
      if startsWith bPrefix tag then (some bPrefix, some (tag.drop bPrefix.length))
      else if startsWith iPrefix tag then (some iPrefix, some (tag.drop iPrefix.length))
      else (none, some tag)
    else (none, some tag)

/-- `strip_tag_prefix` (core/structured_document/__init__.py:58-59). -/
def stripTagPrefix (tag : Option Str) : Option Str := (splitTagPrefix tag).2

/-- `add_tag_prefix` (core/structured_document/__init__.py:62-63). -/
def addTagPrefix (tag pre : Option Str) : Option Str :=
  match pre, tag with
  | some p, some t => if truthy (some p) && truthy (some t) then some (p ++ t) else some t
  | _, t => t

/-- `get_scoped_attrib_name` (core/structured_document/__init__.py:30-33) for a level that
is `None` or a natural number (`'%s' % level` prints its decimal digits; level `0` and the
empty scope are falsy and hence ignored). -/
def scopedAttribName (name : Str) (scope : Option Str) (level : Option Nat) : Str :=
  let name := match level with
    | none => name
    | some 0 => name
    | some n => c!"level" ++ Nat.toDigits 10 n ++ c!"_" ++ name
  match scope with
  | none => name
  | some [] => name
  | some (c :: s) => (c :: s) ++ c!"-" ++ name

/-- `SIMPLE_TAG_ATTRIB_NAME` / `TAG_ATTRIB_NAME` (core/structured_document/__init__.py:11,
structured_document/grobid_training_tei.py:40). -/
def tagAttribName : Str := c!"tag"

/-- `get_attrib_by_scope` (core/structured_document/__init__.py:36-42); the resulting
dictionary is keyed by `Option Str` (`None` for the unscoped entry). -/
def attribByScope {β : Type} (attrib : Dict β) (name : Str) : List (Option Str × β) :=
  let suffix := c!"-" ++ name
  attrib.filterMap (fun kv =>
    if endsWith suffix kv.1 || decide (kv.1 = name) then
      some (if kv.1 = name then none else some (kv.1.take (kv.1.length - suffix.length)), kv.2)
    else none)

/-- `SimpleToken` (core/structured_document/__init__.py:175-206): its text and its
attributes.  An attribute may hold `None` because `set_tag` stores it. -/
structure SimpleTok where
  text : Str
  attrib : Dict (Option Str)
  deriving DecidableEq

/-- `SimpleToken.get_tag` (core/structured_document/__init__.py:192-193). -/
def SimpleTok.getTag (t : SimpleTok) (scope : Option Str) (level : Option Nat) : Option Str :=
  (t.attrib.get? (scopedAttribName tagAttribName scope level)).join

/-- `SimpleToken.set_tag` (core/structured_document/__init__.py:195-197). -/
def SimpleTok.setTag (t : SimpleTok) (tag : Option Str) (scope : Option Str)
    (level : Option Nat) (pre : Option Str := none) : SimpleTok :=
  let name := scopedAttribName tagAttribName scope level
  { t with attrib := t.attrib.set name (addTagPrefix tag pre) }

/-- `SimpleToken.get_tag_by_scope` (core/structured_document/__init__.py:199-200). -/
def SimpleTok.tagByScope (t : SimpleTok) : List (Option Str × Option Str) :=
  attribByScope t.attrib tagAttribName

/-- `merge_token_tag` (core/structured_document/__init__.py:16-27) on simple tokens. -/
def mergeTokenTag (merged other : SimpleTok) (sourceScope targetScope : Option Str) : SimpleTok :=
  let tag := other.getTag sourceScope none
  if truthy tag then merged.setTag tag targetScope none else merged

/-- `AbstractStructuredDocument.merge_with` (core/structured_document/__init__.py:76-97) over
the flattened token lists (`iter_all_tokens`, 70-74); `zip` stops at the shorter list. -/
def mergeWith (mergeFn : SimpleTok → SimpleTok → SimpleTok) :
    List SimpleTok → List SimpleTok → Except Err (List SimpleTok)
  | m :: ms, o :: os =>
    if m.text = o.text then
      match mergeWith mergeFn ms os with
      | .ok rest => .ok (mergeFn m o :: rest)
      | .error e => .error e
    else .error .assertionError
  | ms, _ => .ok ms

end Verif
