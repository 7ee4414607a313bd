/-
Specifications of the small annotators, in terms of the tag values of the tokens.
-/
import Verif.Model.PostAnnotators
import Verif.Spec.TeiDoc

namespace Verif.Spec

/-- The value of the tag of a token (explicit or preserved), if it is not empty. -/
def valueOf (d : Doc) (level : Option Nat) (i : Nat) : Option Str :=
  let v := d.getTagOrPreservedValue i level
  if truthy v then v else none

/-- The tag newly given to token `j`, which stands between `pre` and `post`, by expanding enabled
tags to preceding untagged tokens: an untagged token gets the value of the next tagged token
if that is enabled, with the begin prefix if it is the first of its run of untagged tokens; an
enabled tagged token behind an untagged one gets the inside prefix. -/
def expandPreviousTag (value : Nat → Option Str) (enabled : List Str) (pre : List Nat) (j : Nat)
    (post : List Nat) : Option Str :=
  match value j with
  | none =>
    match post.findSome? value with
    | some v =>
      if v ∈ enabled then
        some ((if pre.getLast?.all (fun p => (value p).isSome) then c!"b-" else c!"i-") ++ v)
      else none
    | none => none
  | some v =>
    if v ∈ enabled ∧ pre.getLast?.any (fun p => (value p).isNone) then some (c!"i-" ++ v) else none

/-- The value of the last tagged token. -/
def lastValue (value : Nat → Option Str) (pre : List Nat) : Option Str := pre.reverse.findSome? value

/-- The tag newly given to an untagged token `j` behind `pre` by expanding enabled tags. -/
def expandFollowingTag (value : Nat → Option Str) (enabled : List Str) (pre : List Nat) (j : Nat) :
    Option Str :=
  match value j, lastValue value pre with
  | none, some v => if v ∈ enabled then some (c!"i-" ++ v) else none
  | _, _ => none

/-- The tag newly given to an untagged token `j` behind `pre` by group tags. -/
def groupTag (value : Nat → Option Str) (group : Str → Option Str) (pre : List Nat) (j : Nat) :
    Option Str :=
  match value j, lastValue value pre with
  | none, some v => if truthy (group v) then some (c!"i-" ++ (group v).getD []) else none
  | _, _ => none

/-- The tag replacing the tag `full` when values are replaced by `repl`; `some none` if the tag is
removed, `none` if it is not to be changed. -/
def replacedTag (repl : Dict (Option Str)) (value : Option Str) (full : Option Str) : Option (Option Str) :=
  (value.bind repl.get?).map (fun new => new.map (fun w => renameTag (fun _ => w) (full.getD [])))

/-- Whether the original tag (value `v`) of a token is to be kept. If preserved fields are given,
then only those are kept. -/
def keepMain (cfg : AnnotateCfg) (v : Option Str) : Prop :=
  if cfg.preserveFields = [] then cfg.preserveTags = true ∧ ∀ f ∈ cfg.fields, v ≠ some f
  else ∃ f ∈ cfg.preserveFields, v = some f

/-- Whether the original sub tag of a token is to be kept. -/
def keepSub (cfg : AnnotateCfg) (v : Option Str) : Prop :=
  cfg.preserveSubTags = true ∧ ∀ f ∈ cfg.noPreserveSubFields, v ≠ some f

end Verif.Spec
