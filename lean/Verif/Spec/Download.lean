/-
Specification for downloading source files.
-/
import Verif.Model.Download

namespace Verif.Spec

/-- The absolute path of a file for a base path that may be missing. -/
def absOf (env : FilesEnv) (base : Option Str) (f : Str) : Str :=
  match base with
  | some (c :: b) => env.toAbs (c :: b) f
  | _ => f

/-- The path of a file relative to a base path that may be missing. -/
def relOf (env : FilesEnv) (base : Option Str) (f : Str) : Str :=
  match base with
  | some (c :: b) => env.toRel (c :: b) f
  | _ => f

/-- An absolute path stays as it is when it is made absolute again. -/
def AbsStable (env : FilesEnv) (base : Option Str) : Prop :=
  ∀ f, absOf env base (absOf env base f) = absOf env base f

/-- Files of the output directory are absolute already. -/
def OutputAbs (env : FilesEnv) (path : Str) : Prop :=
  ∀ r, absOf env (some path) (joinPath path r) = joinPath path r

/-- A relative path as written by people: it does not start with a slash and has no double
slashes. -/
def PlainPath (p : Str) : Prop := ¬ ['/'] <+: p ∧ ¬ ['/', '/'] <:+: p

/-- The pattern mentions only the lists `document` and `target`. -/
def KnownLists (pattern : List PatternPart) : Prop :=
  ∀ l f, PatternPart.other l f ∈ pattern → l = c!"document" ∨ l = c!"target"

end Verif.Spec
