/-
Specification vocabulary for C116: which texts of an element are looked for.
-/
import Verif.Spec.TargetAnnotations
import Verif.Spec.JatsDoc

namespace Verif.Spec

/-- The text is not blank. -/
def NotBlank (cc : CharClass) (t : Option Str) : Prop := ∃ s c, t = some s ∧ c ∈ s ∧ cc.isSpace c = false

/-- The element has text of its own besides the elements that contain nothing but text: directly inside of it, in
front of an element inside an element, or behind an element. -/
def HasOwnText (cc : CharClass) (n : XNode) : Prop :=
  ∃ m, Within n m ∧ ((m = n ∨ m.children ≠ []) ∧ NotBlank cc m.text ∨ ∃ c ∈ m.children, NotBlank cc c.tail)

/-- The raw text is asked for: by the option, or because the element has text of its own. -/
def WantsRaw (cc : CharClass) (cfg : FieldCfg) (n : XNode) : Prop :=
  cfg.useRawText = some true ∨ cfg.useRawText = none ∧ HasOwnText cc n

/-- No white space at the beginning and at the end. -/
def Trimmed (cc : CharClass) (s : Str) : Prop :=
  (∀ c, s.head? = some c → cc.isSpace c = false) ∧ ∀ c, s.getLast? = some c → cc.isSpace c = false

/-- The parts of a text are the texts of the sources. -/
def SourceTexts (env : TargetEnv) (parent : XNode) (srcs : List ChildSource) (parts : List Str) : Prop :=
  parts.length = srcs.length ∧ ∀ (i : Nat) (src : ChildSource) (t : Str), srcs[i]? = some src → parts[i]? = some t → SourceText env parent src t

/-- The text the pattern leaves of a text: its first group if it matches, otherwise the text. -/
def PatternLeaves (env : TargetEnv) (pattern s t : Str) : Prop :=
  env.reMatch pattern s = none ∧ t = s ∨ ∃ g, env.reMatch pattern s = some g ∧ t = g.getD []

/-- Characters that are compared as the same: dashes and thin spaces. -/
def plainChar (c : Char) : Char :=
  if c = '\u2013' ∨ c = '\u2014' then '-' else if c = '\u2009' then ' ' else c

end Verif.Spec
