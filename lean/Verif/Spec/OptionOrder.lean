/-
Specification for C144: command lines which select the same.
-/
import Verif.Spec.CommandLine
import Verif.Spec.RunChecks
import Verif.Spec.SetOrder

namespace Verif.Spec

/-- The same names are listed, in any order and any number of times. -/
def SameNames (cc : CharClass) (s s' : Option Str) : Prop := ∀ f, namedIn cc s f ↔ namedIn cc s' f

/-- The two options for fields select the same fields. -/
def SameSelection (cc : CharClass) (dflt : List Str) (s s' : Option Str) : Prop :=
  ∀ sel sel', Selected cc dflt s sel → Selected cc dflt s' sel' → SameSet sel sel'

/-- The same tool with the same options of its own. -/
inductive SameCliTool (cc : CharClass) : CliTool → CliTool → Prop
  | refl (t : CliTool) : SameCliTool cc t t
  | segmentation (config : List Str) (noMerge : Bool) {s s' : Option Str} (h : SameNames cc s s') :
    SameCliTool cc (.segmentation config noMerge s) (.segmentation config noMerge s')

/-- Two command lines for the same tool, which select the same fields and sub fields and list the same names; all
other options are the same. -/
structure SameCommand (cc : CharClass) (c c' : CliArgs) : Prop where
  tool : SameCliTool cc c.tool c'.tool
  fields : SameSelection cc c.tool.defaultFields c.fields c'.fields
  subFields : ∀ dflt, c.tool.defaultSubFields = some dflt → SameSelection cc dflt c.subFields c'.subFields
  alwaysPreserve : SameNames cc c.alwaysPreserve c'.alwaysPreserve
  noPreserveSubFields : SameNames cc c.noPreserveSubFields c'.noPreserveSubFields
  requireMatching : SameNames cc c.requireMatching c'.requireMatching
  required : SameNames cc c.required c'.required
  plain : c'.plain = c.plain
  mapping : c'.mapping = c.mapping
  xmlPath : c'.xmlPath = c.xmlPath
  xmlRegex : c'.xmlRegex = c.xmlRegex
  overrides : c'.overrides = c.overrides

/-- Fields are checked. -/
def checksFields (cc : CharClass) (c : CliArgs) : Prop :=
  ∃ f, namedIn cc c.requireMatching f ∨ namedIn cc c.required f

end Verif.Spec
