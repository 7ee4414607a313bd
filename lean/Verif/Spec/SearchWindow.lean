/-
Specification for property C122: the block of a field.
-/
import Verif.Model.SimpleMatching

namespace Verif

/-- The block of a value: the one configured for its field, or `default`. -/
def Spec.blockOf (cfg : MatchCfg) (t : Target) : Option Str :=
  match (cfg.tagConfig t.name).blockName with
  | some (c :: b) => some (c :: b)
  | _ => some c!"default"

end Verif
