/-
Specification of the JATS files which can be repaired.
-/
import Verif.Spec.JatsSucceeds
import Verif.Spec.JatsDoc

namespace Verif.Spec

/-- A file that can be read, possibly repaired as text, and in whose references no DOI annotation is without text or directly follows another one. (That
references are not inside of each other and that elements have different identities is how documents are represented.) -/
def FixableFile (env : JatsEnv) (parse : Str → Except Nat JNode) (data : Str) : Prop :=
  ∃ root malformed, ReadAs parse data root malformed ∧ RefsApart root ∧ ((jAll root).map (·.id)).Nodup ∧
    ∀ r, IsRef root r → DoisApart env r

end Verif.Spec
