/-
Specification for C147.
-/
import Verif.Spec.Download

namespace Verif.Spec

/-- Outputs are different files, and no source. -/
structure CopiesApart (jobs : List (Str × Str)) : Prop where
  different : (jobs.map (·.2)).Nodup
  noSource : ∀ j ∈ jobs, ∀ k ∈ jobs, j.1 ≠ k.2

/-- The pairs of documents and targets of which both files exist. -/
def existingPairs (env : FilesEnv) (docBase targetBase : Option Str) (documents targets : List Str) : List (Str × Str) :=
  ((documents.map (absOf env docBase)).zip (targets.map (absOf env targetBase))).filter
    (fun p => env.fileExists p.1 && env.fileExists p.2)

end Verif.Spec
