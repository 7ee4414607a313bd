/-
Notions used to state the properties of the tool repairing JATS files.
-/
import Verif.Model.JatsPool
import Verif.Spec.Pipeline

namespace Verif.Spec

/-- Outputs are different files, and none of them is a source. -/
def OutputsApart (env : PoolEnv) (jobs : List Str) : Prop :=
  (∀ u ∈ jobs, ∀ v ∈ jobs, env.file (env.output u) ≠ env.file v) ∧
    jobs.Pairwise (fun u v => env.file (env.output u) ≠ env.file (env.output v))

/-- What is in the output of a source in the end: the new data, or, if these cannot be made, what was there before. -/
def finalOutput (env : PoolEnv) (fs0 : FileStore) (u : Str) : Option Str :=
  match env.process u (fs0 (env.file u)) with
  | .ok d => some d
  | .error _ => fs0 (env.file (env.output u))

/-- The data of a source cannot be processed. -/
def Fails (env : PoolEnv) (fs0 : FileStore) (u : Str) : Prop := ∃ e, env.process u (fs0 (env.file u)) = .error e

end Verif.Spec
