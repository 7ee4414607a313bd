/-
Notions used to state the properties of runs over many files.
-/
import Verif.Model.Pipeline

namespace Verif

/-- The files written for a source file: output and, if wanted, the output for failed checks. -/
def outputPaths (cfg : PipelineConfig) (source : Str) : List Str :=
  annotatedOutput cfg.outputPath source :: (failedOutput cfg.failedOutputPath source).toList

/-- What is to be saved for a source file, and where to. -/
def toSave (cfg : PipelineConfig) (source : Str) : DocResult → Option (Str × Str)
  | .passed d => some (annotatedOutput cfg.outputPath source, d)
  | .failedChecks d => (failedOutput cfg.failedOutputPath source).map (fun p => (p, d))
  | .error => none

/-- No file is an output of two source files. -/
def SeparateOutputs (cfg : PipelineConfig) (sources : List Str) : Prop :=
  sources.Pairwise (fun u v => ∀ q ∈ outputPaths cfg u, q ∉ outputPaths cfg v)

/-- Annotating one of the documents does not depend on the output files. -/
def IndependentOfOutputs (cfg : PipelineConfig) (process : FileStore → Str → DocResult) (sources : List Str) : Prop :=
  ∀ fs fs' : FileStore, (∀ q, (∀ u ∈ sources, q ∉ outputPaths cfg u) → fs q = fs' q) → ∀ u ∈ sources, process fs u = process fs' u

/-- All jobs have returned or raised. -/
def JobsConfig.complete (c : JobsConfig) : Prop := ∀ st ∈ c.states, st = .finished ∨ st = .raised

/-- A file was created but its data are not completely written. -/
def JobsConfig.halfWritten (c : JobsConfig) (p : Str) : Prop := ∃ rest, rest ≠ [] ∧ JobState.writing p rest ∈ c.states

/-- The files of one source file are as before except for what is to be saved. -/
def SavedAs (cfg : PipelineConfig) (fs0 fs : FileStore) (u : Str) (r : DocResult) : Prop :=
  (∀ p d, toSave cfg u r = some (p, d) → fs p = some d) ∧
    ∀ q ∈ outputPaths cfg u, (∀ d, toSave cfg u r ≠ some (q, d)) → fs q = fs0 q

end Verif
