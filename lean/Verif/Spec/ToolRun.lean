/-
Specification for C130: the files read and written by a run.
-/
import Verif.Model.ToolRun
import Verif.Spec.Pipeline

namespace Verif.Spec

/-- The files a document is made from: the source file and its target file. -/
def readsFile (env : RunEnv) (o : RunOpts) (source q : Str) : Prop :=
  q = source ∨ targetXml env.reSub o.xmlPath o.xmlRegex source = .ok q

/-- No file written by the run is read by it. -/
def ReadApart (env : RunEnv) (o : RunOpts) (cfg : PipelineConfig) (sources : List Str) : Prop :=
  ∀ u ∈ sources, ∀ q ∈ outputPaths cfg u, ∀ v ∈ sources, ¬ readsFile env o v q

/-- The source files have different names. -/
def DifferentNames (sources : List Str) : Prop := sources.Pairwise (fun u v => baseName u ≠ baseName v)

/-- `root` is the document in the source file, after the repair by the tools that do so. -/
def SourceRoot (env : RunEnv) (o : RunOpts) (fs : FileStore) (source : Str) (root : Elem) : Prop :=
  ∃ data final, fs source = some data ∧ finalSource env o.tool data = .ok final ∧ env.parseSource final = .ok root

/-- The document in the target file of the source file has the root element `tag`. -/
def TargetRootTag (env : RunEnv) (o : RunOpts) (fs : FileStore) (source tag : Str) : Prop :=
  ∃ path data root, targetXml env.reSub o.xmlPath o.xmlRegex source = .ok path ∧ fs path = some data ∧
    env.parseTarget data = .ok (tag, root)

end Verif.Spec
