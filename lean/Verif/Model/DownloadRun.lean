/-
Model of the copying of all files in `run` of download_source_files.py.
-/
import Verif.Model.Download

namespace Verif

/-- Where `run` is (download_source_files.py:333-348): copying the documents or copying the targets. -/
inductive DownloadState
  | documents (c : CopyConfig)
  | targets (c : CopyConfig)

/-- The files in a state. -/
def DownloadState.files : DownloadState → FileStore
  | .documents c => c.fs
  | .targets c => c.fs

/-- The states of the copies being made. -/
def DownloadState.copies : DownloadState → List CopyState
  | .documents c => c.states
  | .targets c => c.states

/-- One step of `run`. `pool.map` returns when all copies of documents have been made, and only then the targets are
copied (download_source_files.py:335-345); it raises the error of a copy that failed, so that the targets are not copied
then. Simplified: any number of copies can be made at the same time, which includes what is possible with the number of
threads given. -/
inductive DownloadStep (plan : CopyPlan) : DownloadState → DownloadState → Prop
  | document {c c' : CopyConfig} : CopyAllStep plan.documents c c' → DownloadStep plan (.documents c) (.documents c')
  | next {c : CopyConfig} : (∀ st ∈ c.states, st = .done) →
      DownloadStep plan (.documents c) (.targets ⟨c.fs, plan.targets.map (fun _ => .todo)⟩)
  | target {c c' : CopyConfig} : CopyAllStep plan.targets c c' → DownloadStep plan (.targets c) (.targets c')

/-- Any number of steps. -/
inductive DownloadSteps (plan : CopyPlan) : DownloadState → DownloadState → Prop
  | refl {s : DownloadState} : DownloadSteps plan s s
  | step {s s' s'' : DownloadState} : DownloadSteps plan s s' → DownloadStep plan s' s'' → DownloadSteps plan s s''

/-- The state when the copying begins. -/
def downloadStart (plan : CopyPlan) (fs0 : FileStore) : DownloadState :=
  .documents ⟨fs0, plan.documents.map (fun _ => .todo)⟩

/-- `run` has ended without an error. -/
def DownloadState.finished : DownloadState → Prop
  | .documents _ => False
  | .targets c => ∀ st ∈ c.states, st = .done

end Verif
