/-
Model of the annotation of many files (auto_annotate_utils.py): list of remaining files, jobs run by
a pool of workers, crashes and repeated runs.
-/
import Verif.Model.Download

namespace Verif

/-- What annotating one document leads to: a document passing the checks, one that does not (both
serialised) or an exception.  Loading, annotating, checking and serialising
(annotation/annotator.py:166-212, structured_document/grobid_training_tei.py:741-744). -/
inductive DocResult
  | passed (data : Str)
  | failedChecks (data : Str)
  | error
  deriving DecidableEq

/-- Options of `AbstractAnnotatePipelineFactory` (auto_annotate_utils.py:576-582). -/
structure PipelineConfig where
  outputPath : Str
  failedOutputPath : Option Str
  resume : Bool
  skipErrors : Bool

/-- `get_tei_xml_output_file_for_source_file` (auto_annotate_utils.py:611-615). -/
def annotatedOutput (outputPath source : Str) : Str := joinPath outputPath (baseName source)

/-- `get_tei_xml_failed_output_file_for_source_file` (auto_annotate_utils.py:617-623). -/
def failedOutput (failedOutputPath : Option Str) (source : Str) : Option Str :=
  match failedOutputPath with
  | some (c :: p) => some (joinPath (c :: p) (baseName source))
  | _ => none

/-- `get_file_list_without_output_file` (auto_annotate_utils.py:517-529);
`map_file_list_to_file_exists` of sciencebeam_utils tells for each file whether it exists. -/
def withoutOutputFile (fs : FileStore) (files : List Str) (output : Str → Str) : List Str :=
  let outputExists := (files.map output).map (fun p => (fs p).isSome)
  ((files.zip outputExists).filter (fun p => !p.2)).map (fun p => p.1)

/-- `get_remaining_source_file_list` (auto_annotate_utils.py:701-716) for the files found by
`get_source_file_list`. -/
def remainingFiles (cfg : PipelineConfig) (fs : FileStore) (sources : List Str) : List Str :=
  match sources with
  | [] => []
  | _ :: _ => if cfg.resume then withoutOutputFile fs sources (annotatedOutput cfg.outputPath) else sources

/-- Where a worker is in `auto_annotate` (auto_annotate_utils.py:648-686): not started, document
serialised and about to be saved, file created with the rest of the data still to write, returned,
`RuntimeError` raised. -/
inductive JobState
  | pending
  | saving (path data : Str)
  | writing (path rest : Str)
  | finished
  | raised
  deriving DecidableEq

/-- The end of `annotate_structured_document` (annotation/annotator.py:193-212) and the exception
handler of `_auto_annotate` (auto_annotate_utils.py:677-686). -/
def afterProcess (cfg : PipelineConfig) (source : Str) : DocResult → JobState
  | .passed d => .saving (annotatedOutput cfg.outputPath source) d
  | .failedChecks d =>
    match failedOutput cfg.failedOutputPath source with
    | none => .finished
    | some p => .saving p d
  | .error => if cfg.skipErrors then .finished else .raised

/-- One step of a worker.  `process` depends on the files at the time of the step; `save_file_content`
of sciencebeam_utils creates the file and writes the data in pieces of any size.  Simplification:
creating and writing do not fail. -/
inductive JobStep (cfg : PipelineConfig) (process : FileStore → Str → DocResult) (source : Str) :
    FileStore → JobState → FileStore → JobState → Prop
  | process {fs : FileStore} : JobStep cfg process source fs .pending fs (afterProcess cfg source (process fs source))
  | create {fs : FileStore} {p d : Str} : JobStep cfg process source fs (.saving p d) (fs.put p []) (.writing p d)
  | write {fs : FileStore} {p piece rest : Str} : piece ≠ [] →
      JobStep cfg process source fs (.writing p (piece ++ rest)) (fs.put p ((fs p).getD [] ++ piece)) (.writing p rest)
  | close {fs : FileStore} {p : Str} : JobStep cfg process source fs (.writing p []) fs .finished

/-- Files and states of the jobs. -/
structure JobsConfig where
  fs : FileStore
  states : List JobState

/-- One step of one of the workers of `run_local_pipeline` (auto_annotate_utils.py:740-757).  All
files are submitted; any job may make the next step, whatever the number of workers. -/
inductive JobsStep (cfg : PipelineConfig) (process : FileStore → Str → DocResult) (jobs : List Str) : JobsConfig → JobsConfig → Prop
  | step {c : JobsConfig} {i : Nat} {source : Str} {st st' : JobState} {fs' : FileStore} :
      jobs[i]? = some source → c.states[i]? = some st → JobStep cfg process source c.fs st fs' st' →
      JobsStep cfg process jobs c ⟨fs', c.states.set i st'⟩

/-- What can be reached from the start of a run. -/
inductive JobsReach (cfg : PipelineConfig) (process : FileStore → Str → DocResult) (jobs : List Str) (fs0 : FileStore) : JobsConfig → Prop
  | start : JobsReach cfg process jobs fs0 ⟨fs0, jobs.map (fun _ => .pending)⟩
  | step {c c' : JobsConfig} : JobsReach cfg process jobs fs0 c → JobsStep cfg process jobs c c' → JobsReach cfg process jobs fs0 c'

/-- The loop `for future in as_completed(..): future.result()` (auto_annotate_utils.py:755-757), for
the jobs in the order in which they complete.  Leaving `with PoolExecutor` waits for all jobs. -/
def awaitResults : List JobState → Except Err Unit
  | [] => .ok ()
  | .raised :: _ => .error .runtimeError
  | _ :: l => awaitResults l

/-- A run: the submitted files and the moment it ended or was interrupted. -/
structure PipelineRun where
  jobs : List Str
  last : JobsConfig

/-- A sequence of runs over the same source files, each of which ended or was interrupted at any
point; the files after the last one (`run`, auto_annotate_utils.py:759-773). -/
inductive RunHistory (cfg : PipelineConfig) (process : FileStore → Str → DocResult) (sources : List Str) (fs0 : FileStore) :
    List PipelineRun → FileStore → Prop
  | start : RunHistory cfg process sources fs0 [] fs0
  | run {runs : List PipelineRun} {fs : FileStore} {c : JobsConfig} :
      RunHistory cfg process sources fs0 runs fs → JobsReach cfg process (remainingFiles cfg fs sources) fs c →
      RunHistory cfg process sources fs0 (runs ++ [⟨remainingFiles cfg fs sources, c⟩]) c.fs

end Verif
