/-
Model of the tool repairing JATS files (fix_jats_xml.py:849-932): list of files, outputs and jobs run by a
pool of workers.
-/
import Verif.Model.JatsDoc
import Verif.Model.Pipeline

namespace Verif

/-- Options of `FixJatsProcessor` (fix_jats_xml.py:850-866); options that are not given are `none`. -/
structure JatsOptions where
  sourceBasePath : Option Str
  sourcePath : Option Str
  sourceFileList : Option Str
  sourceFilenamePattern : Str
  outputPath : Str

/-- A path that is given and not empty. -/
def givenPath (p : Option Str) : Option Str :=
  match p with
  | some (c :: s) => some (c :: s)
  | _ => none

/-- `source_base_path` (fix_jats_xml.py:857-861). `dirName` is `os.path.dirname`. The directory of the list is used
only if it is not empty; `os.path.dirname(None)` is a `TypeError`. -/
def jatsBasePath (dirName : Str → Str) (opt : JatsOptions) : Except Err Str :=
  match givenPath opt.sourceBasePath with
  | some b => .ok b
  | none =>
    match givenPath ((givenPath opt.sourceFileList).map dirName) with
    | some b => .ok b
    | none =>
      match opt.sourcePath with
      | some p => .ok (dirName p)
      | none => .error .typeError

/-- `get_source_file_list` (fix_jats_xml.py:912-924). `load` is `load_file_list`, `find` is
`find_matching_filenames_with_limit` of sciencebeam_utils, both with the limit of the options. -/
def jatsSourceFiles (load find : Str → List Str) (base : Str) (opt : JatsOptions) : List Str :=
  match givenPath opt.sourceFileList with
  | some l => load l
  | none =>
    match givenPath opt.sourcePath with
    | some p => [p]
    | none => find (joinPath base opt.sourceFilenamePattern)

/-- `get_output_file_for_source_file` (fix_jats_xml.py:868-872); `rel` is `relative_path` of sciencebeam_utils. -/
def jatsOutput (rel : Str → Str → Str) (outputPath base source : Str) : Str := joinPath outputPath (rel base source)

/-- What a pool of workers needs to know: the file a path refers to, the output of a source, and what is written for
the data of a source. -/
structure PoolEnv where
  file : Str → Str
  output : Str → Str
  process : Str → Option Str → Except Err Str

/-- `process_source_file` (fix_jats_xml.py:874-880) up to writing: the assertion compares the paths, not the files. -/
def poolStart (env : PoolEnv) (source : Str) (data : Option Str) : JobState :=
  if env.output source = source then .raised
  else match env.process source data with
    | .error _ => .raised
    | .ok d => .saving (env.file (env.output source)) d

/-- One step of a worker. Simplification: a source is read at one moment; creating and writing do not fail. -/
inductive PoolStep (env : PoolEnv) (source : Str) : FileStore → JobState → FileStore → JobState → Prop
  | process {fs : FileStore} : PoolStep env source fs .pending fs (poolStart env source (fs (env.file source)))
  | create {fs : FileStore} {p d : Str} : PoolStep env source fs (.saving p d) (fs.put p []) (.writing p d)
  | write {fs : FileStore} {p piece rest : Str} : piece ≠ [] →
      PoolStep env source fs (.writing p (piece ++ rest)) (fs.put p ((fs p).getD [] ++ piece)) (.writing p rest)
  | close {fs : FileStore} {p : Str} : PoolStep env source fs (.writing p []) fs .finished

/-- What can be reached by any of the workers of `run_local_pipeline` (fix_jats_xml.py:888-910). -/
inductive PoolReach (env : PoolEnv) (jobs : List Str) (fs0 : FileStore) : JobsConfig → Prop
  | start : PoolReach env jobs fs0 ⟨fs0, jobs.map (fun _ => .pending)⟩
  | step {c : JobsConfig} {i : Nat} {source : Str} {st st' : JobState} {fs' : FileStore} : PoolReach env jobs fs0 c →
      jobs[i]? = some source → c.states[i]? = some st → PoolStep env source c.fs st fs' st' →
      PoolReach env jobs fs0 ⟨fs', c.states.set i st'⟩

/-- `fix_jats_xml_file` (fix_jats_xml.py:825-846) for the data of a file, if there is one; `write` is `etree.tostring` for
the tree, with the encoding of the file. -/
def jatsProcess (env : JatsEnv) (parse : Str → Except Nat JNode) (ser : JNode → Str) (write : Str → JNode → Str) (now : Str → Str)
    (source : Str) (data : Option Str) : Except Err Str :=
  match data with
  | none => .error .exception
  | some d =>
    match fixJatsFile env parse ser (now source) d with
    | .error e => .error e
    | .ok out => .ok (write d out)

end Verif
