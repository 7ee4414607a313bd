/-
Model of download_source_files.py.
-/
import Verif.Model.Paths

namespace Verif

/-- Functions of `sciencebeam_utils` (external): making a path relative or absolute to a base
path, `to_relative_file_list` and `to_absolute_file_list` apply them to all files; whether a file
exists; `str.lower`. -/
structure FilesEnv where
  toRel : Str → Str → Str
  toAbs : Str → Str → Str
  fileExists : Str → Bool
  lower : Str → Str

/-- `FileList` (download_source_files.py:113-122). -/
structure FileList where
  base : Option Str
  rel : List Str
  abs : List Str
  deriving DecidableEq

/-- `FileList.__init__` (download_source_files.py:114-121). -/
def FileList.init (env : FilesEnv) (base : Option Str) (files : List Str) : FileList :=
  match base with
  | some (c :: b) => ⟨base, files.map (env.toRel (c :: b)), files.map (env.toAbs (c :: b))⟩
  | _ => ⟨base, files, files⟩

/-- `FileList.select` (download_source_files.py:123-132). -/
def FileList.select (env : FilesEnv) (l : FileList) (selection : List Bool) : Except Err FileList :=
  if selection.length ≠ l.abs.length then .error .assertionError
  else .ok (FileList.init env l.base (((l.abs.zip selection).filter (fun p => p.2)).map (fun p => p.1)))

/-- `filter_file_pair_exists` (download_source_files.py:269-284). -/
def filterPairExists (env : FilesEnv) (l1 l2 : FileList) : Except Err (FileList × FileList) :=
  let pairExists := ((l1.abs.map env.fileExists).zip (l2.abs.map env.fileExists)).map (fun p => p.1 && p.2)
  match l1.select env pairExists with
  | .error e => .error e
  | .ok r1 =>
    match l2.select env pairExists with
    | .error e => .error e
    | .ok r2 => .ok (r1, r2)

/-- Result of `get_filename_pattern_props`. -/
structure NameProps where
  dir : Str
  filename : Str
  name : Str
  ext : Str

/-- `get_filename_pattern_props` (download_source_files.py:166-177). -/
def namePropsOf (env : FilesEnv) (p : Str) : NameProps :=
  let dir := dirName p
  let file := baseName p
  let (name, ext) := splitExt file
  let (name, ext) := if env.lower ext = c!".gz" then splitExt name else (name, ext)
  ⟨if dir.isEmpty then [] else dir ++ ['/'], file, name, ext⟩

/-- Names of the properties. -/
inductive NameField
  | dir | filename | name | ext

/-- The value of a property. -/
def NameProps.get (p : NameProps) : NameField → Str
  | .dir => p.dir
  | .filename => p.filename
  | .name => p.name
  | .ext => p.ext

/-- Parts of a pattern as understood by `str.format` (external): text, `{index}`, `{dir}` …,
`{document.dir}` …  Other fields are not modelled. -/
inductive PatternPart
  | lit (s : Str)
  | index
  | field (f : NameField)
  | other (list : Str) (f : NameField)

/-- The value of one part. -/
def formatPart (index : Nat) (own : NameProps) (others : List (Str × NameProps)) : PatternPart → Except Err Str
  | .lit s => .ok s
  | .index => .ok (Nat.toDigits 10 index)
  | .field f => .ok (own.get f)
  | .other l f =>
    match others.find? (fun p => p.1 = l) with
    | none => .error .keyError
    | some p => .ok (p.2.get f)

/-- `output_filename_pattern.format(…)`. -/
def formatParts (index : Nat) (own : NameProps) (others : List (Str × NameProps)) : List PatternPart → Except Err Str
  | [] => .ok []
  | p :: ps =>
    match formatPart index own others p with
    | .error e => .error e
    | .ok s =>
      match formatParts index own others ps with
      | .error e => .error e
      | .ok r => .ok (s ++ r)

/-- The loop over the file lists in `get_relative_output_filename` (download_source_files.py:186-189). -/
def otherProps (env : FilesEnv) (index : Nat) : List (Str × List Str) → Except Err (List (Str × NameProps))
  | [] => .ok []
  | (n, l) :: ls =>
    match l[index]? with
    | none => .error .indexError
    | some f =>
      match otherProps env index ls with
      | .error e => .error e
      | .ok r => .ok ((n, namePropsOf env f) :: r)

/-- `get_relative_output_filename` (download_source_files.py:180-190). -/
def relativeOutputFile (env : FilesEnv) (pattern : List PatternPart) (lists : List (Str × List Str)) (file : Str) (index : Nat) :
    Except Err Str :=
  match otherProps env index lists with
  | .error e => .error e
  | .ok others => formatParts index (namePropsOf env file) others pattern

/-- `get_relative_output_file_list` (download_source_files.py:193-205), from position `index` on. -/
def relativeOutputFiles (env : FilesEnv) (pattern : List PatternPart) (lists : List (Str × List Str)) :
    List Str → Nat → Except Err (List Str)
  | [], _ => .ok []
  | f :: fs, index =>
    match relativeOutputFile env pattern lists f index with
    | .error e => .error e
    | .ok o =>
      match relativeOutputFiles env pattern lists fs (index + 1) with
      | .error e => .error e
      | .ok os => .ok (o :: os)

/-- `get_output_file_list` (download_source_files.py:208-223). -/
def outputFileList (env : FilesEnv) (source : FileList) (path : Str) (pattern : List PatternPart)
    (lists : List (Str × List Str)) : Except Err FileList :=
  match relativeOutputFiles env pattern lists source.rel 0 with
  | .error e => .error e
  | .ok os => .ok (FileList.init env (some path) (os.map (joinPath path)))

/-- What is copied: sources and outputs of documents and targets. -/
structure CopyPlan where
  documents : List (Str × Str)
  targets : List (Str × Str)

/-- The pairs copied by `copy_files` (download_source_files.py:256-266). -/
def copyPairs (source output : List Str) : Except Err (List (Str × Str)) :=
  if source.length ≠ output.length then .error .assertionError else .ok (source.zip output)

/-- `run` (download_source_files.py:287-348) up to the copying; `documents` and `targets` are the
file lists loaded (`load_file_list`, external, with the limit). -/
def downloadPlan (env : FilesEnv) (docBase targetBase : Option Str) (documents targets : List Str) (docPath targetPath : Str)
    (docPattern targetPattern : List PatternPart) : Except Err CopyPlan :=
  match filterPairExists env (FileList.init env docBase documents) (FileList.init env targetBase targets) with
  | .error e => .error e
  | .ok (docs, tgts) =>
    if docs.abs.isEmpty then .error .valueError
    else
      let lists := [(c!"document", docs.rel), (c!"target", tgts.rel)]
      match outputFileList env docs docPath docPattern lists with
      | .error e => .error e
      | .ok docOut =>
        match outputFileList env tgts targetPath targetPattern lists with
        | .error e => .error e
        | .ok tgtOut =>
          match copyPairs docs.abs docOut.abs with
          | .error e => .error e
          | .ok d =>
            match copyPairs tgts.abs tgtOut.abs with
            | .error e => .error e
            | .ok t => .ok ⟨d, t⟩

/-! ### Copying by several threads -/

/-- Files and their contents. -/
abbrev FileStore := Str → Option Str

/-- Change one file. -/
def FileStore.put (fs : FileStore) (p : Str) (d : Str) : FileStore := fun q => if q = p then some d else fs q

/-- Where a thread is in `copy_file` (download_source_files.py:245-253): not started, source opened,
output created with the rest of the data still to write, finished, failed.  The content of the
source is the one when it is opened. -/
inductive CopyState
  | todo
  | opened (data : Str)
  | writing (rest : Str)
  | done
  | failed
  deriving DecidableEq

/-- One step of the copying from `src` to `out`; data are written in pieces of any size. -/
inductive CopyStep (src out : Str) : FileStore → CopyState → FileStore → CopyState → Prop
  | openSource {fs : FileStore} {d : Str} : fs src = some d → CopyStep src out fs .todo fs (.opened d)
  | openFails {fs : FileStore} : fs src = none → CopyStep src out fs .todo fs .failed
  | create {fs : FileStore} {d : Str} : CopyStep src out fs (.opened d) (fs.put out []) (.writing d)
  | write {fs : FileStore} {piece rest : Str} :
      CopyStep src out fs (.writing (piece ++ rest)) (fs.put out ((fs out).getD [] ++ piece)) (.writing rest)
  | close {fs : FileStore} : CopyStep src out fs (.writing []) fs .done

/-- States of all copies; `copy_files` runs them on a pool of threads (any interleaving). -/
structure CopyConfig where
  fs : FileStore
  states : List CopyState

/-- One step of one of the threads. -/
inductive CopyAllStep (jobs : List (Str × Str)) : CopyConfig → CopyConfig → Prop
  | step {c : CopyConfig} {i : Nat} {src out : Str} {st st' : CopyState} {fs' : FileStore} :
      jobs[i]? = some (src, out) → c.states[i]? = some st → CopyStep src out c.fs st fs' st' →
      CopyAllStep jobs c ⟨fs', c.states.set i st'⟩

/-- What can be reached by any number of steps. -/
inductive CopyReach (jobs : List (Str × Str)) (fs0 : FileStore) : CopyConfig → Prop
  | start : CopyReach jobs fs0 ⟨fs0, jobs.map (fun _ => .todo)⟩
  | step {c c' : CopyConfig} : CopyReach jobs fs0 c → CopyAllStep jobs c c' → CopyReach jobs fs0 c'

end Verif
