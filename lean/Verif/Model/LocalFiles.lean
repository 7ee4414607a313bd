/-
Model of reading files by way of temporary copies (utils/io.py, utils/xml.py:52-119) and of the repair of one
JATS file from its source to its output (fix_jats_xml.py:825-846), on the files of a machine.
-/
import Verif.Model.JatsDoc
import Verif.Model.Paths

namespace Verif

/-! ### Files -/

/-- The files of a machine with their contents, and its directories. -/
structure Files where
  files : List (Str × Str)
  dirs : List Str

/-- The content of a file. -/
def Files.read (fs : Files) (p : Str) : Option Str := (fs.files.find? (fun x => x.1 = p)).map Prod.snd

/-- A file is written. -/
def Files.put (fs : Files) (p data : Str) : Files := { fs with files := (p, data) :: fs.files.filter (fun x => x.1 ≠ p) }

/-- A directory is made. -/
def Files.mkdir (fs : Files) (dir : Str) : Files := { fs with dirs := dir :: fs.dirs }

/-- Whether a path is a directory or in it. -/
def below (dir p : Str) : Bool := decide (p = dir) || startsWith (dir ++ ['/']) p

/-- A directory is removed with everything in it. -/
def Files.rmtree (fs : Files) (dir : Str) : Files :=
  ⟨fs.files.filter (fun x => !below dir x.1), fs.dirs.filter (fun x => !below dir x)⟩

/-- The temporary directories, with the suffixes `-input` (utils/io.py:30) and `-input-fixed` (utils/xml.py:62). -/
inductive TempKind
  | input
  | fixed

/-- What is outside of the program, and what goes wrong there. -/
structure IoEnv where
  /-- `FileSystems.open` of a URL: it fails, or the source has this content, after which reading may fail -/
  fetch : Str → Except Err (Str × Option Err)
  /-- the directory chosen by `tempfile.mkdtemp` -/
  tempDir : TempKind → Files → Str
  /-- for a path and content: writing fails, leaving this in the file, if it has been opened -/
  writeFault : Str → Str → Option (Option Str × Err)
  /-- reading a file fails -/
  readFault : Str → Option Err

/-- Something done to files: its result, and the files afterwards. -/
abbrev Io (α : Type) := Files → Except Err α × Files

/-- `open(path, mode='wb')`, writing the data, and closing the file; also `save_file_content`. There is no
file whose name ends with a slash. -/
def writeLocal (env : IoEnv) (p data : Str) : Io Unit := fun fs =>
  if endsWith ['/'] p then (.error .exception, fs)
  else match env.writeFault p data with
    | none => (.ok (), fs.put p data)
    | some (none, e) => (.error e, fs)
    | some (some part, e) => (.error e, fs.put p part)

/-- `open(path, mode='rb')` and reading all of it; `Path.read_bytes`. -/
def readLocal (env : IoEnv) (p : Str) : Io Str := fun fs =>
  match env.readFault p with
  | some e => (.error e, fs)
  | none =>
    match fs.read p with
    | some data => (.ok data, fs)
    | none => (.error .exception, fs)

/-- `with TemporaryDirectory(suffix=...) as temp_dir`: the directory is removed however the body ends. -/
def withTempDir {α : Type} (env : IoEnv) (suffix : TempKind) (body : Str → Io α) : Io α := fun fs =>
  let r := body (env.tempDir suffix fs) (fs.mkdir (env.tempDir suffix fs))
  (r.1, r.2.rmtree (env.tempDir suffix fs))

/-! ### `auto_download_input_file` (utils/io.py:16-39) -/

/-- A path or URL, or a function opening the source. -/
inductive Source
  | path (url : Str)
  | opener (open' : Except Err (Str × Option Err))

/-- Whether `'://'` is in the text (utils/io.py:27). -/
def hasScheme : Str → Bool
  | [] => false
  | c :: cs => startsWith c!"://" (c :: cs) || hasScheme cs

/-- Copying the source to a file (utils/io.py:36-38); a fault while reading the source leaves a part of it. -/
def copySource (env : IoEnv) (source : Except Err (Str × Option Err)) (p : Str) : Io Unit := fun fs =>
  match source with
  | .error e => (.error e, fs)
  | .ok (data, fault) =>
    match writeLocal env p data fs with
    | (.error e, fs') => (.error e, fs')
    | (.ok _, fs') =>
      match fault with
      | some e => (.error e, fs')
      | none => (.ok (), fs')

/-- Copying the source to a file in a temporary directory, and running the body (utils/io.py:30-39). -/
def withCopy {α : Type} (env : IoEnv) (name : Str) (source : Except Err (Str × Option Err)) (body : Str → Io α) : Io α :=
  withTempDir env .input (fun dir fs =>
    match copySource env source (joinPath dir name) fs with
    | (.error e, fs') => (.error e, fs')
    | (.ok _, fs') => body (joinPath dir name) fs')

/-- `auto_download_input_file` (utils/io.py:16-39) with the body of the `with` statement. -/
def withInput {α : Type} (env : IoEnv) (source : Source) (body : Str → Io α) : Io α :=
  match source with
  | .path url =>
    if url.isEmpty then withTempDir env .input (fun _ fs => (.error .assertionError, fs))
    else if !hasScheme url then body url
    else withCopy env (baseName url) (env.fetch url) body
  | .opener o => withCopy env c!"temp.file" o body

/-- `auto_download_and_fix_input_file` (utils/xml.py:52-70) with the body of the `with` statement. -/
def withFixedInput {α : Type} (env : IoEnv) (source : Source) (fix : Bool) (body : Str → Io α) : Io α :=
  withInput env source (fun p =>
    if !fix then body p
    else withTempDir env .fixed (fun dir fs =>
      match readLocal env p fs with
      | (.error e, fs') => (.error e, fs')
      | (.ok data, fs') =>
        match writeLocal env (joinPath dir (baseName p)) (repairedXml data) fs' with
        | (.error e, fs'') => (.error e, fs'')
        | (.ok _, fs'') => body (joinPath dir (baseName p)) fs''))

/-- The result without the line of an error. -/
def dropErrorLine {α : Type} : Except (Err × Str) α → Except Err α
  | .ok a => .ok a
  | .error (e, _) => .error e

/-- `parse_xml_or_get_error_line` (utils/xml.py:82-112), `parse_xml` (utils/xml.py:115-119): the data is what
is in the file when it is opened. The error is reduced to its kind. -/
def parseFile (env : IoEnv) (parse : Str → Except Nat JNode) (source : Source) (fix : Bool) : Io JNode :=
  withFixedInput env source fix (fun p fs =>
    match readLocal env p fs with
    | (.error e, fs') => (.error e, fs')
    | (.ok data, fs') => (dropErrorLine (parseXml parse false data), fs'))

/-! ### `fix_jats_xml_file` (fix_jats_xml.py:825-846) -/

/-- Parsing, and once more with repair after a `ValueError` (fix_jats_xml.py:831-836): the root, and whether
it was repaired. -/
def parseOrRepair (env : IoEnv) (parse : Str → Except Nat JNode) (input : Str) : Io (JNode × Bool) :=
  withInput env (.path input) (fun p fs =>
    match parseFile env parse (.path p) false fs with
    | (.ok root, fs') => (.ok (root, false), fs')
    | (.error .valueError, fs') =>
      match parseFile env parse (.path p) true fs' with
      | (.ok root, fs'') => (.ok (root, true), fs'')
      | (.error e, fs'') => (.error e, fs'')
    | (.error e, fs') => (.error e, fs'))

/-- The repair and the meta data (fix_jats_xml.py:837-840). -/
def repairRoot (jenv : JatsEnv) (ser : JNode → Str) (now : Str) (root : JNode) (malformed : Bool) : Except Err JNode :=
  match fixJatsNode jenv root with
  | .error e => .error e
  | .ok fixed =>
    match metaEntries ser now fixed root malformed with
    | .error e => .error e
    | .ok entries => .ok (addMetaData entries fixed)

/-- `fix_jats_xml_file` (fix_jats_xml.py:825-846); `write` is `etree.tostring` of the document. -/
def fixJatsPath (env : IoEnv) (jenv : JatsEnv) (parse : Str → Except Nat JNode) (ser write : JNode → Str) (now : Str)
    (input output : Str) : Io Unit := fun fs =>
  match parseOrRepair env parse input fs with
  | (.error e, fs') => (.error e, fs')
  | (.ok (root, malformed), fs') =>
    match repairRoot jenv ser now root malformed with
    | .error e => (.error e, fs')
    | .ok fixed => writeLocal env output (write fixed) fs'

end Verif
