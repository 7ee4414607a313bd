/-
Specification of reading files by way of temporary copies.
-/
import Verif.Model.LocalFiles

namespace Verif.Spec

/-- Temporary directories are new: nothing is there before. Their names are not empty, do not end with a
slash, and do not look like URLs. -/
structure NewTempDirs (env : IoEnv) : Prop where
  files : ∀ suffix fs, ∀ x ∈ fs.files, below (env.tempDir suffix fs) x.1 = false
  dirs : ∀ suffix fs, ∀ x ∈ fs.dirs, below (env.tempDir suffix fs) x = false
  nonempty : ∀ suffix fs, env.tempDir suffix fs ≠ []
  noSlash : ∀ suffix fs, (env.tempDir suffix fs).getLast? ≠ some '/'
  noScheme : ∀ suffix fs, ¬ c!"://" <:+: env.tempDir suffix fs

/-- Neither writing nor reading local files fails. -/
structure NoFaults (env : IoEnv) : Prop where
  write : ∀ p data, env.writeFault p data = none
  read : ∀ p, env.readFault p = none

/-- What was opened, if it was read to its end. -/
def wholeSource : Except Err (Str × Option Err) → Except Err Str
  | .error e => .error e
  | .ok (_, some e) => .error e
  | .ok (data, none) => .ok data

/-- The content of a source: of a local file, what a URL has, or what is opened. -/
def sourceData (env : IoEnv) (fs : Files) : Source → Except Err Str
  | .opener o => wholeSource o
  | .path url =>
    if url = [] then .error .assertionError
    else if c!"://" <:+: url then wholeSource (env.fetch url)
    else match fs.read url with
      | some data => .ok data
      | none => .error .exception

/-- What is done with a file leaves all files as they are. -/
def OnlyReads {α : Type} (body : Str → Io α) : Prop := ∀ p fs, (body p fs).2 = fs

end Verif.Spec
