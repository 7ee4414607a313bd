/-
Properties C120 and C121: reading files by way of temporary copies, and repairing a JATS file from its source
to its output.
-/
import Verif.Lemmas.LocalFiles
import Verif.Props.JatsDoc

namespace Verif

open Spec (NewTempDirs NoFaults wholeSource sourceData OnlyReads)

/-! ### Examples -/

/-- A directory with a name longer than all names of files and directories. -/
def exTempDir (kind : TempKind) (fs : Files) : Str :=
  c!"/tmp/" ++ List.replicate ((fs.files.map (fun x => x.1.length)).sum + (fs.dirs.map List.length).sum) 'x' ++
    (match kind with | .input => c!"-input" | .fixed => c!"-input-fixed")

/-- A machine on which nothing fails; there is one URL. -/
def exIo : IoEnv where
  fetch url := if url = c!"s3://b/a.xml" then .ok (c!" <a/>", none) else .error .exception
  tempDir := exTempDir
  writeFault _ _ := none
  readFault _ := none

/-- A machine on which writing to temporary directories fails after some characters, and reading `x` fails. -/
def exBadIo : IoEnv :=
  { exIo with
    writeFault := fun p data => if startsWith c!"/tmp/" p then some (some (data.take 2), .exception) else none
    readFault := fun p => if p = c!"x" then some .exception else none }

/-- A document which consists of the text read, unless it begins with a dagger or line feed. -/
def exReadXml (data : Str) : Except Nat JNode :=
  if startsWith c!"&dagger;" data || startsWith c!"\n" data then .error 1 else .ok (.mk 0 c!"a" [] (some data) [] none)

theorem le_sum_of_mem {l : List Nat} {n : Nat} (h : n ∈ l) : n ≤ l.sum := by
  induction l with
  | nil => cases h
  | cons m l ih =>
    rw [List.sum_cons]
    rcases List.mem_cons.1 h with rfl | h
    · omega
    · have := ih h; omega

theorem below_length {dir p : Str} (h : below dir p = true) : dir.length ≤ p.length := by
  rw [below, Bool.or_eq_true, decide_eq_true_eq, startsWith, List.isPrefixOf_iff_prefix] at h
  rcases h with rfl | ⟨t, rfl⟩
  · exact Nat.le_refl _
  · simp

theorem exTempDir_new (env : IoEnv) (h : env.tempDir = exTempDir) : NewTempDirs env := by
  have hlen : ∀ kind fs, (fs.files.map (fun x => x.1.length)).sum + (fs.dirs.map List.length).sum < (exTempDir kind fs).length := by
    intro kind fs
    cases kind <;> simp [exTempDir] <;> omega
  refine ⟨?_, ?_, ?_, ?_, ?_⟩ <;> intro kind fs <;> rw [h]
  · intro x hx
    refine Classical.byContradiction fun hb => ?_
    have h1 := below_length (by simpa using hb)
    have h2 := le_sum_of_mem (List.mem_map_of_mem (f := fun x : Str × Str => x.1.length) hx)
    have h3 := hlen kind fs
    omega
  · intro x hx
    refine Classical.byContradiction fun hb => ?_
    have h1 := below_length (by simpa using hb)
    have h2 := le_sum_of_mem (List.mem_map_of_mem (f := List.length) hx)
    have h3 := hlen kind fs
    omega
  · intro e
    have h3 := hlen kind fs
    rw [e] at h3
    simp at h3
  · have hl : ∀ (a b : Str) (c : Char), (a ++ (b ++ [c])).getLast? = some c := by
      intro a b c; rw [← List.append_assoc, List.getLast?_concat]
    cases kind
    · rw [exTempDir, show c!"-input" = c!"-inpu" ++ ['t'] from rfl, hl]; simp
    · rw [exTempDir, show c!"-input-fixed" = c!"-input-fixe" ++ ['d'] from rfl, hl]; simp
  · intro hi
    have : ':' ∈ exTempDir kind fs := hi.subset (by simp)
    cases kind <;> simp [exTempDir] at this

/-! ### C120 Temporary copies -/

/-- Whatever fails, and whether the body succeeds or not: after reading a file by way of a temporary copy, also
by way of a repaired one, the files and directories are the same as before. -/
theorem C120_nothing_left {α : Type} (env : IoEnv) (hnew : NewTempDirs env) (source : Source) (fix : Bool)
    (body : Str → Io α) (hb : OnlyReads body) (fs : Files) :
    (withInput env source body fs).2 = fs ∧ (withFixedInput env source fix body fs).2 = fs :=
  ⟨withInput_clean hnew source hb fs, withFixedInput_clean hnew source fix hb fs⟩

example : NewTempDirs exBadIo ∧ OnlyReads (readLocal exBadIo) ∧
    (withInput exBadIo (.path c!"s3://b/a.xml") (readLocal exBadIo) ⟨[(c!"x", c!"a")], []⟩).1 = .error .exception ∧
    (withInput exIo (.path c!"s3://b/a.xml") (readLocal exIo) ⟨[(c!"x", c!"a")], []⟩).1 = .ok c!" <a/>" :=
  ⟨exTempDir_new _ rfl, fun p fs => readLocal_files _ p fs, by decide +kernel, by decide +kernel⟩

/-- If nothing fails on the machine, a document is parsed from the content of its source, with repair if that
is asked for, and no file is changed. -/
theorem C120_parse (env : IoEnv) (hnew : NewTempDirs env) (hno : NoFaults env) (parse : Str → Except Nat JNode)
    (source : Source) (hsrc : ∀ url, source = .path url → url.getLast? ≠ some '/') (fix : Bool) (fs : Files) :
    parseFile env parse source fix fs = (match sourceData env fs source with
      | .error e => .error e
      | .ok data => dropErrorLine (parseXml parse fix data), fs) :=
  Prod.ext (parseFile_result hnew hno parse source hsrc fix fs) (parseFile_files hnew parse source fix fs)

example : NewTempDirs exIo ∧ NoFaults exIo ∧
    sourceData exIo ⟨[(c!"a.xml", c!"&dagger;x")], []⟩ (.path c!"a.xml") = .ok c!"&dagger;x" ∧
    sourceData exIo ⟨[], []⟩ (.path c!"s3://b/a.xml") = .ok c!" <a/>" ∧
    sourceData exIo ⟨[], []⟩ (.opener (.ok (c!"abc", none))) = .ok c!"abc" ∧
    sourceData exIo ⟨[], []⟩ (.opener (.ok (c!"abc", some .exception))) = .error .exception ∧
    (parseFile exIo exReadXml (.path c!"a.xml") false ⟨[(c!"a.xml", c!"&dagger;x")], []⟩).1.toOption.isSome = false ∧
    (parseFile exIo exReadXml (.path c!"a.xml") true ⟨[(c!"a.xml", c!"&dagger;x")], []⟩).1.toOption.map JNode.text =
      some (some c!"&#x2020;x") :=
  ⟨exTempDir_new _ rfl, ⟨fun _ _ => rfl, fun _ => rfl⟩, by decide +kernel, by decide +kernel, by decide +kernel,
    by decide +kernel, by decide +kernel, by decide +kernel⟩

/-- Whatever fails: a document which has been parsed is that of the content of its source. -/
theorem C120_parse_ok (env : IoEnv) (hnew : NewTempDirs env) (parse : Str → Except Nat JNode)
    (source : Source) (fix : Bool) (fs fs' : Files) (root : JNode) (h : parseFile env parse source fix fs = (.ok root, fs')) :
    fs' = fs ∧ ∃ data, sourceData env fs source = .ok data ∧ parseXml parse fix data = .ok root := by
  have h1 := parseFile_files hnew parse source fix fs
  rw [h] at h1
  exact ⟨h1, parseFile_ok hnew parse source fix fs root (by rw [h])⟩

/-- A URL ending with a slash cannot be read: there is no name for the copy. -/
theorem C120_url_slash {α : Type} (env : IoEnv) (url data : Str) (hu : url.getLast? = some '/') (hs : c!"://" <:+: url)
    (hd : env.fetch url = .ok (data, none)) (hnew : NewTempDirs env) (body : Str → Io α) (fs : Files) :
    (withInput env (.path url) body fs).1 = .error .exception := by
  obtain ⟨t, rfl⟩ := List.getLast?_eq_some_iff.1 hu
  have hb : baseName (t ++ ['/']) = [] := by simp [baseName]
  unfold withInput
  simp only
  rw [if_neg (by simp), (hasScheme_iff _).2 hs, hd, hb]
  unfold withCopy withTempDir
  simp only [Bool.not_true, Bool.false_eq_true, if_false]
  rw [joinPath_dir hnew _ _ (by simp)]
  unfold copySource writeLocal
  simp only
  rw [if_pos ((endsWith_slash_iff _).2 (by simp))]

/-! ### C121 Repairing a JATS file -/

/-- If nothing fails on the machine, the output of the repair is what `fixJatsFile` makes of the content of the
source, and the only change; if there is an error no file is changed. -/
theorem C121_result (env : IoEnv) (hnew : NewTempDirs env) (hno : NoFaults env) (jenv : JatsEnv)
    (parse : Str → Except Nat JNode) (ser write : JNode → Str) (now input output : Str)
    (hin : input.getLast? ≠ some '/') (hout : output.getLast? ≠ some '/') (fs : Files) :
    fixJatsPath env jenv parse ser write now input output fs =
      match sourceData env fs (.path input) with
      | .error e => (.error e, fs)
      | .ok data =>
        match fixJatsFile jenv parse ser now data with
        | .error e => (.error e, fs)
        | .ok root => (.ok (), fs.put output (write root)) := by
  have h1 := withInput_reads hnew hno (.path input) (by intro url h; cases h; exact hin) (parseTwice_content hnew hno parse) fs
  have h2 := parseOrRepair_files hnew parse input fs
  have h3 : parseOrRepair env parse input fs = (_, fs) := Prod.ext h1 h2
  unfold fixJatsPath
  rw [h3]
  cases sourceData env fs (.path input) with
  | error e => rfl
  | ok data =>
    simp only [fixJatsFile_parsed]
    rcases parsedTwice parse data with e | ⟨root, m⟩
    · rfl
    · simp only
      cases repairRoot jenv ser now root m with
      | error e => rfl
      | ok fixed => exact writeLocal_ok hno hout _ _

/-- Whatever fails: at most the output is changed. -/
theorem C121_only_output (env : IoEnv) (hnew : NewTempDirs env) (jenv : JatsEnv)
    (parse : Str → Except Nat JNode) (ser write : JNode → Str) (now input output : Str) (fs : Files) :
    (fixJatsPath env jenv parse ser write now input output fs).2 = fs ∨
      ∃ data, (fixJatsPath env jenv parse ser write now input output fs).2 = fs.put output data := by
  have h2 := parseOrRepair_files hnew parse input fs
  unfold fixJatsPath
  split
  · rename_i e fs' he
    rw [he] at h2
    exact Or.inl h2
  · rename_i root m fs' he
    rw [he] at h2
    simp only at h2
    subst h2
    split
    · exact Or.inl rfl
    · exact writeLocal_files env output _ _

/-- Whatever fails: if there is no error, the output is complete. -/
theorem C121_success (env : IoEnv) (hnew : NewTempDirs env) (jenv : JatsEnv)
    (parse : Str → Except Nat JNode) (ser write : JNode → Str) (now input output : Str) (fs fs' : Files)
    (h : fixJatsPath env jenv parse ser write now input output fs = (.ok (), fs')) :
    ∃ data root, sourceData env fs (.path input) = .ok data ∧ fixJatsFile jenv parse ser now data = .ok root ∧
      fs' = fs.put output (write root) := by
  have h2 := parseOrRepair_files hnew parse input fs
  unfold fixJatsPath at h
  split at h
  · cases h
  · rename_i root m fs1 he
    rw [he] at h2
    simp only at h2
    subst h2
    obtain ⟨data, hd, hp⟩ := withInput_readsOk hnew (.path input) (parseTwice_ok hnew parse) fs1 (root, m) (by
      exact congrArg Prod.fst he)
    split at h
    · cases h
    · rename_i fixed hf
      have hw := writeLocal_ok_inv (env := env) (p := output) (data := write fixed) (fs := fs1) (by rw [h])
      rw [h] at hw
      exact ⟨data, fixed, hd, by rw [fixJatsFile_parsed, hp]; exact hf, hw⟩

/-- The file of the example is malformed, and read after its repair: the output is written. On the machine on
which temporary files cannot be written it cannot be repaired. -/
example : let fs : Files := ⟨[(c!"in.xml", c!"\n<a>&dagger;</a>"), (c!"out.xml", c!"old")], []⟩
    ((fixJatsPath exIo jatsFixExampleEnv jatsExampleParse jatsExampleSer (fun n => n.tag) c!"now" c!"in.xml" c!"out.xml" fs).1 = .ok () ∧
      (fixJatsPath exIo jatsFixExampleEnv jatsExampleParse jatsExampleSer (fun n => n.tag) c!"now" c!"in.xml" c!"out.xml" fs).2.files =
        [(c!"out.xml", c!"article"), (c!"in.xml", c!"\n<a>&dagger;</a>")]) ∧
    ((fixJatsPath exBadIo jatsFixExampleEnv jatsExampleParse jatsExampleSer (fun n => n.tag) c!"now" c!"in.xml" c!"out.xml" fs).1 =
        .error .exception ∧
      (fixJatsPath exBadIo jatsFixExampleEnv jatsExampleParse jatsExampleSer (fun n => n.tag) c!"now" c!"in.xml" c!"out.xml" fs).2.files =
        fs.files) := by
  decide +kernel

end Verif
