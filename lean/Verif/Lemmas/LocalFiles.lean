/-
Lemmas about reading files by way of temporary copies.
-/
import Verif.Spec.LocalFiles
import Verif.Lemmas.PyStr

namespace Verif

open Spec (NewTempDirs NoFaults wholeSource sourceData OnlyReads)

theorem hasScheme_iff (s : Str) : hasScheme s = true ↔ c!"://" <:+: s := by
  induction s with
  | nil => simp [hasScheme]
  | cons c cs ih =>
    rw [hasScheme, Bool.or_eq_true, ih, List.infix_cons_iff, startsWith, List.isPrefixOf_iff_prefix]

/-! ### Files -/

theorem rmtree_put {dir p : Str} (h : below dir p = true) (fs : Files) (data : Str) :
    (fs.put p data).rmtree dir = fs.rmtree dir := by
  unfold Files.rmtree Files.put
  simp only [Files.mk.injEq, and_true]
  rw [List.filter_cons_of_neg (by simp [h]), List.filter_filter]
  apply List.filter_congr
  intro x _
  by_cases hx : x.1 = p
  · subst hx; simp [h]
  · simp [hx]

theorem rmtree_mkdir (dir : Str) (fs : Files) : (fs.mkdir dir).rmtree dir = fs.rmtree dir := by
  unfold Files.rmtree Files.mkdir
  simp only [Files.mk.injEq, true_and]
  rw [List.filter_cons_of_neg (by simp [below])]

theorem rmtree_new {env : IoEnv} (hnew : NewTempDirs env) (suffix : TempKind) (fs : Files) :
    fs.rmtree (env.tempDir suffix fs) = fs := by
  unfold Files.rmtree
  rw [List.filter_eq_self.2 (fun x hx => by simp [hnew.files suffix fs x hx]),
    List.filter_eq_self.2 (fun x hx => by simp [hnew.dirs suffix fs x hx])]

theorem read_put (fs : Files) (p data : Str) : (fs.put p data).read p = some data := by
  simp [Files.read, Files.put]

theorem read_put_ne (fs : Files) {p q : Str} (data : Str) (h : q ≠ p) : (fs.put p data).read q = fs.read q := by
  unfold Files.read Files.put
  simp only
  rw [List.find?_cons_of_neg (by simpa using fun e => h e.symm), List.find?_filter]
  congr 2
  funext x
  by_cases hx : x.1 = q
  · subst hx; simp [h]
  · simp [hx]

theorem read_mkdir (fs : Files) (dir p : Str) : (fs.mkdir dir).read p = fs.read p := rfl

theorem joinPath_dir {env : IoEnv} (hnew : NewTempDirs env) (suffix : TempKind) (fs : Files) {name : Str} (hname : '/' ∉ name) :
    joinPath (env.tempDir suffix fs) name = env.tempDir suffix fs ++ '/' :: name := by
  have h1 := hnew.nonempty suffix fs
  have h2 := hnew.noSlash suffix fs
  unfold joinPath
  rw [if_neg, if_neg]
  · intro h
    rcases Bool.or_eq_true _ _ ▸ h with h | h
    · exact h1 (List.isEmpty_iff.1 h)
    · rw [endsWith, List.isSuffixOf_iff_suffix] at h
      obtain ⟨t, ht⟩ := h
      rw [← ht] at h2
      simp at h2
  · intro h
    rw [startsWith, List.isPrefixOf_iff_prefix] at h
    obtain ⟨t, ht⟩ := h
    rw [← ht] at hname
    simp at hname

theorem below_joinPath {env : IoEnv} (hnew : NewTempDirs env) (suffix : TempKind) (fs : Files) {name : Str} (hname : '/' ∉ name) :
    below (env.tempDir suffix fs) (joinPath (env.tempDir suffix fs) name) = true := by
  rw [joinPath_dir hnew suffix fs hname, below, Bool.or_eq_true]
  right
  rw [startsWith, List.isPrefixOf_iff_prefix]
  exact ⟨name, by simp⟩

theorem slash_not_mem_baseName (p : Str) : '/' ∉ baseName p := by
  intro h
  rw [baseName, List.mem_reverse] at h
  have := mem_takeWhile_imp h
  simp at this

theorem baseName_slash {name : Str} (hname : '/' ∉ name) (dir : Str) : baseName (dir ++ '/' :: name) = name := by
  unfold baseName
  rw [List.reverse_append, List.reverse_cons, List.append_assoc, List.takeWhile_append_of_pos]
  · simp
  · intro x hx
    rw [List.mem_reverse] at hx
    simpa using fun (e : x = '/') => hname (e ▸ hx)

theorem noScheme_joinPath {env : IoEnv} (hnew : NewTempDirs env) (suffix : TempKind) (fs : Files) {name : Str} (hname : '/' ∉ name) :
    hasScheme (joinPath (env.tempDir suffix fs) name) = false := by
  rw [joinPath_dir hnew suffix fs hname]
  cases hh : hasScheme (env.tempDir suffix fs ++ '/' :: name) with
  | false => rfl
  | true =>
    exfalso
    rw [hasScheme_iff] at hh
    apply hnew.noScheme suffix fs
    have hs := hnew.noSlash suffix fs
    generalize env.tempDir suffix fs = dir at hh hs ⊢
    obtain ⟨a, b, hab⟩ := hh
    -- the two slashes are not both behind the directory
    have hsplit : ∀ (dir : Str) (a : Str), dir.getLast? ≠ some '/' → a ++ c!"://" ++ b = dir ++ '/' :: name → c!"://" <:+: dir := by
      intro dir
      induction dir with
      | nil =>
        intro a _ h
        have hn : '/' ∈ name := by
          have : name = (a ++ c!"://" ++ b).tail := by rw [h]; rfl
          rw [this]
          cases a with
          | nil => simp
          | cons x a => simp
        exact absurd hn hname
      | cons d dir ih =>
        intro a hl h
        cases a with
        | cons x a =>
          simp only [List.cons_append, List.cons.injEq] at h
          exact List.infix_cons_iff.2 (Or.inr (ih a (by
            intro e
            apply hl
            rw [List.getLast?_cons, e]
            rfl) h.2))
        | nil =>
          simp only [List.nil_append, List.cons_append, List.cons.injEq] at h
          obtain ⟨rfl, h⟩ := h
          cases dir with
          | nil =>
            simp only [List.nil_append, List.cons.injEq, true_and] at h
            exact absurd (h ▸ List.mem_cons_self) hname
          | cons d2 dir =>
            simp only [List.cons_append, List.cons.injEq] at h
            obtain ⟨rfl, h⟩ := h
            cases dir with
            | nil =>
              exact absurd rfl hl
            | cons d3 dir =>
              simp only [List.cons_append, List.cons.injEq] at h
              obtain ⟨rfl, h⟩ := h
              exact ⟨[], dir, rfl⟩
    exact hsplit dir a hs hab

/-! ### Temporary copies -/

theorem endsWith_slash_iff (p : Str) : endsWith ['/'] p = true ↔ p.getLast? = some '/' := by
  rw [endsWith, List.isSuffixOf_iff_suffix, List.getLast?_eq_some_iff]
  constructor
  · rintro ⟨t, rfl⟩; exact ⟨t, rfl⟩
  · rintro ⟨t, rfl⟩; exact ⟨t, rfl⟩

theorem writeLocal_files (env : IoEnv) (p data : Str) (fs : Files) :
    (writeLocal env p data fs).2 = fs ∨ ∃ d, (writeLocal env p data fs).2 = fs.put p d := by
  unfold writeLocal
  split
  · exact Or.inl rfl
  · split
    · exact Or.inr ⟨_, rfl⟩
    · exact Or.inl rfl
    · exact Or.inr ⟨_, rfl⟩

theorem readLocal_files (env : IoEnv) (p : Str) (fs : Files) : (readLocal env p fs).2 = fs := by
  unfold readLocal
  split
  · rfl
  · split <;> rfl

theorem copySource_files (env : IoEnv) (o : Except Err (Str × Option Err)) (p : Str) (fs : Files) :
    (copySource env o p fs).2 = fs ∨ ∃ d, (copySource env o p fs).2 = fs.put p d := by
  unfold copySource
  split
  · exact Or.inl rfl
  · rename_i data fault
    have hw := writeLocal_files env p data fs
    split
    · rename_i e fs' he
      rw [he] at hw
      exact hw
    · rename_i fs' he
      rw [he] at hw
      split <;> exact hw

/-- What is done in a temporary directory leaves no trace. -/
theorem withTempDir_clean {α : Type} {env : IoEnv} (hnew : NewTempDirs env) (suffix : TempKind) (body : Str → Io α) (fs : Files)
    (h : let dir := env.tempDir suffix fs
      ((body dir (fs.mkdir dir)).2).rmtree dir = (fs.mkdir dir).rmtree dir) :
    (withTempDir env suffix body fs).2 = fs := by
  show ((body _ _).2).rmtree _ = fs
  rw [h, rmtree_mkdir, rmtree_new hnew]

theorem withCopy_clean {α : Type} {env : IoEnv} (hnew : NewTempDirs env) {name : Str} (hname : '/' ∉ name)
    (o : Except Err (Str × Option Err)) {body : Str → Io α} (hb : OnlyReads body) (fs : Files) :
    (withCopy env name o body fs).2 = fs := by
  apply withTempDir_clean hnew
  simp only
  generalize hfs : fs.mkdir (env.tempDir .input fs) = fs1
  have hbelow := below_joinPath hnew .input fs hname
  have hc := copySource_files env o (joinPath (env.tempDir .input fs) name) fs1
  have hrm : ((copySource env o (joinPath (env.tempDir .input fs) name) fs1).2).rmtree (env.tempDir .input fs) =
      fs1.rmtree (env.tempDir .input fs) := by
    rcases hc with h | ⟨d, h⟩
    · rw [h]
    · rw [h, rmtree_put hbelow]
  split
  · rename_i e fs' he
    rw [he] at hrm
    exact hrm
  · rename_i fs' he
    rw [he] at hrm
    rw [hb]
    exact hrm

theorem withInput_clean {α : Type} {env : IoEnv} (hnew : NewTempDirs env) (source : Source) {body : Str → Io α}
    (hb : OnlyReads body) (fs : Files) : (withInput env source body fs).2 = fs := by
  unfold withInput
  split
  · split
    · exact withTempDir_clean hnew _ _ _ rfl
    · split
      · exact hb _ _
      · exact withCopy_clean hnew (slash_not_mem_baseName _) _ hb fs
  · exact withCopy_clean hnew (by decide) _ hb fs

/-- The part of `auto_download_and_fix_input_file` behind the input file. -/
def inFixedCopy {α : Type} (env : IoEnv) (fix : Bool) (body : Str → Io α) (p : Str) : Io α :=
  if !fix then body p
  else withTempDir env .fixed (fun dir fs =>
    match readLocal env p fs with
    | (.error e, fs') => (.error e, fs')
    | (.ok data, fs') =>
      match writeLocal env (joinPath dir (baseName p)) (repairedXml data) fs' with
      | (.error e, fs'') => (.error e, fs'')
      | (.ok _, fs'') => body (joinPath dir (baseName p)) fs'')

theorem inFixedCopy_clean {α : Type} {env : IoEnv} (hnew : NewTempDirs env) (fix : Bool) {body : Str → Io α}
    (hb : OnlyReads body) : OnlyReads (inFixedCopy env fix body) := by
  intro p fs
  unfold inFixedCopy
  split
  · exact hb p fs
  · apply withTempDir_clean hnew
    simp only
    generalize fs.mkdir (env.tempDir .fixed fs) = fs1
    have hbelow := below_joinPath hnew .fixed fs (slash_not_mem_baseName p)
    have hr := readLocal_files env p fs1
    split
    · rename_i e fs' he
      rw [he] at hr
      rw [hr]
    · rename_i data fs' he
      rw [he] at hr
      subst hr
      have hw := writeLocal_files env (joinPath (env.tempDir .fixed fs) (baseName p)) (repairedXml data) fs'
      have hrm : ((writeLocal env (joinPath (env.tempDir .fixed fs) (baseName p)) (repairedXml data) fs').2).rmtree
          (env.tempDir .fixed fs) = fs'.rmtree (env.tempDir .fixed fs) := by
        rcases hw with h | ⟨d, h⟩
        · rw [h]
        · rw [h, rmtree_put hbelow]
      split
      · rename_i e fs2 he2
        rw [he2] at hrm
        exact hrm
      · rename_i fs2 he2
        rw [he2] at hrm
        rw [hb]
        exact hrm

theorem withFixedInput_clean {α : Type} {env : IoEnv} (hnew : NewTempDirs env) (source : Source) (fix : Bool) {body : Str → Io α}
    (hb : OnlyReads body) (fs : Files) : (withFixedInput env source fix body fs).2 = fs :=
  withInput_clean hnew source (inFixedCopy_clean hnew fix hb) fs

/-- The reading and parsing of `parse_xml_or_get_error_line`. -/
def parseBody (env : IoEnv) (parse : Str → Except Nat JNode) (p : Str) : Io JNode := fun fs =>
  match readLocal env p fs with
  | (.error e, fs') => (.error e, fs')
  | (.ok data, fs') => (dropErrorLine (parseXml parse false data), fs')

theorem parseBody_reads (env : IoEnv) (parse : Str → Except Nat JNode) : OnlyReads (parseBody env parse) := by
  intro p fs
  have h := readLocal_files env p fs
  unfold parseBody
  split
  · rename_i e fs' he
    rw [he] at h
    exact h
  · rename_i data fs' he
    rw [he] at h
    exact h

theorem parseFile_files {env : IoEnv} (hnew : NewTempDirs env) (parse : Str → Except Nat JNode) (source : Source) (fix : Bool)
    (fs : Files) : (parseFile env parse source fix fs).2 = fs :=
  withFixedInput_clean hnew source fix (parseBody_reads env parse) fs

/-- The second part of `fix_jats_xml_file` with the input file. -/
def parseTwice (env : IoEnv) (parse : Str → Except Nat JNode) (p : Str) : Io (JNode × Bool) := fun fs =>
  match parseFile env parse (.path p) false fs with
  | (.ok root, fs') => (.ok (root, false), fs')
  | (.error .valueError, fs') =>
    match parseFile env parse (.path p) true fs' with
    | (.ok root, fs'') => (.ok (root, true), fs'')
    | (.error e, fs'') => (.error e, fs'')
  | (.error e, fs') => (.error e, fs')

theorem parseTwice_reads {env : IoEnv} (hnew : NewTempDirs env) (parse : Str → Except Nat JNode) :
    OnlyReads (parseTwice env parse) := by
  intro p fs
  have h := parseFile_files hnew parse (.path p) false fs
  unfold parseTwice
  split
  · rename_i root fs' he
    rw [he] at h
    exact h
  · rename_i fs' he
    rw [he] at h
    subst h
    have h2 := parseFile_files hnew parse (.path p) true fs'
    split
    · rename_i root fs'' he2
      rw [he2] at h2
      exact h2
    · rename_i root fs'' he2
      rw [he2] at h2
      exact h2
  · rename_i e fs' _ he
    rw [he] at h
    exact h

theorem parseOrRepair_files {env : IoEnv} (hnew : NewTempDirs env) (parse : Str → Except Nat JNode) (input : Str) (fs : Files) :
    (parseOrRepair env parse input fs).2 = fs :=
  withInput_clean hnew (.path input) (parseTwice_reads hnew parse) fs

/-! ### What is read -/

/-- A path of a local file. -/
structure LocalPath (p : Str) : Prop where
  nonempty : p ≠ []
  noScheme : hasScheme p = false
  noSlash : p.getLast? ≠ some '/'

/-- What is done with a local file depends on its content only. -/
def Reads {α : Type} (body : Str → Io α) (f : Str → Except Err α) : Prop :=
  ∀ p fs, LocalPath p → (body p fs).1 = match fs.read p with
    | some data => f data
    | none => .error .exception

/-- If it succeeds, whatever else fails, the file has been read. -/
def ReadsOk {α : Type} (env : IoEnv) (body : Str → Io α) (f : Str → Except Err α) : Prop :=
  ∀ p fs a, p ≠ [] → hasScheme p = false → (body p fs).1 = .ok a →
    env.readFault p = none ∧ ∃ data, fs.read p = some data ∧ f data = .ok a

theorem localPath_joinPath {env : IoEnv} (hnew : NewTempDirs env) (suffix : TempKind) (fs : Files) {name : Str} (hname : '/' ∉ name)
    (hne : name ≠ []) : LocalPath (joinPath (env.tempDir suffix fs) name) := by
  refine ⟨?_, noScheme_joinPath hnew suffix fs hname, ?_⟩
  · rw [joinPath_dir hnew suffix fs hname]
    simp
  · rw [joinPath_dir hnew suffix fs hname]
    intro h
    apply hname
    obtain ⟨t, x, rfl⟩ := (List.eq_nil_or_concat name).resolve_left hne
    rw [List.concat_eq_append] at h ⊢
    rw [show env.tempDir suffix fs ++ '/' :: (t ++ [x]) = (env.tempDir suffix fs ++ '/' :: t) ++ [x] by simp,
      List.getLast?_concat] at h
    simp only [Option.some.injEq] at h
    subst h
    simp

theorem baseName_ne_nil {p : Str} (h1 : p ≠ []) (h2 : p.getLast? ≠ some '/') : baseName p ≠ [] := by
  obtain ⟨t, x, rfl⟩ := (List.eq_nil_or_concat p).resolve_left h1
  rw [List.concat_eq_append] at h2 ⊢
  rw [List.getLast?_concat] at h2
  unfold baseName
  rw [List.reverse_append, List.reverse_singleton, List.singleton_append,
    List.takeWhile_cons_of_pos (by simpa using fun (e : x = '/') => h2 (by rw [e]))]
  simp

theorem writeLocal_ok {env : IoEnv} (hno : NoFaults env) {p : Str} (hp : p.getLast? ≠ some '/') (data : Str) (fs : Files) :
    writeLocal env p data fs = (.ok (), fs.put p data) := by
  unfold writeLocal
  rw [if_neg (fun h => hp ((endsWith_slash_iff p).1 h)), hno.write]

theorem writeLocal_ok_inv {env : IoEnv} {p data : Str} {fs : Files} (h : (writeLocal env p data fs).1 = .ok ()) :
    (writeLocal env p data fs).2 = fs.put p data := by
  unfold writeLocal at h ⊢
  split at h
  · cases h
  · rename_i hs
    rw [if_neg hs]
    split at h
    · rename_i hw
      rfl
    · cases h
    · cases h

theorem readLocal_ok {env : IoEnv} (hno : NoFaults env) (p : Str) (fs : Files) :
    readLocal env p fs = (match fs.read p with
      | some data => .ok data
      | none => .error .exception, fs) := by
  unfold readLocal
  rw [hno.read]
  simp only
  cases fs.read p <;> rfl

theorem readLocal_ok_inv {env : IoEnv} {p data : Str} {fs : Files} (h : (readLocal env p fs).1 = .ok data) :
    env.readFault p = none ∧ fs.read p = some data := by
  unfold readLocal at h
  split at h
  · cases h
  · rename_i hf
    split at h
    · rename_i d hd
      simp only [Except.ok.injEq] at h
      subst h
      exact ⟨hf, hd⟩
    · cases h

theorem withCopy_reads {α : Type} {env : IoEnv} (hnew : NewTempDirs env) (hno : NoFaults env) {name : Str} (hname : '/' ∉ name)
    (hne : name ≠ []) (o : Except Err (Str × Option Err)) {body : Str → Io α} {f : Str → Except Err α} (hb : Reads body f)
    (fs : Files) : (withCopy env name o body fs).1 = match wholeSource o with
      | .error e => .error e
      | .ok data => f data := by
  have hp := localPath_joinPath hnew .input fs hname hne
  unfold withCopy withTempDir
  simp only
  generalize fs.mkdir (env.tempDir .input fs) = fs1
  unfold copySource
  rcases o with e | ⟨data, fault⟩
  · rfl
  · simp only [writeLocal_ok hno hp.noSlash]
    rcases fault with _ | e
    · simp only [wholeSource]
      rw [hb _ _ hp, read_put]
    · rfl

theorem withCopy_readsOk {α : Type} {env : IoEnv} (hnew : NewTempDirs env) {name : Str} (hname : '/' ∉ name)
    (o : Except Err (Str × Option Err)) {body : Str → Io α} {f : Str → Except Err α} (hb : ReadsOk env body f)
    (fs : Files) (a : α) (h : (withCopy env name o body fs).1 = .ok a) :
    ∃ data, wholeSource o = .ok data ∧ f data = .ok a := by
  unfold withCopy withTempDir at h
  simp only at h
  generalize fs.mkdir (env.tempDir .input fs) = fs1 at h
  unfold copySource at h
  rcases o with e | ⟨data, fault⟩
  · cases h
  · simp only at h
    split at h
    · cases h
    · rename_i fs2 hc
      split at hc
      · cases hc
      · rename_i fs3 hw
        rcases fault with _ | e
        · simp only [Prod.mk.injEq, true_and] at hc
          subst hc
          have h1 := writeLocal_ok_inv (by rw [hw])
          rw [hw] at h1
          simp only at h1
          subst h1
          obtain ⟨_, data', hd, hf⟩ := hb _ _ a (by rw [joinPath_dir hnew _ _ hname]; simp) (noScheme_joinPath hnew _ _ hname) h
          rw [read_put] at hd
          cases hd
          exact ⟨data, rfl, hf⟩
        · cases hc

theorem withInput_reads {α : Type} {env : IoEnv} (hnew : NewTempDirs env) (hno : NoFaults env) (source : Source)
    (hsrc : ∀ url, source = .path url → url.getLast? ≠ some '/') {body : Str → Io α} {f : Str → Except Err α}
    (hb : Reads body f) (fs : Files) : (withInput env source body fs).1 = match sourceData env fs source with
      | .error e => .error e
      | .ok data => f data := by
  rcases source with url | o
  · have hs := hsrc url rfl
    unfold withInput sourceData
    simp only
    by_cases he : url = []
    · subst he; rfl
    · rw [if_neg (by simpa using he), if_neg he]
      rcases Bool.eq_false_or_eq_true (hasScheme url) with h | h
      · rw [h, if_pos ((hasScheme_iff url).1 h)]
        exact withCopy_reads hnew hno (slash_not_mem_baseName url) (baseName_ne_nil he hs) _ hb fs
      · rw [if_neg (show ¬ (c!"://" <:+: url) from fun h' => by rw [(hasScheme_iff url).2 h'] at h; cases h), h,
          if_pos (by rfl), hb _ _ ⟨he, h, hs⟩]
        split <;> simp_all
  · exact withCopy_reads hnew hno (by decide) (by decide) o hb fs

theorem withInput_readsOk {α : Type} {env : IoEnv} (hnew : NewTempDirs env) (source : Source) {body : Str → Io α}
    {f : Str → Except Err α} (hb : ReadsOk env body f) (fs : Files) (a : α) (h : (withInput env source body fs).1 = .ok a) :
    ∃ data, sourceData env fs source = .ok data ∧ f data = .ok a := by
  rcases source with url | o
  · unfold withInput at h
    unfold sourceData
    simp only at h ⊢
    by_cases he : url = []
    · subst he; cases h
    · rw [if_neg (by simpa using he)] at h
      rw [if_neg he]
      rcases Bool.eq_false_or_eq_true (hasScheme url) with hh | hh
      · rw [if_pos ((hasScheme_iff url).1 hh)]
        rw [hh] at h
        exact withCopy_readsOk hnew (slash_not_mem_baseName url) _ hb fs a h
      · rw [if_neg (show ¬ (c!"://" <:+: url) from fun h' => by rw [(hasScheme_iff url).2 h'] at hh; cases hh)]
        rw [hh, if_pos (by rfl)] at h
        obtain ⟨_, data, hd, hf⟩ := hb _ _ a he hh h
        exact ⟨data, by rw [hd], hf⟩
  · exact withCopy_readsOk hnew (by decide) o hb fs a h

theorem inFixedCopy_reads {α : Type} {env : IoEnv} (hnew : NewTempDirs env) (hno : NoFaults env) (fix : Bool) {body : Str → Io α}
    {f : Str → Except Err α} (hb : Reads body f) :
    Reads (inFixedCopy env fix body) (fun data => f (if fix then repairedXml data else data)) := by
  intro p fs hp
  cases fix with
  | false => exact hb p fs hp
  | true =>
    have hp' := localPath_joinPath hnew .fixed fs (slash_not_mem_baseName p) (baseName_ne_nil hp.nonempty hp.noSlash)
    unfold inFixedCopy withTempDir
    simp only [Bool.not_true, Bool.false_eq_true, if_false, if_true]
    rw [readLocal_ok hno, read_mkdir]
    generalize fs.mkdir (env.tempDir .fixed fs) = fs1
    cases fs.read p with
    | none => rfl
    | some data =>
      simp only [writeLocal_ok hno hp'.noSlash]
      rw [hb _ _ hp', read_put]

theorem inFixedCopy_readsOk {α : Type} {env : IoEnv} (hnew : NewTempDirs env) (fix : Bool) {body : Str → Io α}
    {f : Str → Except Err α} (hb : ReadsOk env body f) :
    ReadsOk env (inFixedCopy env fix body) (fun data => f (if fix then repairedXml data else data)) := by
  intro p fs a hne hh h
  cases fix with
  | false => exact hb p fs a hne hh h
  | true =>
    unfold inFixedCopy withTempDir at h
    simp only [Bool.not_true, Bool.false_eq_true, if_false] at h
    have hr := readLocal_files env p (fs.mkdir (env.tempDir .fixed fs))
    split at h
    · cases h
    · rename_i data fs2 he
      rw [he] at hr
      simp only at hr
      obtain ⟨hf, hd⟩ := readLocal_ok_inv (data := data) (by rw [he])
      rw [read_mkdir] at hd
      subst hr
      refine ⟨hf, data, hd, ?_⟩
      split at h
      · cases h
      · rename_i fs3 hw
        have h1 := writeLocal_ok_inv (by rw [hw])
        rw [hw] at h1
        simp only at h1
        subst h1
        obtain ⟨_, data', hd', hf'⟩ := hb _ _ a (by rw [joinPath_dir hnew _ _ (slash_not_mem_baseName p)]; simp)
          (noScheme_joinPath hnew _ _ (slash_not_mem_baseName p)) h
        rw [read_put] at hd'
        cases hd'
        exact hf'

theorem parseBody_content {env : IoEnv} (hno : NoFaults env) (parse : Str → Except Nat JNode) :
    Reads (parseBody env parse) (fun data => dropErrorLine (parseXml parse false data)) := by
  intro p fs _
  unfold parseBody
  rw [readLocal_ok hno]
  cases fs.read p <;> rfl

theorem parseBody_ok (env : IoEnv) (parse : Str → Except Nat JNode) :
    ReadsOk env (parseBody env parse) (fun data => dropErrorLine (parseXml parse false data)) := by
  intro p fs a _ _ h
  unfold parseBody at h
  split at h
  · cases h
  · rename_i data fs' he
    obtain ⟨h1, h2⟩ := readLocal_ok_inv (data := data) (by rw [he])
    exact ⟨h1, data, h2, h⟩

theorem parseXml_repaired (parse : Str → Except Nat JNode) (fix : Bool) (data : Str) :
    parseXml parse false (if fix then repairedXml data else data) = parseXml parse fix data := by
  cases fix <;> rfl

theorem parseFile_result {env : IoEnv} (hnew : NewTempDirs env) (hno : NoFaults env) (parse : Str → Except Nat JNode)
    (source : Source) (hsrc : ∀ url, source = .path url → url.getLast? ≠ some '/') (fix : Bool) (fs : Files) :
    (parseFile env parse source fix fs).1 = match sourceData env fs source with
      | .error e => .error e
      | .ok data => dropErrorLine (parseXml parse fix data) := by
  have h := withInput_reads hnew hno source hsrc (inFixedCopy_reads hnew hno fix (parseBody_content hno parse)) fs
  simp only [parseXml_repaired] at h
  exact h

theorem parseFile_ok {env : IoEnv} (hnew : NewTempDirs env) (parse : Str → Except Nat JNode)
    (source : Source) (fix : Bool) (fs : Files) (root : JNode) (h : (parseFile env parse source fix fs).1 = .ok root) :
    ∃ data, sourceData env fs source = .ok data ∧ parseXml parse fix data = .ok root := by
  obtain ⟨data, h1, h2⟩ := withInput_readsOk hnew source (inFixedCopy_readsOk hnew fix (parseBody_ok env parse)) fs root h
  simp only [parseXml_repaired] at h2
  refine ⟨data, h1, ?_⟩
  revert h2
  cases parseXml parse fix data with
  | error e => exact fun h => nomatch h
  | ok r =>
    intro h
    simp only [dropErrorLine, Except.ok.injEq] at h
    rw [h]

theorem parseFile_readsOk {env : IoEnv} (hnew : NewTempDirs env) (parse : Str → Except Nat JNode) {p : Str} (hne : p ≠ [])
    (hh : hasScheme p = false) (fix : Bool) (fs : Files) (root : JNode)
    (h : (parseFile env parse (.path p) fix fs).1 = .ok root) :
    env.readFault p = none ∧ ∃ data, fs.read p = some data ∧ parseXml parse fix data = .ok root := by
  have hplain : parseFile env parse (.path p) fix fs = inFixedCopy env fix (parseBody env parse) p fs := by
    unfold parseFile withFixedInput withInput
    simp only
    rw [if_neg (by simpa using hne), hh]
    rfl
  rw [hplain] at h
  obtain ⟨h1, data, h2, h3⟩ := inFixedCopy_readsOk hnew fix (parseBody_ok env parse) p fs root hne hh h
  simp only [parseXml_repaired] at h3
  refine ⟨h1, data, h2, ?_⟩
  revert h3
  cases parseXml parse fix data with
  | error e => exact fun h => nomatch h
  | ok r =>
    intro h
    simp only [dropErrorLine, Except.ok.injEq] at h
    rw [h]

/-- Parsing the data, and once more with repair after a `ValueError`. -/
def parsedTwice (parse : Str → Except Nat JNode) (data : Str) : Except Err (JNode × Bool) :=
  match parseXml parse false data with
  | .ok root => .ok (root, false)
  | .error (.valueError, _) =>
    match parseXml parse true data with
    | .ok root => .ok (root, true)
    | .error (e, _) => .error e
  | .error (e, _) => .error e

theorem fixJatsFile_parsed (jenv : JatsEnv) (parse : Str → Except Nat JNode) (ser : JNode → Str) (now data : Str) :
    fixJatsFile jenv parse ser now data = match parsedTwice parse data with
      | .error e => .error e
      | .ok (root, malformed) => repairRoot jenv ser now root malformed := by
  unfold fixJatsFile parsedTwice repairRoot
  simp only
  rcases parseXml parse false data with ⟨e, l⟩ | root
  · cases e
    · simp only
      rcases parseXml parse true data with ⟨e, l⟩ | root <;> rfl
    all_goals rfl
  · rfl

theorem parseFile_path {env : IoEnv} (hnew : NewTempDirs env) (hno : NoFaults env) (parse : Str → Except Nat JNode)
    {p : Str} (hp : LocalPath p) (fix : Bool) (fs : Files) :
    (parseFile env parse (.path p) fix fs).1 = match fs.read p with
      | none => .error .exception
      | some data => dropErrorLine (parseXml parse fix data) := by
  rw [parseFile_result hnew hno parse (.path p) (by intro url h; cases h; exact hp.noSlash)]
  unfold sourceData
  simp only
  rw [if_neg hp.nonempty, if_neg (fun h => by
    have := (hasScheme_iff p).2 h
    rw [hp.noScheme] at this
    cases this)]
  cases fs.read p <;> rfl

theorem parseTwice_content {env : IoEnv} (hnew : NewTempDirs env) (hno : NoFaults env) (parse : Str → Except Nat JNode) :
    Reads (parseTwice env parse) (parsedTwice parse) := by
  intro p fs hp
  have hfs := parseFile_files hnew parse (.path p) false fs
  have h1 := parseFile_path hnew hno parse hp false fs
  have h2 := parseFile_path hnew hno parse hp true fs
  have h1' : parseFile env parse (.path p) false fs = (_, fs) := Prod.ext h1 hfs
  have h2' : parseFile env parse (.path p) true fs = (_, (parseFile env parse (.path p) true fs).2) := Prod.ext h2 rfl
  generalize (parseFile env parse (.path p) true fs).2 = fs2 at h2'
  unfold parseTwice parsedTwice
  rw [h1']
  cases hd : fs.read p with
  | none => rfl
  | some data =>
    rw [hd] at h2'
    simp only at h2' ⊢
    rcases parseXml parse false data with ⟨e, l⟩ | root
    · cases e
      · simp only [dropErrorLine]
        rw [h2']
        rcases parseXml parse true data with ⟨e, l⟩ | root <;> rfl
      all_goals rfl
    · rfl

theorem parseTwice_ok {env : IoEnv} (hnew : NewTempDirs env) (parse : Str → Except Nat JNode) :
    ReadsOk env (parseTwice env parse) (parsedTwice parse) := by
  intro p fs a hne hh h
  have hfs := parseFile_files hnew parse (.path p) false fs
  have hplain : parseFile env parse (.path p) false fs = parseBody env parse p fs := by
    unfold parseFile withFixedInput withInput
    simp only
    rw [if_neg (by simpa using hne), hh]
    rfl
  have hok := fun fix root h => parseFile_readsOk hnew parse hne hh fix fs root h
  unfold parseTwice at h
  split at h
  · rename_i root fs' he
    simp only [Except.ok.injEq] at h
    subst h
    obtain ⟨h1, data, h2, h3⟩ := hok false root (by rw [he])
    exact ⟨h1, data, h2, by unfold parsedTwice; rw [h3]⟩
  · rename_i fs' he
    rw [he] at hfs
    simp only at hfs
    subst hfs
    split at h
    · rename_i root fs2 he2
      simp only [Except.ok.injEq] at h
      subst h
      obtain ⟨h1, data, h2, h3⟩ := hok true root (by rw [he2])
      refine ⟨h1, data, h2, ?_⟩
      rw [hplain] at he
      unfold parseBody readLocal at he
      rw [h1, h2] at he
      simp only [Prod.mk.injEq, and_true] at he
      unfold parsedTwice
      rw [h3]
      revert he
      rcases parseXml parse false data with ⟨e, l⟩ | r
      · intro he
        simp only [dropErrorLine, Except.error.injEq] at he
        subst he
        rfl
      · intro he; cases he
    · cases h
  · cases h

end Verif
