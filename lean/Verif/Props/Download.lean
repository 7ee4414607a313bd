/-
C51, C52, C81: downloading source files.
-/
import Verif.Lemmas.Download
import Verif.Model.Pipeline
import Verif.Lemmas.Ok

namespace Verif

open Spec

/-- C51: the files copied are exactly the pairs of which both files exist, in order, with the i-th
document next to the i-th target; the lists must have the same length and at least one pair must
exist. -/
theorem C51_pairs (env : FilesEnv) (docBase targetBase : Option Str) (documents targets : List Str) (docPath targetPath : Str)
    (docPattern targetPattern : List PatternPart) (plan : CopyPlan) (h1 : AbsStable env docBase) (h2 : AbsStable env targetBase)
    (h : downloadPlan env docBase targetBase documents targets docPath targetPath docPattern targetPattern = .ok plan) :
    documents.length = targets.length ∧ plan.documents ≠ [] ∧ plan.documents.length = plan.targets.length ∧
      (plan.documents.map (·.1)).zip (plan.targets.map (·.1)) =
        ((documents.map (absOf env docBase)).zip (targets.map (absOf env targetBase))).filter
          (fun p => env.fileExists p.1 && env.fileExists p.2) := by
  unfold downloadPlan at h
  split at h
  · cases h
  · next docs tgts hf =>
    obtain ⟨e1, e2, e3, e4, e5⟩ := filterPairExists_spec env _ _ _ _ _ _ h1 h2 hf
    split at h
    · cases h
    · next hne =>
      simp only [] at h
      split at h
      · cases h
      · split at h
        · cases h
        · split at h
          · cases h
          · next d hd =>
            split at h
            · cases h
            · next t ht =>
              cases h
              unfold copyPairs at hd ht
              split at hd
              · cases hd
              · next hld =>
                split at ht
                · cases ht
                · next hlt =>
                  cases hd; cases ht
                  have hld := Classical.not_not.mp hld
                  have hlt := Classical.not_not.mp hlt
                  refine ⟨e1, ?_, ?_, ?_⟩
                  · intro hc
                    have := congrArg List.length hc
                    rw [List.length_zip, ← hld, Nat.min_self] at this
                    exact hne (by simpa using this)
                  · rw [List.length_zip, List.length_zip, ← hld, ← hlt, Nat.min_self, Nat.min_self, e2]
                  · rw [show (List.map (fun x : Str × Str => x.1) (docs.abs.zip _)) = docs.abs from
                      List.map_fst_zip (Nat.le_of_eq hld),
                      show (List.map (fun x : Str × Str => x.1) (tgts.abs.zip _)) = tgts.abs from
                      List.map_fst_zip (Nat.le_of_eq hlt), e3]

/-- What the name of the i-th output is made of. -/
def OutputOf (env : FilesEnv) (docBase targetBase : Option Str) (path : Str) (pattern : List PatternPart)
    (i : Nat) (own doc target out : Str) : Prop :=
  ∃ name, formatParts i (namePropsOf env own)
      [(c!"document", namePropsOf env (relOf env docBase doc)), (c!"target", namePropsOf env (relOf env targetBase target))]
      pattern = .ok name ∧
    out = absOf env (some path) (joinPath path name)

theorem outputOf_list {env : FilesEnv} {docBase targetBase : Option Str} {docs tgts source out : FileList} {path : Str}
    {pattern : List PatternPart}
    (hd : docs.rel = docs.abs.map (relOf env docBase)) (ht : tgts.rel = tgts.abs.map (relOf env targetBase))
    (h : outputFileList env source path pattern [(c!"document", docs.rel), (c!"target", tgts.rel)] = .ok out)
    (i : Nat) (own doc target o : Str) (hown : source.rel[i]? = some own) (hdoc : docs.abs[i]? = some doc)
    (htgt : tgts.abs[i]? = some target) (ho : out.abs[i]? = some o) :
    OutputOf env docBase targetBase path pattern i own doc target o := by
  obtain ⟨os, h1, h2⟩ := outputFileList_abs h
  obtain ⟨-, h4⟩ := relativeOutputFiles_spec h1
  obtain ⟨name, h5, h6⟩ := h4 i own hown
  rw [h2, List.getElem?_map, h5] at ho
  cases ho
  refine ⟨name, ?_, rfl⟩
  unfold relativeOutputFile at h6
  rw [otherProps_two env (0 + i) _ _ docs.rel tgts.rel (relOf env docBase doc) (relOf env targetBase target)
    (by rw [hd, Nat.zero_add, List.getElem?_map, hdoc]; rfl) (by rw [ht, Nat.zero_add, List.getElem?_map, htgt]; rfl)] at h6
  rw [Nat.zero_add] at h6
  exact h6

/-- C51: the name of the i-th output is made from the i-th pair of files: its own path and the
paths of the document and of the target. -/
theorem C51_outputs (env : FilesEnv) (docBase targetBase : Option Str) (documents targets : List Str) (docPath targetPath : Str)
    (docPattern targetPattern : List PatternPart) (plan : CopyPlan) (h1 : AbsStable env docBase) (h2 : AbsStable env targetBase)
    (h : downloadPlan env docBase targetBase documents targets docPath targetPath docPattern targetPattern = .ok plan)
    (i : Nat) (doc docOut target targetOut : Str) (hd : plan.documents[i]? = some (doc, docOut))
    (ht : plan.targets[i]? = some (target, targetOut)) :
    OutputOf env docBase targetBase docPath docPattern i (relOf env docBase doc) doc target docOut ∧
      OutputOf env docBase targetBase targetPath targetPattern i (relOf env targetBase target) doc target targetOut := by
  unfold downloadPlan at h
  split at h
  · cases h
  · next docs tgts hf =>
    obtain ⟨e1, e2, e3, e4, e5⟩ := filterPairExists_spec env _ _ _ _ _ _ h1 h2 hf
    split at h
    · cases h
    · next hne =>
      simp only [] at h
      split at h
      · cases h
      · next dout hdo =>
        split at h
        · cases h
        · next tout hto =>
          split at h
          · cases h
          · next d hcd =>
            split at h
            · cases h
            · next t hct =>
              cases h
              unfold copyPairs at hcd hct
              split at hcd
              · cases hcd
              · split at hct
                · cases hct
                · cases hcd; cases hct
                  rw [List.getElem?_zip_eq_some] at hd ht
                  exact ⟨outputOf_list e4 e5 hdo i _ _ _ _ (by rw [e4, List.getElem?_map, hd.1]; rfl) hd.1 ht.1 hd.2,
                    outputOf_list e4 e5 hto i _ _ _ _ (by rw [e5, List.getElem?_map, ht.1]; rfl) hd.1 ht.1 ht.2⟩

/-- C51: the plan exists if the lists have the same length, a pair exists and the patterns mention
known lists only. -/
theorem C51_succeeds (env : FilesEnv) (docBase targetBase : Option Str) (documents targets : List Str) (docPath targetPath : Str)
    (docPattern targetPattern : List PatternPart) (h1 : AbsStable env docBase) (h2 : AbsStable env targetBase)
    (hl : documents.length = targets.length) (hp1 : KnownLists docPattern) (hp2 : KnownLists targetPattern)
    (hex : ∃ p ∈ (documents.map (absOf env docBase)).zip (targets.map (absOf env targetBase)),
      env.fileExists p.1 = true ∧ env.fileExists p.2 = true) :
    ∃ plan, downloadPlan env docBase targetBase documents targets docPath targetPath docPattern targetPattern = .ok plan := by
  obtain ⟨⟨docs, tgts⟩, hf⟩ := filterPairExists_ok env docBase targetBase documents targets hl
  obtain ⟨e1, e2, e3, e4, e5⟩ := filterPairExists_spec env _ _ _ _ _ _ h1 h2 hf
  have hne : docs.abs ≠ [] := by
    intro hc
    rw [hc, List.zip_nil_left] at e3
    obtain ⟨p, hp, hpe⟩ := hex
    have : p ∈ ((documents.map (absOf env docBase)).zip (targets.map (absOf env targetBase))).filter
        (fun p => env.fileExists p.1 && env.fileExists p.2) :=
      List.mem_filter.mpr ⟨hp, by simp [hpe.1, hpe.2]⟩
    rw [← e3] at this
    cases this
  have hout : ∀ (source : FileList) (path : Str) (pattern : List PatternPart), source.rel.length = docs.abs.length →
      KnownLists pattern → ∃ r, outputFileList env source path pattern [(c!"document", docs.rel), (c!"target", tgts.rel)] = .ok r ∧
        r.abs.length = docs.abs.length := by
    intro source path pattern hsl hp
    obtain ⟨os, hos⟩ := relativeOutputFiles_ok env pattern [(c!"document", docs.rel), (c!"target", tgts.rel)] source.rel 0 (by
      intro i hi f
      have hi1 : i < docs.rel.length := by rw [e4, List.length_map]; omega
      have hi2 : i < tgts.rel.length := by rw [e5, List.length_map, ← e2]; omega
      unfold relativeOutputFile
      rw [otherProps_two env (0 + i) _ _ docs.rel tgts.rel docs.rel[i] tgts.rel[i]
        (by rw [Nat.zero_add]; exact List.getElem?_eq_getElem hi1) (by rw [Nat.zero_add]; exact List.getElem?_eq_getElem hi2)]
      exact formatParts_ok _ _ _ _ _ hp)
    have : outputFileList env source path pattern [(c!"document", docs.rel), (c!"target", tgts.rel)] =
        .ok (FileList.init env (some path) (os.map (joinPath path))) := by
      unfold outputFileList
      rw [hos]
    refine ⟨_, this, ?_⟩
    rw [fileListInit_eq]
    simp only [List.length_map]
    rw [(relativeOutputFiles_spec hos).1, hsl]
  obtain ⟨dout, hd1, hd2⟩ := hout docs docPath docPattern (by rw [e4, List.length_map]) hp1
  obtain ⟨tout, ht1, ht2⟩ := hout tgts targetPath targetPattern (by rw [e5, List.length_map, e2]) hp2
  unfold downloadPlan
  rw [hf]
  simp only []
  rw [if_neg (by simpa using hne), hd1]
  simp only []
  rw [ht1]
  simp only [copyPairs]
  rw [if_neg (by rw [hd2]; exact fun h => h rfl)]
  simp only []
  rw [if_neg (by rw [ht2, e2]; exact fun h => h rfl)]
  exact ⟨_, rfl⟩

/-- Parameters for the examples: absolute paths start with a slash. -/
def filesExampleEnv : FilesEnv where
  toRel b f := if startsWith (b ++ ['/']) f then f.drop (b.length + 1) else f
  toAbs b f := joinPath b f
  fileExists f := f ≠ c!"/d/x/2.pdf"
  lower s := s.map (·.toLower)

theorem filesExampleEnv_stable : AbsStable filesExampleEnv (some c!"/d") := by
  intro f
  show joinPath c!"/d" (joinPath c!"/d" f) = joinPath c!"/d" f
  by_cases h : startsWith ['/'] f = true
  · simp [joinPath, h]
  · have h1 : joinPath c!"/d" f = c!"/d/" ++ f := by
      unfold joinPath
      rw [if_neg h]
      rfl
    rw [h1]
    rfl

/-- Non-vacuity of C51: the pair with the missing document is left out. -/
example : ∃ plan, downloadPlan filesExampleEnv (some c!"/d") (some c!"/d") [c!"x/1.pdf", c!"x/2.pdf", c!"y/1.pdf.GZ"]
      [c!"1.xml", c!"2.xml", c!"3.xml"] c!"/o" c!"/p" [.field .dir, .field .filename]
      [.index, .lit ['-'], .other c!"document" .name, .field .ext] = .ok plan ∧
    plan.documents = [(c!"/d/x/1.pdf", c!"/o/x/1.pdf"), (c!"/d/y/1.pdf.GZ", c!"/o/y/1.pdf.GZ")] ∧
    plan.targets = [(c!"/d/1.xml", c!"/p/0-1.xml"), (c!"/d/3.xml", c!"/p/1-1.xml")] :=
  exists_of_okAnd (by decide +kernel)

/-! ### C52 -/

/-- C52 (partial): with the pattern `{dir}{filename}` different documents are written to different
files.  Missing: with the default pattern `{filename}` they are not (`C52_default_collision`). -/
theorem C52_dir_filename_partial (env : FilesEnv) (docBase targetBase : Option Str) (path : Str) (i j : Nat)
    (own own' doc doc' target target' out out' : Str) (hpath : OutputAbs env path)
    (hp : PlainPath own) (hp' : PlainPath own') (hne : own ≠ own')
    (h : OutputOf env docBase targetBase path [.field .dir, .field .filename] i own doc target out)
    (h' : OutputOf env docBase targetBase path [.field .dir, .field .filename] j own' doc' target' out') : out ≠ out' := by
  have key : ∀ (k : Nat) (o d t r : Str), PlainPath o →
      OutputOf env docBase targetBase path [.field .dir, .field .filename] k o d t r → r = joinPath path o := by
    intro k o d t r ho ⟨name, h1, h2⟩
    have : name = o := by
      simp only [formatParts, formatPart, NameProps.get, namePropsOf, List.append_nil] at h1
      injection h1 with h1
      rw [← h1]
      exact dirName_baseName o ho
    rw [h2, hpath, this]
  rw [key _ _ _ _ _ hp h, key _ _ _ _ _ hp' h']
  exact fun hc => hne (joinPath_inj hp.1 hp'.1 hc)

/-- C52: `{name}{ext}` is the file name, without a `.gz` at its end; the extension has one dot and
does not start at the beginning of the file name. -/
theorem C52_name_ext (env : FilesEnv) (file : Str) :
    (env.lower (splitExt (baseName file)).2 = c!".gz" →
        (namePropsOf env file).filename = (namePropsOf env file).name ++ (namePropsOf env file).ext ++ (splitExt (baseName file)).2) ∧
      ((namePropsOf env file).ext = [] ∨ (∃ e, (namePropsOf env file).ext = '.' :: e ∧ '.' ∉ e) ∧
        ∃ c ∈ (namePropsOf env file).name, c ≠ '.') ∧
      (env.lower (splitExt (baseName file)).2 ≠ c!".gz" →
        (namePropsOf env file).filename = (namePropsOf env file).name ++ (namePropsOf env file).ext) := by
  obtain ⟨-, -, hs, -⟩ := baseName_decompose file
  have h1 := splitExt_spec hs
  have hs2 : '/' ∉ (splitExt (baseName file)).1 := by
    intro hc
    rw [← h1.1] at hs
    exact hs (List.mem_append_left _ hc)
  have h2 := splitExt_spec hs2
  simp only [namePropsOf]
  split
  · rename_i hgz
    exact ⟨fun _ => by rw [h2.1, h1.1], h2.2, fun hn => absurd hgz hn⟩
  · rename_i hgz
    exact ⟨fun hc => absurd hc hgz, h1.2, fun _ => h1.1.symm⟩

example : (namePropsOf filesExampleEnv c!"x/a.tei.xml.gz").name = c!"a.tei" ∧ (namePropsOf filesExampleEnv c!"x/a.tei.xml.gz").ext = c!".xml" ∧
    (namePropsOf filesExampleEnv c!"x/.hidden").name = c!".hidden" := by decide

theorem toDigits_inj {i j : Nat} (h : Nat.toDigits 10 i = Nat.toDigits 10 j) : i = j := by
  rw [← Nat.ofDigitChars_toDigits (b := 10) (n := i) (by omega) (by omega), h,
    Nat.ofDigitChars_toDigits (by omega) (by omega)]

/-- C52: with the number of the pair between fixed texts all files are written to different
files. -/
theorem C52_index (env : FilesEnv) (docBase targetBase : Option Str) (path a b : Str) (i j : Nat)
    (own own' doc doc' target target' out out' : Str) (hpath : OutputAbs env path) (ha : ¬ ['/'] <+: a) (hne : i ≠ j)
    (h : OutputOf env docBase targetBase path [.lit a, .index, .lit b] i own doc target out)
    (h' : OutputOf env docBase targetBase path [.lit a, .index, .lit b] j own' doc' target' out') : out ≠ out' := by
  have key : ∀ (k : Nat) (o d t r : Str),
      OutputOf env docBase targetBase path [.lit a, .index, .lit b] k o d t r →
        r = joinPath path (a ++ (Nat.toDigits 10 k ++ b)) := by
    intro k o d t r ⟨name, h1, h2⟩
    simp only [formatParts, formatPart, List.append_nil] at h1
    injection h1 with h1
    rw [h2, hpath, ← h1]
  have hstart : ∀ k : Nat, ¬ ['/'] <+: a ++ (Nat.toDigits 10 k ++ b) := by
    intro k hc
    cases a with
    | nil =>
      cases hd : Nat.toDigits 10 k with
      | nil => exact Nat.toDigits_ne_nil hd
      | cons x xs =>
        rw [hd] at hc
        have hx : x = '/' := by
          obtain ⟨t, ht⟩ := hc
          simp at ht
          exact ht.1.symm
        have := Nat.isDigit_of_mem_toDigits (b := 10) (n := k) (c := x) (by omega) (by omega) (by rw [hd]; exact List.mem_cons_self)
        rw [hx] at this
        revert this
        decide
    | cons x xs =>
      apply ha
      obtain ⟨t, ht⟩ := hc
      simp at ht
      exact ⟨xs, by rw [ht.1]; rfl⟩
  rw [key _ _ _ _ _ h, key _ _ _ _ _ h']
  intro hc
  have := List.append_cancel_left (joinPath_inj (hstart i) (hstart j) hc)
  exact hne (toDigits_inj (List.append_cancel_right this))

/-- C52 is violated: with the default pattern documents of the same name from different
directories are written to the same file. -/
theorem C52_default_collision : ∃ plan, downloadPlan filesExampleEnv (some c!"/d") (some c!"/d") [c!"x/1.pdf", c!"y/1.pdf"]
      [c!"1.xml", c!"2.xml"] c!"/o" c!"/p" [.field .filename] [.field .filename] = .ok plan ∧
    plan.documents = [(c!"/d/x/1.pdf", c!"/o/1.pdf"), (c!"/d/y/1.pdf", c!"/o/1.pdf")] :=
  exists_of_okAnd (by decide +kernel)

/-- C52: annotated documents are written to the same file exactly if their file names are the
same; files of one directory are written to different files. -/
theorem C52_annotated (outputPath a b : Str) : annotatedOutput outputPath a = annotatedOutput outputPath b ↔ baseName a = baseName b := by
  have h : ∀ p, ¬ ['/'] <+: baseName p := by
    intro p hc
    obtain ⟨-, -, h, -⟩ := baseName_decompose p
    exact h (hc.mem (List.mem_singleton.mpr rfl))
  exact ⟨fun hc => joinPath_inj (h a) (h b) hc, fun hc => by unfold annotatedOutput; rw [hc]⟩

theorem baseName_of_dir (d x : Str) (hx : '/' ∉ x) : baseName (d ++ '/' :: x) = x := by
  unfold baseName
  rw [List.reverse_append, List.reverse_cons, List.append_assoc, List.takeWhile_append_of_pos]
  · simp
  · intro c hc
    rw [List.mem_reverse] at hc
    have : c ≠ '/' := fun h => hx (by rw [← h]; exact hc)
    simpa using this

/-- C52: files of one directory are written to different files. -/
theorem C52_annotated_same_directory (outputPath d x y : Str) (hx : '/' ∉ x) (hy : '/' ∉ y) (hne : x ≠ y) :
    annotatedOutput outputPath (d ++ '/' :: x) ≠ annotatedOutput outputPath (d ++ '/' :: y) := by
  rw [Ne, C52_annotated, baseName_of_dir d x hx, baseName_of_dir d y hy]
  exact hne

example : annotatedOutput c!"/o" c!"/d/a.tei.xml" = c!"/o/a.tei.xml" := by decide

/-! ### C81 -/

/-- C81: whatever the order in which the threads make their steps: a file that was copied has the
content of its source, and no other file was changed.  Outputs must be different from each other
and from the sources. -/
theorem C81_copies (jobs : List (Str × Str)) (fs0 : FileStore) (hnd : (jobs.map (·.2)).Nodup)
    (hdis : ∀ j ∈ jobs, ∀ k ∈ jobs, j.1 ≠ k.2) (c : CopyConfig) (h : CopyReach jobs fs0 c) :
    (∀ (i : Nat) (src out : Str), jobs[i]? = some (src, out) → c.states[i]? = some .done → c.fs out = fs0 src ∧ fs0 src ≠ none) ∧
      (∀ (i : Nat) (src out : Str), jobs[i]? = some (src, out) → c.states[i]? = some .failed → fs0 src = none ∧ c.fs out = fs0 out) ∧
      ∀ q, (∀ j ∈ jobs, j.2 ≠ q) → c.fs q = fs0 q := by
  have hi := copyInv_reach hnd hdis h
  exact ⟨fun i src out hj hs => ⟨(hi.state i src out _ hj hs).2, (hi.state i src out _ hj hs).1⟩,
    fun i src out hj hs => hi.state i src out _ hj hs, hi.other⟩

/-- C81: as long as a copy is neither finished nor failed it can go on, whatever the others do. -/
theorem C81_progress (jobs : List (Str × Str)) (fs0 : FileStore) (c : CopyConfig) (h : CopyReach jobs fs0 c) (i : Nat)
    (st : CopyState) (hst : c.states[i]? = some st) (hne : st ≠ .done ∧ st ≠ .failed) :
    ∃ fs' st', CopyAllStep jobs c ⟨fs', c.states.set i st'⟩ := by
  have hl : c.states.length = jobs.length := by
    clear hst
    induction h with
    | start => simp
    | step _ hs ih => obtain ⟨_, _, _⟩ := hs; simpa using ih
  have hi : i < jobs.length := by rw [← hl]; exact (List.getElem?_eq_some_iff.mp hst).1
  have hj : jobs[i]? = some (jobs[i].1, jobs[i].2) := List.getElem?_eq_getElem hi
  cases st with
  | todo =>
    cases hf : c.fs jobs[i].1 with
    | none => exact ⟨_, _, .step hj hst (.openFails hf)⟩
    | some d => exact ⟨_, _, .step hj hst (.openSource hf)⟩
  | opened d => exact ⟨_, _, .step hj hst .create⟩
  | writing rest => 
    have := @CopyStep.write jobs[i].1 jobs[i].2 c.fs rest []
    rw [List.append_nil] at this
    exact ⟨_, _, .step hj hst this⟩
  | done => exact absurd rfl hne.1
  | failed => exact absurd rfl hne.2

/-- Files of the example. -/
def copyExampleFiles : FileStore := fun p => if p = ['a'] then some ['1'] else if p = ['b'] then some ['2'] else none

/-- Running the steps of a copy to its end. -/
theorem copy_one {jobs : List (Str × Str)} {fs0 : FileStore} {c : CopyConfig} (h : CopyReach jobs fs0 c) {i : Nat} {src out d : Str}
    (hj : jobs[i]? = some (src, out)) (hst : c.states[i]? = some .todo) (hs : c.fs src = some d) :
    CopyReach jobs fs0 ⟨((c.fs.put out []).put out d), ((((c.states.set i (.opened d)).set i (.writing d)).set i (.writing [])).set i .done)⟩ := by
  have hi : i < c.states.length := (List.getElem?_eq_some_iff.mp hst).1
  have h1 := h.step (.step hj hst (.openSource hs))
  have h2 := h1.step (.step (st := .opened d) hj (by simp [hi]) .create)
  have h3 := h2.step (.step (st := .writing d) (st' := .writing []) (fs' := (c.fs.put out []).put out d) hj (by simp [hi]) (by
    have := @CopyStep.write src out (c.fs.put out []) d []
    simpa [FileStore.put] using this))
  exact h3.step (.step (st := .writing []) hj (by simp [hi]) .close)

/-- Non-vacuity of C81: two files copied at the same time, step by step. -/
example : ∃ c, CopyReach [(['a'], ['x']), (['b'], ['y'])] copyExampleFiles c ∧ c.states = [.done, .done] ∧
    c.fs ['x'] = some ['1'] ∧ c.fs ['y'] = some ['2'] := by
  have h1 := copy_one (CopyReach.start (jobs := [(['a'], ['x']), (['b'], ['y'])]) (fs0 := copyExampleFiles)) (i := 0) rfl rfl
    (d := ['1']) (by decide)
  have h2 := copy_one h1 (i := 1) rfl rfl (d := ['2']) (by decide)
  exact ⟨_, h2, by decide, by decide, by decide⟩

/-- C81/C52 is violated for files written to the same output: which content remains depends on the
order of the threads. -/
theorem C81_collision : ∃ c c', CopyReach [(['a'], ['x']), (['b'], ['x'])] copyExampleFiles c ∧
    CopyReach [(['a'], ['x']), (['b'], ['x'])] copyExampleFiles c' ∧ c.states = [.done, .done] ∧ c'.states = [.done, .done] ∧
    c.fs ['x'] = some ['2'] ∧ c'.fs ['x'] = some ['1'] := by
  have h1 := copy_one (CopyReach.start (jobs := [(['a'], ['x']), (['b'], ['x'])]) (fs0 := copyExampleFiles)) (i := 0) rfl rfl
    (d := ['1']) (by decide)
  have h2 := copy_one h1 (i := 1) rfl rfl (d := ['2']) (by decide)
  have h3 := copy_one (CopyReach.start (jobs := [(['a'], ['x']), (['b'], ['x'])]) (fs0 := copyExampleFiles)) (i := 1) rfl rfl
    (d := ['2']) (by decide)
  have h4 := copy_one h3 (i := 0) rfl rfl (d := ['1']) (by decide)
  exact ⟨_, _, h2, h4, by decide, by decide, by decide, by decide⟩

end Verif
