/-
Properties of the choice of source files (C111) and of the repair of files by the figure tool (C110).
-/
import Verif.Lemmas.SourceFiles
import Verif.Lemmas.JatsPool
import Verif.Props.Download

namespace Verif

open Spec

/-! ### C110 -/

/-- C110: a file without the end tag, or with the start tag, is copied as it is. -/
theorem C110_unchanged (data : Str) (h : ¬ c!"</content>" <:+: data ∨ c!"<content>" <:+: data) :
    fixContentEnd data = data := by
  unfold fixContentEnd
  rw [if_neg]
  rw [Bool.and_eq_true, Bool.not_eq_true', ← Bool.not_eq_true, occursIn_iff, occursIn_iff]
  rintro ⟨h1, h2⟩
  rcases h with h | h
  · exact h h1
  · exact h2 h

/-- C110: otherwise the end tags are removed, and nothing else is. -/
theorem C110_removed (data : Str) (h : ¬ c!"<content>" <:+: data) :
    Substituted c!"</content>" [] data (fixContentEnd data) := by
  have hsub := substituted_replaceAll c!"</content>" [] (by decide) data
  unfold fixContentEnd
  split
  · exact hsub
  · rename_i hn
    rw [Bool.and_eq_true, Bool.not_eq_true', ← Bool.not_eq_true, occursIn_iff, occursIn_iff] at hn
    have := substituted_same hsub (fun h1 => hn ⟨h1, h⟩)
    rwa [this] at hsub

example : ¬ c!"<content>" <:+: c!"<a>t</content></a>" ∧ fixContentEnd c!"<a>t</content></a>" = c!"<a>t</a>" := by
  constructor
  · rw [← occursIn_iff]; decide +kernel
  · decide +kernel

example : c!"<content>" <:+: c!"<a><content>t</content></a>" := by
  rw [← occursIn_iff]; decide +kernel

/-- C110: the copy has the name of the source file. -/
theorem C110_name (dir source : Str) (hd : dir ≠ []) (hl : dir.getLast? ≠ some '/') :
    baseName (fixedSourceUrl dir source) = baseName source := by
  obtain ⟨_, -, hs, -⟩ := baseName_decompose source
  unfold fixedSourceUrl
  rw [joinPath_plain dir _ hd hl]
  · exact baseName_of_dir dir _ hs
  · intro hc
    exact hs (List.mem_of_mem_head? hc)

example : baseName (fixedSourceUrl c!"/tmp/x-fixed" c!"src/a.figure.tei.xml") = c!"a.figure.tei.xml" := by decide +kernel

/-- C110 fails for a well-formed file whose start tag has attributes: its end tag is removed. -/
theorem C110_attributes : fixContentEnd c!"<a><content n=\"1\">t</content></a>" = c!"<a><content n=\"1\">t</a>" := by
  decide +kernel

/-- C110: the repaired file can contain the end tag again. -/
theorem C110_again : fixContentEnd c!"</con</content>tent>" = c!"</content>" := by decide +kernel

/-! ### C111 -/

/-- C111: accepted options always lead to a list of files. -/
theorem C111_total (find : Str → List Str) (o : SourceOpts) (h : sourceOptsAccepted o = true) :
    ∃ files, sourceFiles find o = .ok files := by
  unfold sourceOptsAccepted at h
  unfold sourceFiles
  split
  · exact ⟨_, rfl⟩
  · rename_i hp
    cases hb : o.sourceBasePath with
    | some b => exact ⟨_, rfl⟩
    | none =>
      exfalso
      rw [hb] at h
      cases hs : o.sourcePath with
      | none => simp [hs] at h
      | some p =>
        cases p with
        | nil => simp [hs] at h
        | cons c p => exact hp c p hs

/-- C111: a source path is the only file, whatever the other options are. -/
theorem C111_single (find : Str → List Str) (o : SourceOpts) (p : Str) (hp : p ≠ []) (h : o.sourcePath = some p) :
    sourceFiles find o = .ok [p] := by
  cases p with
  | nil => exact absurd rfl hp
  | cons c p => unfold sourceFiles; rw [h]

/-- C111: otherwise the files are those found in the base path, in the order found: all of them, or the
first ones if there is a limit. -/
theorem C111_found (find : Str → List Str) (o : SourceOpts) (base : Str) (hp : o.sourcePath = none)
    (hb : o.sourceBasePath = some base) :
    ∃ files, sourceFiles find o = .ok files ∧ files <+: find (joinPath base o.pattern) ∧
      (o.limit = none → files = find (joinPath base o.pattern)) ∧
      ∀ n, o.limit = some n → files.length = min n (find (joinPath base o.pattern)).length := by
  unfold sourceFiles
  rw [hp, hb]
  cases hl : o.limit with
  | none => exact ⟨_, rfl, List.prefix_refl _, fun _ => rfl, fun n hn => (by cases hn)⟩
  | some n =>
    refine ⟨_, rfl, List.take_prefix _ _, fun hn => (by cases hn), fun m hm => ?_⟩
    cases hm
    exact List.length_take

/-- C111: over any sequence of runs, interrupted anywhere, with or without resume, nothing but the outputs
of the source files changes, and no run processes other files. -/
theorem C111_only_sources (find : Str → List Str) (o : SourceOpts) (sources : List Str)
    (_ : sourceFiles find o = .ok sources) (cfg : PipelineConfig) (process : FileStore → Str → DocResult)
    (fs0 fs : FileStore) (runs : List PipelineRun) (h : RunHistory cfg process sources fs0 runs fs) :
    (∀ r ∈ runs, r.jobs.Sublist sources) ∧ ∀ q, (∀ u ∈ sources, q ∉ outputPaths cfg u) → fs q = fs0 q :=
  history_writes h

/-- C111 fails with a limit: files beyond the limit are never processed, however often runs are resumed. -/
theorem C111_limit_never_passed (find : Str → List Str) (o : SourceOpts) (base : Str) (n : Nat) (sources : List Str)
    (hp : o.sourcePath = none) (hb : o.sourceBasePath = some base) (hl : o.limit = some n)
    (hs : sourceFiles find o = .ok sources) (hnd : (find (joinPath base o.pattern)).Nodup)
    (cfg : PipelineConfig) (process : FileStore → Str → DocResult)
    (fs0 fs : FileStore) (runs : List PipelineRun) (h : RunHistory cfg process sources fs0 runs fs)
    (i : Nat) (u : Str) (hi : n ≤ i) (hu : (find (joinPath base o.pattern))[i]? = some u) : ∀ r ∈ runs, u ∉ r.jobs := by
  intro r hr hm
  have hmem : u ∈ sources := ((history_writes h).1 r hr).mem hm
  have : sources = (find (joinPath base o.pattern)).take n := by
    unfold sourceFiles at hs
    rw [hp, hb, hl] at hs
    exact (Except.ok.inj hs).symm
  rw [this] at hmem
  obtain ⟨k, hk⟩ := List.mem_iff_getElem?.mp hmem
  rw [List.getElem?_take] at hk
  split at hk
  · rename_i hkn
    have := (List.getElem?_inj (List.getElem?_eq_some_iff.mp hk).1 hnd).mp (hk.trans hu.symm)
    omega
  · cases hk

/-- C111 fails with a limit: once the outputs of the files within the limit exist, resumed runs do nothing. -/
theorem C111_resume_stuck (cfg : PipelineConfig) (hres : cfg.resume = true) (process : FileStore → Str → DocResult)
    (sources : List Str) (fs0 fs : FileStore) (runs : List PipelineRun)
    (hall : ∀ u ∈ sources, fs0 (annotatedOutput cfg.outputPath u) ≠ none) (h : RunHistory cfg process sources fs0 runs fs) :
    fs = fs0 ∧ ∀ r ∈ runs, r.jobs = [] := by
  induction h with
  | start => exact ⟨rfl, fun r hr => (by cases hr)⟩
  | run hh hc ih =>
    rename_i rs fs1 c
    have hrem : remainingFiles cfg fs1 sources = [] := by
      rw [ih.1]
      apply List.eq_nil_iff_forall_not_mem.mpr
      intro u hu
      obtain ⟨h1, h2⟩ := (mem_remaining hres).mp hu
      exact hall u h1 h2
    refine ⟨?_, fun r hr => ?_⟩
    · rw [hrem] at hc
      funext q
      rw [(jobs_writes hc).2 q (fun u hu => by cases hu), ih.1]
    · rw [List.mem_append, List.mem_singleton] at hr
      rcases hr with hr | rfl
      · exact ih.2 r hr
      · exact hrem

/-- C111, the case: three files, a limit of one. -/
def limitExample : SourceOpts := ⟨none, some c!"src", c!"*.xml", some 1⟩

def limitFind : Str → List Str := fun p => if p = c!"src/*.xml" then [c!"src/a.xml", c!"src/b.xml", c!"src/c.xml"] else []

example : sourceOptsAccepted limitExample = true ∧ sourceFiles limitFind limitExample = .ok [c!"src/a.xml"] := by
  constructor
  · decide +kernel
  · rfl

example : (limitFind (joinPath c!"src" c!"*.xml")).Nodup ∧ (limitFind (joinPath c!"src" c!"*.xml"))[2]? = some c!"src/c.xml" := by
  decide +kernel

/-- C111, the case: the first run with the limit of one annotates the first file. -/
example : ∃ (runs : List PipelineRun) (fs : FileStore),
    RunHistory ⟨c!"out", none, true, false⟩ (fun _ _ => .passed []) [c!"src/a.xml"] (fun _ => none) runs fs ∧
      fs c!"out/a.xml" = some [] ∧ runs.map (fun r => r.jobs) = [[c!"src/a.xml"]] := by
  refine ⟨_, _, .run .start (.step (.step (.step .start (.step (i := 0) rfl rfl .process)) (.step (i := 0) rfl rfl .create))
    (.step (i := 0) rfl rfl .close)), ?_, ?_⟩
  · decide +kernel
  · decide +kernel

end Verif
