/-
Properties of runs over many files: resuming after crashes (C16), isolation of failing documents
(C17), temporary copies (C18).
-/
import Verif.Lemmas.Pipeline
import Verif.Lemmas.TempFiles
import Verif.Props.Download

namespace Verif

/-! ### C16 -/

/-- C16: with resume, over any sequence of runs interrupted anywhere: a file whose output existed at
the end of a run is not among the files of any later run. -/
theorem C16_not_again (cfg : PipelineConfig) (hres : cfg.resume = true) (process : FileStore → Str → DocResult)
    (sources : List Str) (fs0 : FileStore) (runs : List PipelineRun) (fs : FileStore)
    (h : RunHistory cfg process sources fs0 runs fs) (before after : List PipelineRun) (r r' : PipelineRun)
    (hr : runs = before ++ r :: after) (hr' : r' ∈ after) (u : Str)
    (hu : r.last.fs (annotatedOutput cfg.outputPath u) ≠ none) : u ∉ r'.jobs := by
  induction h generalizing after with
  | start => simp at hr
  | run hh hc ih =>
    rename_i rs fs1 c
    rcases List.eq_nil_or_concat after with rfl | ⟨a', x, rfl⟩
    · cases hr'
    · rw [List.concat_eq_append, ← List.cons_append, ← List.append_assoc] at hr
      obtain ⟨hrs, hx⟩ := List.append_inj' hr rfl
      rw [List.concat_eq_append, List.mem_append, List.mem_singleton] at hr'
      rcases hr' with hr' | rfl
      · exact ih a' hrs hr'
      · cases hx
        simp only [mem_remaining hres]
        rintro ⟨-, hn⟩
        exact (history_mono hh).2 r (by rw [hrs]; simp) _ hu hn

/-- C16: every other file is among the files of the run. -/
theorem C16_all_others (cfg : PipelineConfig) (hres : cfg.resume = true) (fs : FileStore) (sources : List Str) :
    (remainingFiles cfg fs sources).Sublist sources ∧
      ∀ u ∈ sources, fs (annotatedOutput cfg.outputPath u) = none → u ∈ remainingFiles cfg fs sources :=
  ⟨remaining_sublist cfg fs sources, fun _ hu hn => (mem_remaining hres).mpr ⟨hu, hn⟩⟩

/-- C16 (part): with resume, after any sequence of runs interrupted anywhere except in the middle of
writing an output file, a run that is not interrupted leaves all files as one uninterrupted run
does.  What is missing: a crash in the middle of writing (see `C16_truncated`); different source
files must have different outputs, and documents must not be read from the output files. -/
theorem C16_resume_partial (cfg : PipelineConfig) (hres : cfg.resume = true) (process : FileStore → Str → DocResult)
    (sources : List Str) (fs0 : FileStore) (hind : IndependentOfOutputs cfg process sources)
    (hsep : SeparateOutputs cfg sources) (runs : List PipelineRun) (fs : FileStore)
    (h : RunHistory cfg process sources fs0 runs fs)
    (hclean : ∀ r ∈ runs, ∀ u ∈ sources, ¬ r.last.halfWritten (annotatedOutput cfg.outputPath u))
    (c : JobsConfig) (hc : JobsReach cfg process (remainingFiles cfg fs sources) fs c) (hcomp : c.complete) :
    (∀ u ∈ sources, fs0 (annotatedOutput cfg.outputPath u) = none → SavedAs cfg fs0 c.fs u (process fs0 u)) ∧
      ∀ c1 : JobsConfig, JobsReach cfg process (remainingFiles cfg fs0 sources) fs0 c1 → c1.complete → c.fs = c1.fs := by
  obtain ⟨ho, hf⟩ := history_final hres hind hsep (historyInv hres hind hsep h hclean) hc hcomp
  refine ⟨fun u hu h0 => ?_, fun c1 hc1 hcomp1 => ?_⟩
  · have := hf u hu
    rwa [FinalFiles, if_pos h0] at this
  · obtain ⟨ho1, hf1⟩ := history_final hres hind hsep
      (historyInv hres hind hsep (.start : RunHistory cfg process sources fs0 [] fs0) (fun r hr => by cases hr)) hc1 hcomp1
    funext q
    by_cases hq : ∃ u ∈ sources, q ∈ outputPaths cfg u
    · obtain ⟨u, hu, hqu⟩ := hq
      have h1 := hf u hu
      have h2 := hf1 u hu
      unfold FinalFiles at h1 h2
      split at h1
      · rename_i h0
        rw [if_pos h0] at h2
        exact savedAs_unique h1 h2 q hqu
      · rename_i h0
        rw [if_neg h0] at h2
        rw [h1 q hqu, h2 q hqu]
    · have hq' : ∀ u ∈ sources, q ∉ outputPaths cfg u := fun u hu hqu => hq ⟨u, hu, hqu⟩
      rw [ho q hq', ho1 q hq']

/-- No files. -/
def noFiles : FileStore := fun _ => none

/-- Source files `a` and `b`, outputs below `o`, failed outputs below `f`. -/
def pipelineExample : PipelineConfig := ⟨c!"o", some c!"f", true, true⟩

/-- `a` passes the checks, `b` does not, others cannot be processed. -/
def processExample : FileStore → Str → DocResult := fun _ u =>
  if u = c!"a" then .passed c!"xy" else if u = c!"b" then .failedChecks c!"z" else .error

theorem separate_example : SeparateOutputs pipelineExample [c!"a", c!"b", c!"e"] := by
  unfold SeparateOutputs
  decide

theorem independent_example : IndependentOfOutputs pipelineExample processExample [c!"a", c!"b", c!"e"] :=
  fun _ _ _ _ _ => rfl

/-- Run one job to its end. -/
theorem job_one {cfg : PipelineConfig} {process : FileStore → Str → DocResult} {jobs : List Str} {fs0 : FileStore} {c : JobsConfig}
    (h : JobsReach cfg process jobs fs0 c) {i : Nat} {u p d : Str} (hj : jobs[i]? = some u) (hs : c.states[i]? = some .pending)
    (hp : afterProcess cfg u (process c.fs u) = .saving p d) :
    JobsReach cfg process jobs fs0 ⟨(c.fs.put p []).put p d, c.states.set i .finished⟩ := by
  have hlt : i < c.states.length := (List.getElem?_eq_some_iff.mp hs).1
  have h1 := JobsReach.step h (.step hj hs .process)
  rw [hp] at h1
  have h2 := JobsReach.step h1 (.step hj (st := .saving p d) (by simp [hlt]) .create)
  by_cases hd : d = []
  · subst hd
    have h3 := JobsReach.step h2 (.step hj (st := .writing p []) (by simp [hlt]) .close)
    have he : (c.fs.put p []).put p [] = c.fs.put p [] := by
      funext q
      simp only [FileStore.put]
      split <;> rfl
    rw [he]
    simpa using h3
  · have h3 := JobsReach.step h2 (.step hj (st := .writing p (d ++ [])) (by simp [hlt]) (.write hd))
    have h4 := JobsReach.step h3 (.step hj (st := .writing p []) (by simp [hlt]) .close)
    simpa [FileStore.put] using h4

theorem job_skip {cfg : PipelineConfig} {process : FileStore → Str → DocResult} {jobs : List Str} {fs0 : FileStore} {c : JobsConfig}
    (h : JobsReach cfg process jobs fs0 c) {i : Nat} {u : Str} {st : JobState} (hj : jobs[i]? = some u)
    (hs : c.states[i]? = some .pending) (hp : afterProcess cfg u (process c.fs u) = st) :
    JobsReach cfg process jobs fs0 ⟨c.fs, c.states.set i st⟩ := by
  have h1 := JobsReach.step h (.step hj hs .process)
  rwa [hp] at h1

/-- Not vacuous: a run interrupted after the output of `a` was written, then one that is complete. -/
example : ∃ (runs : List PipelineRun) (fs : FileStore) (c : JobsConfig),
    RunHistory pipelineExample processExample [c!"a", c!"b", c!"e"] noFiles runs fs ∧
    (∀ r ∈ runs, ∀ u ∈ [c!"a", c!"b", c!"e"], ¬ r.last.halfWritten (annotatedOutput pipelineExample.outputPath u)) ∧
    remainingFiles pipelineExample fs [c!"a", c!"b", c!"e"] = [c!"b", c!"e"] ∧
    JobsReach pipelineExample processExample (remainingFiles pipelineExample fs [c!"a", c!"b", c!"e"]) fs c ∧ c.complete ∧
    c.fs c!"o/a" = some c!"xy" ∧ c.fs c!"f/b" = some c!"z" ∧ c.fs c!"o/b" = none := by
  have h0 : JobsReach pipelineExample processExample (remainingFiles pipelineExample noFiles [c!"a", c!"b", c!"e"])
      noFiles _ := .start
  have h1 := job_one h0 (i := 0) (u := c!"a") (p := c!"o/a") (d := c!"xy") rfl rfl rfl
  have hh := RunHistory.run RunHistory.start h1
  have hr : remainingFiles pipelineExample ((noFiles.put c!"o/a" []).put c!"o/a" c!"xy") [c!"a", c!"b", c!"e"]
      = [c!"b", c!"e"] := by decide
  have h2 : JobsReach pipelineExample processExample [c!"b", c!"e"] ((noFiles.put c!"o/a" []).put c!"o/a" c!"xy") _ :=
    .start
  have h3 := job_one h2 (i := 0) (u := c!"b") (p := c!"f/b") (d := c!"z") rfl rfl rfl
  have h4 := job_skip h3 (i := 1) (u := c!"e") rfl rfl (st := .finished) rfl
  refine ⟨_, _, ⟨_, [.finished, .finished]⟩, hh, ?_, hr, by simp only [hr]; exact h4, ?_, by decide, by decide, by decide⟩
  · intro r hr' u hu
    simp at hr'
    subst hr'
    rintro ⟨rest, -, hm⟩
    revert hm
    simp [remainingFiles_eq, noFiles]
  · intro st hst
    simp at hst
    exact .inl hst

/-- C16 fails for a crash in the middle of writing: the output exists but its data are not complete,
and no later run writes it again. -/
theorem C16_truncated : ∃ (runs : List PipelineRun) (fs : FileStore),
    RunHistory pipelineExample processExample [c!"a"] noFiles runs fs ∧
    processExample fs c!"a" = .passed c!"xy" ∧ fs c!"o/a" = some c!"x" ∧
    remainingFiles pipelineExample fs [c!"a"] = [] ∧
    ∀ c, JobsReach pipelineExample processExample (remainingFiles pipelineExample fs [c!"a"]) fs c → c.fs c!"o/a" = some c!"x" := by
  have h0 : JobsReach pipelineExample processExample (remainingFiles pipelineExample noFiles [c!"a"])
      noFiles ⟨_, [.pending]⟩ := .start
  have hj : (remainingFiles pipelineExample noFiles [c!"a"])[0]? = some c!"a" := rfl
  have h1 := JobsReach.step h0 (.step hj rfl .process)
  have h2 := JobsReach.step h1 (.step hj (st := .saving c!"o/a" c!"xy") rfl .create)
  have h3 := JobsReach.step h2 (.step hj (st := .writing c!"o/a" (c!"x" ++ c!"y")) rfl (.write (by decide)))
  have hh := RunHistory.run RunHistory.start h3
  have hr : ∀ fs : FileStore, fs c!"o/a" = some c!"x" → remainingFiles pipelineExample fs [c!"a"] = [] := by
    intro fs hf
    have : annotatedOutput pipelineExample.outputPath c!"a" = c!"o/a" := by decide
    rw [remainingFiles_eq]
    simp [this, hf]
    rfl
  have hx : ((noFiles.put c!"o/a" []).put c!"o/a" c!"x") c!"o/a" = some c!"x" := by decide
  refine ⟨_, (noFiles.put c!"o/a" []).put c!"o/a" c!"x", hh, rfl, hx, hr _ hx, ?_⟩
  intro c hc
  rw [hr _ hx] at hc
  have : ∀ (fs : FileStore) (c : JobsConfig), JobsReach pipelineExample processExample [] fs c → c.fs = fs := by
    intro fs c hc
    induction hc with
    | start => rfl
    | step _ hs _ =>
      obtain ⟨hj, -, -⟩ := hs
      simp at hj
  rw [this _ c hc]
  exact hx

/-! ### C17 -/

/-- The result of waiting for the jobs does not depend on the order in which they complete. -/
theorem awaitResults_eq (l : List JobState) :
    awaitResults l = if JobState.raised ∈ l then .error .runtimeError else .ok () := by
  induction l with
  | nil => rfl
  | cons st l ih =>
    cases st <;> simp [awaitResults, ih]

/-- C17 (part): once all jobs have ended, in whatever order the workers made their steps: every
document that can be processed was saved whatever happened to the others, with and without
skip-errors; a failing document is reported as an error exactly without skip-errors.  What is
missing: documents read from temporary copies by several threads, see `C18_shared`. -/
theorem C17_outcome_partial (cfg : PipelineConfig) (process : FileStore → Str → DocResult) (jobs : List Str) (fs0 : FileStore)
    (hind : IndependentOfOutputs cfg process jobs) (hsep : SeparateOutputs cfg jobs)
    (c : JobsConfig) (hc : JobsReach cfg process jobs fs0 c) (hcomp : c.complete) (order : List JobState)
    (ho : order.Perm c.states) :
    (∀ u ∈ jobs, SavedAs cfg fs0 c.fs u (process fs0 u)) ∧
      (cfg.skipErrors = true → awaitResults order = .ok ()) ∧
      (cfg.skipErrors = false →
        awaitResults order = if ∃ u ∈ jobs, process fs0 u = .error then .error .runtimeError else .ok ()) := by
  have hj := jobsInv_reach hind (List.Sublist.refl _) hsep hc
  have hget : ∀ u ∈ jobs, ∃ (i : Nat) (st : JobState), jobs[i]? = some u ∧ c.states[i]? = some st ∧
      StateInv cfg fs0 c.fs u (process fs0 u) st := by
    intro u hu
    obtain ⟨i, hi⟩ := mem_index hu
    have hlt : i < c.states.length := by rw [hj.length]; exact (List.getElem?_eq_some_iff.mp hi).1
    exact ⟨i, _, hi, List.getElem?_eq_getElem hlt, hj.state i u _ hi (List.getElem?_eq_getElem hlt)⟩
  have hraise : ∀ st ∈ c.states, st = .raised → ∃ u ∈ jobs, process fs0 u = .error ∧ cfg.skipErrors = false := by
    rintro st hst rfl
    obtain ⟨i, hi⟩ := mem_index hst
    have hlt : i < jobs.length := by rw [← hj.length]; exact (List.getElem?_eq_some_iff.mp hi).1
    have := hj.state i _ _ (List.getElem?_eq_getElem hlt) hi
    exact ⟨_, List.getElem_mem hlt, this.1, this.2.1⟩
  refine ⟨fun u hu => ?_, fun hs => ?_, fun hs => ?_⟩
  · obtain ⟨i, st, -, h2, h3⟩ := hget u hu
    exact complete_state hcomp h2 h3
  · rw [awaitResults_eq, if_neg]
    intro hm
    obtain ⟨u, -, -, h⟩ := hraise _ (ho.mem_iff.mp hm) rfl
    rw [hs] at h
    cases h
  · rw [awaitResults_eq]
    have : JobState.raised ∈ order ↔ ∃ u ∈ jobs, process fs0 u = .error := by
      rw [ho.mem_iff]
      constructor
      · intro hm
        obtain ⟨u, hu, he, -⟩ := hraise _ hm rfl
        exact ⟨u, hu, he⟩
      · rintro ⟨u, hu, he⟩
        obtain ⟨i, st, -, h2, h3⟩ := hget u hu
        rcases hcomp st (List.mem_of_getElem? h2) with rfl | rfl
        · have := h3.2 he
          rw [hs] at this
          cases this
        · exact List.mem_of_getElem? h2
    simp only [this]

/-- C17: a run cannot get stuck. -/
theorem C17_progress (cfg : PipelineConfig) (process : FileStore → Str → DocResult) (jobs : List Str) (fs0 : FileStore)
    (c : JobsConfig) (hc : JobsReach cfg process jobs fs0 c) : c.complete ∨ ∃ c', JobsStep cfg process jobs c c' := by
  have hlen : c.states.length = jobs.length := by
    induction hc with
    | start => simp
    | step _ hs ih => obtain ⟨-, -, -⟩ := hs; simpa using ih
  by_cases h : c.complete
  · exact .inl h
  · refine .inr (Classical.byContradiction fun hn => h ?_)
    intro st hst
    obtain ⟨i, hi⟩ := mem_index hst
    have hlt : i < jobs.length := by rw [← hlen]; exact (List.getElem?_eq_some_iff.mp hi).1
    have hj : jobs[i]? = some jobs[i] := List.getElem?_eq_getElem hlt
    cases st with
    | pending => exact absurd ⟨_, .step hj hi .process⟩ hn
    | saving p d => exact absurd ⟨_, .step hj hi .create⟩ hn
    | writing p rest =>
      cases rest with
      | nil => exact absurd ⟨_, .step hj hi .close⟩ hn
      | cons x r =>
        exact absurd ⟨_, .step hj (st := .writing p ([x] ++ r)) hi (.write (by simp))⟩ hn
    | finished => exact .inl rfl
    | raised => exact .inr rfl

/-- Steps a job still has to make once it has started. -/
def JobState.weight : JobState → Nat
  | .pending => 0
  | .saving _ d => d.length + 2
  | .writing _ rest => rest.length + 1
  | .finished => 0
  | .raised => 0

theorem sum_set {α : Type} (f : α → Nat) {l : List α} {i : Nat} {a : α} (b : α) (h : l[i]? = some a) :
    ((l.set i b).map f).sum + f a = (l.map f).sum + f b := by
  induction l generalizing i with
  | nil => simp at h
  | cons x l ih =>
    cases i with
    | zero =>
      simp at h
      subst h
      simp
      omega
    | succ i =>
      simp at h
      have := ih h
      simp only [List.set_cons_succ, List.map_cons, List.sum_cons]
      omega

/-- The number of jobs not started and the steps of the others, ordered lexicographically. -/
def JobsConfig.measure (c : JobsConfig) : Nat × Nat :=
  ((c.states.map (fun st => if st = .pending then 1 else 0)).sum, (c.states.map JobState.weight).sum)

theorem measure_step {cfg : PipelineConfig} {process : FileStore → Str → DocResult} {jobs : List Str} {c c' : JobsConfig}
    (h : JobsStep cfg process jobs c c') : Prod.Lex (· < ·) (· < ·) c'.measure c.measure := by
  obtain ⟨-, hst, hstep⟩ := h
  rename_i i u st st' fs'
  have h1 := sum_set (fun st => if st = JobState.pending then 1 else 0) st' hst
  have h2 := sum_set JobState.weight st' hst
  simp only [JobsConfig.measure]
  cases hstep with
  | process =>
    refine .left _ _ ?_
    have : afterProcess cfg u (process c.fs u) ≠ .pending := by
      unfold afterProcess
      split
      · simp
      · split <;> simp
      · split <;> simp
    rw [if_pos rfl, if_neg this] at h1
    omega
  | create =>
    simp only [reduceCtorEq, if_false, Nat.add_zero] at h1
    rw [h1]
    refine .right _ ?_
    simp only [JobState.weight] at h2
    omega
  | write hne =>
    simp only [reduceCtorEq, if_false, Nat.add_zero] at h1
    rw [h1]
    refine .right _ ?_
    rename_i p piece rest
    have := List.length_pos_iff.mpr hne
    simp only [JobState.weight, List.length_append] at h2
    omega
  | close =>
    simp only [reduceCtorEq, if_false, Nat.add_zero] at h1
    rw [h1]
    refine .right _ ?_
    simp only [JobState.weight] at h2
    omega

/-- C17: every run ends: there is no infinite sequence of steps. -/
theorem C17_terminates (cfg : PipelineConfig) (process : FileStore → Str → DocResult) (jobs : List Str) :
    ¬ ∃ f : Nat → JobsConfig, ∀ n, JobsStep cfg process jobs (f n) (f (n + 1)) := by
  rintro ⟨f, hf⟩
  have hwf : WellFounded (Prod.Lex (· < ·) (· < ·) : Nat × Nat → Nat × Nat → Prop) :=
    (Prod.lex ⟨(· < ·), Nat.lt_wfRel.wf⟩ ⟨(· < ·), Nat.lt_wfRel.wf⟩).wf
  have : ∀ m : Nat × Nat, ∀ n, (f n).measure = m → False := by
    intro m
    induction m using hwf.induction with
    | _ m ih =>
      rintro n rfl
      exact ih _ (measure_step (hf n)) (n + 1) rfl
  exact this _ 0 rfl

/-- Not vacuous: `e` fails and the run without skip-errors reports it, `a` is processed after it. -/
example : ∃ c : JobsConfig, JobsReach { pipelineExample with skipErrors := false } processExample [c!"e", c!"a"] noFiles c ∧
    c.complete ∧ c.fs c!"o/a" = some c!"xy" ∧ awaitResults c.states = .error .runtimeError := by
  have h0 : JobsReach { pipelineExample with skipErrors := false } processExample [c!"e", c!"a"] noFiles _ := .start
  have h1 := job_skip h0 (i := 0) (u := c!"e") rfl rfl (st := .raised) rfl
  have h2 := job_one h1 (i := 1) (u := c!"a") (p := c!"o/a") (d := c!"xy") rfl rfl rfl
  refine ⟨_, h2, ?_, ?_, rfl⟩
  · intro st hst
    simp at hst
    rcases hst with rfl | rfl
    · exact .inr rfl
    · exact .inl rfl
  · decide

/-! ### C18 -/

/-- C18 (part): with worker processes (every job has its own exit stack), and with a single worker,
whatever the order of the steps: the temporary copy exists as long as the document is processed,
and no longer.  What is missing: several worker threads, for which it fails (`C18_shared`). -/
theorem C18_copy_exists_partial (workers n : Nat) (stackOf : Nat → Nat)
    (hex : (∀ i k, stackOf i = stackOf k → i = k) ∨ workers = 1) (c : TempConfig) (h : TempReach workers stackOf n c) (i : Nat) :
    (c.phases[i]? = some .processing → c.ctx i = .entered) ∧
      (∀ ok, c.phases[i]? = some (.done ok) → c.ctx i ≠ .entered) := by
  have hi := tempInv_reach hex h
  exact ⟨fun hp => (hi.phase i _ hp).1, fun ok hp => hi.phase i _ hp⟩

/-- C18: with worker processes. -/
theorem C18_processes_partial (workers n : Nat) (c : TempConfig) (h : TempReach workers ownStack n c) (i : Nat)
    (hp : c.phases[i]? = some .processing) : c.ctx i = .entered :=
  (C18_copy_exists_partial workers n ownStack (.inl fun _ _ h => h) c h i).1 hp

/-- C18 fails for two worker threads: the job that ends first removes the copy of the other one,
which is still being processed and cannot be read any more. -/
theorem C18_shared : ∃ c, TempReach 2 sharedStack 2 c ∧ c.phases[1]? = some .processing ∧ c.ctx 1 = .left ∧
    TempStep 2 sharedStack c ⟨c.phases.set 1 (.leaving false), c.ctx, c.stacks⟩ := by
  have h0 : TempReach 2 sharedStack 2 _ := .start
  have h1 := h0.step (.push (i := 0) rfl (by decide))
  have h2 := h1.step (.enter (i := 0) rfl rfl)
  have h3 := h2.step (.push (i := 1) rfl (by decide))
  have h4 := h3.step (.enter (i := 1) rfl rfl)
  have h5 := h4.step (.finish (i := 0) rfl)
  have h6 := h5.step (.pop (i := 0) (k := 1) (ok := true) (rest := [0]) rfl rfl)
  exact ⟨_, h6, rfl, rfl, .readFails (i := 1) rfl (by decide)⟩

/-- C18 fails as well before the copy of the other job was made: it cannot be made any more. -/
theorem C18_shared_before_enter : ∃ c, TempReach 2 sharedStack 2 c ∧ c.phases[1]? = some .pushed ∧ c.ctx 1 = .broken := by
  have h0 : TempReach 2 sharedStack 2 _ := .start
  have h1 := h0.step (.push (i := 0) rfl (by decide))
  have h2 := h1.step (.enter (i := 0) rfl rfl)
  have h3 := h2.step (.push (i := 1) rfl (by decide))
  have h4 := h3.step (.finish (i := 0) rfl)
  have h5 := h4.step (.pop (i := 0) (k := 1) (ok := true) (rest := [0]) rfl rfl)
  exact ⟨_, h5, rfl, rfl⟩

/-- Not vacuous: two worker processes, both processing. -/
example : ∃ c, TempReach 2 ownStack 2 c ∧ c.phases = [.processing, .processing] := by
  have h0 : TempReach 2 ownStack 2 _ := .start
  have h1 := h0.step (.push (i := 0) rfl (by decide))
  have h2 := h1.step (.enter (i := 0) rfl rfl)
  have h3 := h2.step (.push (i := 1) rfl (by decide))
  have h4 := h3.step (.enter (i := 1) rfl rfl)
  exact ⟨_, h4, rfl⟩

end Verif
