/-
Lemmas on runs over many files.
-/
import Verif.Spec.Pipeline
import Verif.Lemmas.Download

namespace Verif

theorem toSave_mem {cfg : PipelineConfig} {u : Str} {r : DocResult} {p d : Str} (h : toSave cfg u r = some (p, d)) :
    p ∈ outputPaths cfg u := by
  unfold outputPaths
  cases r with
  | passed x =>
    simp only [toSave, Option.some.injEq, Prod.mk.injEq] at h
    simp [h.1]
  | failedChecks x =>
    simp only [toSave, Option.map_eq_some_iff, Prod.mk.injEq] at h
    obtain ⟨a, h1, h2, -⟩ := h
    simp [h1, h2]
  | error => simp [toSave] at h

theorem withoutOutputFile_eq (fs : FileStore) (files : List Str) (output : Str → Str) :
    withoutOutputFile fs files output = files.filter (fun u => !(fs (output u)).isSome) := by
  unfold withoutOutputFile
  simp only []
  induction files with
  | nil => rfl
  | cons u us ih =>
    simp only [List.map_cons, List.zip_cons_cons, List.filter_cons]
    by_cases h : (fs (output u)).isSome = true
    · simp only [h, Bool.not_true, Bool.false_eq_true, if_false]
      exact ih
    · simp only [Bool.not_eq_true] at h
      simp only [h, Bool.not_false, if_true, List.map_cons]
      rw [ih]

theorem remainingFiles_eq (cfg : PipelineConfig) (fs : FileStore) (sources : List Str) :
    remainingFiles cfg fs sources =
      sources.filter (fun u => !(cfg.resume && (fs (annotatedOutput cfg.outputPath u)).isSome)) := by
  unfold remainingFiles
  cases sources with
  | nil => rfl
  | cons u us =>
    simp only []
    cases cfg.resume with
    | true => rw [if_pos rfl, withoutOutputFile_eq]; simp only [Bool.true_and]
    | false =>
      simp only [Bool.false_eq_true, if_false, Bool.false_and, Bool.not_false]
      exact (List.filter_eq_self.mpr (fun _ _ => rfl)).symm

theorem mem_remaining {cfg : PipelineConfig} (hres : cfg.resume = true) {fs : FileStore} {sources : List Str} {u : Str} :
    u ∈ remainingFiles cfg fs sources ↔ u ∈ sources ∧ fs (annotatedOutput cfg.outputPath u) = none := by
  rw [remainingFiles_eq, List.mem_filter]
  simp [hres]

/-- What is known about the files of one job. -/
def StateInv (cfg : PipelineConfig) (fs0 fs : FileStore) (u : Str) (r : DocResult) : JobState → Prop
  | .pending => ∀ q ∈ outputPaths cfg u, fs q = fs0 q
  | .saving p d => toSave cfg u r = some (p, d) ∧ ∀ q ∈ outputPaths cfg u, fs q = fs0 q
  | .writing p rest => ∃ w, toSave cfg u r = some (p, w ++ rest) ∧ fs p = some w ∧ ∀ q ∈ outputPaths cfg u, q ≠ p → fs q = fs0 q
  | .finished => SavedAs cfg fs0 fs u r ∧ (r = .error → cfg.skipErrors = true)
  | .raised => r = .error ∧ cfg.skipErrors = false ∧ ∀ q ∈ outputPaths cfg u, fs q = fs0 q

theorem StateInv.congr {cfg : PipelineConfig} {fs0 fs fs' : FileStore} {u : Str} {r : DocResult} {st : JobState}
    (h : StateInv cfg fs0 fs u r st) (he : ∀ q ∈ outputPaths cfg u, fs' q = fs q) : StateInv cfg fs0 fs' u r st := by
  cases st with
  | pending => exact fun q hq => (he q hq).trans (h q hq)
  | saving p d => exact ⟨h.1, fun q hq => (he q hq).trans (h.2 q hq)⟩
  | writing p rest =>
    obtain ⟨w, h1, h2, h3⟩ := h
    exact ⟨w, h1, (he p (toSave_mem h1)).trans h2, fun q hq hne => (he q hq).trans (h3 q hq hne)⟩
  | finished =>
    exact ⟨⟨fun p d hp => (he p (toSave_mem hp)).trans (h.1.1 p d hp), fun q hq hn => (he q hq).trans (h.1.2 q hq hn)⟩, h.2⟩
  | raised => exact ⟨h.1, h.2.1, fun q hq => (he q hq).trans (h.2.2 q hq)⟩

structure JobsInv (cfg : PipelineConfig) (process : FileStore → Str → DocResult) (jobs : List Str) (fs0 : FileStore)
    (c : JobsConfig) : Prop where
  length : c.states.length = jobs.length
  other : ∀ q, (∀ u ∈ jobs, q ∉ outputPaths cfg u) → c.fs q = fs0 q
  state : ∀ (i : Nat) (u : Str) (st : JobState), jobs[i]? = some u → c.states[i]? = some st →
    StateInv cfg fs0 c.fs u (process fs0 u) st

theorem afterProcess_inv {cfg : PipelineConfig} {fs0 fs : FileStore} {u : Str} {r : DocResult}
    (h : ∀ q ∈ outputPaths cfg u, fs q = fs0 q) : StateInv cfg fs0 fs u r (afterProcess cfg u r) := by
  cases r with
  | passed d => exact ⟨rfl, h⟩
  | failedChecks d =>
    simp only [afterProcess]
    cases hf : failedOutput cfg.failedOutputPath u with
    | none =>
      refine ⟨⟨fun p d' hp => ?_, fun q hq _ => h q hq⟩, fun hc => by cases hc⟩
      simp [toSave, hf] at hp
    | some p => exact ⟨by simp [toSave, hf], h⟩
  | error =>
    simp only [afterProcess]
    by_cases hs : cfg.skipErrors = true
    · rw [if_pos hs]
      exact ⟨⟨fun p d' hp => by simp [toSave] at hp, fun q hq _ => h q hq⟩, fun _ => hs⟩
    · rw [if_neg hs]
      exact ⟨rfl, by simpa using hs, h⟩

/-- One step of a job only changes files of the job. -/
theorem jobStep_other {cfg : PipelineConfig} {process : FileStore → Str → DocResult} {u : Str} {fs0 fs fs' : FileStore}
    {r : DocResult} {st st' : JobState} (hi : StateInv cfg fs0 fs u r st) (h : JobStep cfg process u fs st fs' st') (q : Str)
    (hq : q ∉ outputPaths cfg u) : fs' q = fs q := by
  cases h with
  | process => rfl
  | create =>
    have := toSave_mem hi.1
    have hne : q ≠ _ := fun he => hq (he ▸ this)
    simp [FileStore.put, hne]
  | write =>
    obtain ⟨w, h1, -, -⟩ := hi
    have := toSave_mem h1
    have hne : q ≠ _ := fun he => hq (he ▸ this)
    simp [FileStore.put, hne]
  | close => rfl

theorem jobStep_inv {cfg : PipelineConfig} {process : FileStore → Str → DocResult} {u : Str} {fs0 fs fs' : FileStore}
    {st st' : JobState} (hp : process fs u = process fs0 u)
    (hi : StateInv cfg fs0 fs u (process fs0 u) st) (h : JobStep cfg process u fs st fs' st') :
    StateInv cfg fs0 fs' u (process fs0 u) st' := by
  cases h with
  | process => rw [hp]; exact afterProcess_inv hi
  | create =>
    refine ⟨[], hi.1, by simp [FileStore.put], fun q hq hne => ?_⟩
    simp only [FileStore.put, hne, if_false]
    exact hi.2 q hq
  | write =>
    obtain ⟨w, h1, h2, h3⟩ := hi
    refine ⟨w ++ _, by rw [h1, List.append_assoc], by simp only [FileStore.put, if_true, h2, Option.getD_some], fun q hq hne => ?_⟩
    simp only [FileStore.put, hne, if_false]
    exact h3 q hq hne
  | close =>
    obtain ⟨w, h1, h2, h3⟩ := hi
    rw [List.append_nil] at h1
    refine ⟨⟨fun p d hp => ?_, fun q hq hn => h3 q hq ?_⟩, fun hr => ?_⟩
    · rw [h1] at hp
      cases hp
      exact h2
    · intro he
      exact hn w (by rw [he]; exact h1)
    · rw [hr] at h1
      simp [toSave] at h1

theorem pairwise_index {α : Type} {R : α → α → Prop} {l : List α} (hs : ∀ a b, R a b → R b a) (h : l.Pairwise R) {i k : Nat}
    {a b : α} (hi : l[i]? = some a) (hk : l[k]? = some b) (hne : i ≠ k) : R a b := by
  obtain ⟨hi1, hi2⟩ := List.getElem?_eq_some_iff.mp hi
  obtain ⟨hk1, hk2⟩ := List.getElem?_eq_some_iff.mp hk
  have := List.pairwise_iff_getElem.mp h
  rcases Nat.lt_or_gt_of_ne hne with hlt | hgt
  · have := this i k hi1 hk1 hlt
    rwa [hi2, hk2] at this
  · have := this k i hk1 hi1 hgt
    rw [hi2, hk2] at this
    exact hs _ _ this

theorem jobsInv_step {cfg : PipelineConfig} {process : FileStore → Str → DocResult} {sources jobs : List Str} {fs0 : FileStore}
    (hind : IndependentOfOutputs cfg process sources) (hsub : jobs.Sublist sources)
    (hsep : SeparateOutputs cfg sources) {c c' : JobsConfig} (hi : JobsInv cfg process jobs fs0 c)
    (hs : JobsStep cfg process jobs c c') : JobsInv cfg process jobs fs0 c' := by
  obtain ⟨hj, hst, hstep⟩ := hs
  rename_i i u st st' fs'
  have hju : u ∈ jobs := List.mem_of_getElem? hj
  have hold := hi.state i u st hj hst
  have hproc : process c.fs u = process fs0 u :=
    hind _ _ (fun q hq => hi.other q (fun v hv => hq v (hsub.mem hv))) u (hsub.mem hju)
  refine ⟨by simp [hi.length], ?_, ?_⟩
  · intro q hq
    exact (jobStep_other hold hstep q (hq u hju)).trans (hi.other q hq)
  · intro k v stk hk hstk
    simp only at hstk
    by_cases hik : i = k
    · subst hik
      rw [hj] at hk
      cases hk
      rw [List.getElem?_set_self (List.getElem?_eq_some_iff.mp hst).1] at hstk
      cases hstk
      exact jobStep_inv hproc hold hstep
    · rw [List.getElem?_set_ne hik] at hstk
      refine (hi.state k v stk hk hstk).congr (fun q hq => jobStep_other hold hstep q ?_)
      exact pairwise_index (R := fun u v => ∀ q ∈ outputPaths cfg u, q ∉ outputPaths cfg v)
        (fun a b hab q hqb hqa => hab q hqa hqb) (List.Pairwise.sublist hsub hsep) hk hj (Ne.symm hik) q hq

theorem jobsInv_reach {cfg : PipelineConfig} {process : FileStore → Str → DocResult} {sources jobs : List Str} {fs0 : FileStore}
    (hind : IndependentOfOutputs cfg process sources) (hsub : jobs.Sublist sources)
    (hsep : SeparateOutputs cfg sources) {c : JobsConfig} (h : JobsReach cfg process jobs fs0 c) : JobsInv cfg process jobs fs0 c := by
  induction h with
  | start =>
    refine ⟨by simp, fun _ _ => rfl, ?_⟩
    intro i u st hj hst
    simp only [List.getElem?_map, hj, Option.map_some] at hst
    cases hst
    exact fun _ _ => rfl
  | step _ hs ih => exact jobsInv_step hind hsub hsep ih hs

/-- Files do not disappear. -/
theorem jobs_mono {cfg : PipelineConfig} {process : FileStore → Str → DocResult} {jobs : List Str} {fs0 : FileStore}
    {c : JobsConfig} (h : JobsReach cfg process jobs fs0 c) (q : Str) (hq : fs0 q ≠ none) : c.fs q ≠ none := by
  induction h with
  | start => exact hq
  | step _ hs ih =>
    obtain ⟨-, -, hstep⟩ := hs
    have hput : ∀ (fs : FileStore) (p d : Str), fs q ≠ none → (fs.put p d) q ≠ none := by
      intro fs p d hf
      unfold FileStore.put
      split
      · exact Option.some_ne_none _
      · exact hf
    cases hstep with
    | process => exact ih
    | create => exact hput _ _ _ ih
    | write => exact hput _ _ _ ih
    | close => exact ih

theorem history_mono {cfg : PipelineConfig} {process : FileStore → Str → DocResult} {sources : List Str} {fs0 : FileStore}
    {runs : List PipelineRun} {fs : FileStore} (h : RunHistory cfg process sources fs0 runs fs) :
    (∀ q, fs0 q ≠ none → fs q ≠ none) ∧ (∀ r ∈ runs, ∀ q, r.last.fs q ≠ none → fs q ≠ none) := by
  induction h with
  | start => exact ⟨fun _ hq => hq, fun r hr => by cases hr⟩
  | run _ hc ih =>
    refine ⟨fun q hq => jobs_mono hc q (ih.1 q hq), fun r hr q hq => ?_⟩
    rw [List.mem_append, List.mem_singleton] at hr
    rcases hr with hr | rfl
    · exact jobs_mono hc q (ih.2 r hr q hq)
    · exact hq

/-- What is known about the files after interrupted runs, if no output was left half written. -/
structure HistoryInv (cfg : PipelineConfig) (process : FileStore → Str → DocResult) (sources : List Str) (fs0 fs : FileStore) : Prop where
  other : ∀ q, (∀ u ∈ sources, q ∉ outputPaths cfg u) → fs q = fs0 q
  existed : ∀ u ∈ sources, fs0 (annotatedOutput cfg.outputPath u) ≠ none → ∀ q ∈ outputPaths cfg u, fs q = fs0 q
  missing : ∀ u ∈ sources, fs0 (annotatedOutput cfg.outputPath u) = none → fs (annotatedOutput cfg.outputPath u) = none →
    ∀ q ∈ outputPaths cfg u, (∀ d, toSave cfg u (process fs0 u) ≠ some (q, d)) → fs q = fs0 q
  saved : ∀ u ∈ sources, fs0 (annotatedOutput cfg.outputPath u) = none → fs (annotatedOutput cfg.outputPath u) ≠ none →
    SavedAs cfg fs0 fs u (process fs0 u)

theorem mem_index {α : Type} {l : List α} {a : α} (h : a ∈ l) : ∃ i : Nat, l[i]? = some a := List.mem_iff_getElem?.mp h

theorem remaining_sublist (cfg : PipelineConfig) (fs : FileStore) (sources : List Str) :
    (remainingFiles cfg fs sources).Sublist sources := by
  rw [remainingFiles_eq]
  exact List.filter_sublist

/-- The files of a source that is not among the jobs are not changed. -/
theorem jobs_other_source {cfg : PipelineConfig} {process : FileStore → Str → DocResult} {sources jobs : List Str} {fs0 : FileStore}
    (hsub : jobs.Sublist sources) (hsep : SeparateOutputs cfg sources) {c : JobsConfig} (hi : JobsInv cfg process jobs fs0 c)
    {u : Str} (hu : u ∈ sources) (hn : u ∉ jobs) : ∀ q ∈ outputPaths cfg u, c.fs q = fs0 q := by
  intro q hq
  refine hi.other q (fun v hv hqv => ?_)
  obtain ⟨i, h1⟩ := mem_index hu
  obtain ⟨k, h2⟩ := mem_index (hsub.mem hv)
  have hne : i ≠ k := by
    rintro rfl
    rw [h1] at h2
    cases h2
    exact hn hv
  exact pairwise_index (R := fun u v => ∀ q ∈ outputPaths cfg u, q ∉ outputPaths cfg v)
    (fun a b hab q hqb hqa => hab q hqa hqb) hsep h1 h2 hne q hq hqv

theorem output_mem (cfg : PipelineConfig) (u : Str) : annotatedOutput cfg.outputPath u ∈ outputPaths cfg u := by
  simp [outputPaths]

/-- If the output of `u` exists although it was missing at the start and is not half written, then
the document passed the checks. -/
theorem state_output {cfg : PipelineConfig} {fs0 fs : FileStore} {u : Str} {r : DocResult} {st : JobState} (hi : StateInv cfg fs0 fs u r st)
    (h0 : fs0 (annotatedOutput cfg.outputPath u) = none) (h1 : fs (annotatedOutput cfg.outputPath u) ≠ none)
    (hw : ∀ rest, st = .writing (annotatedOutput cfg.outputPath u) rest → rest = []) : SavedAs cfg fs0 fs u r := by
  have hout := output_mem cfg u
  cases st with
  | pending => exact absurd ((hi _ hout).trans h0) h1
  | saving p d => exact absurd ((hi.2 _ hout).trans h0) h1
  | writing p rest =>
    obtain ⟨w, h2, h3, h4⟩ := hi
    by_cases hp : annotatedOutput cfg.outputPath u = p
    · subst hp
      have := hw rest rfl
      subst this
      rw [List.append_nil] at h2
      refine ⟨fun p d hpd => ?_, fun q hq hn => h4 q hq (fun he => hn w (by rw [he]; exact h2))⟩
      rw [h2] at hpd
      cases hpd
      exact h3
    · exact absurd ((h4 _ hout hp).trans h0) h1
  | finished => exact hi.1
  | raised => exact absurd ((hi.2.2 _ hout).trans h0) h1

theorem state_missing {cfg : PipelineConfig} {fs0 fs : FileStore} {u : Str} {r : DocResult} {st : JobState}
    (hi : StateInv cfg fs0 fs u r st) : ∀ q ∈ outputPaths cfg u, (∀ d, toSave cfg u r ≠ some (q, d)) → fs q = fs0 q := by
  intro q hq hn
  cases st with
  | pending => exact hi q hq
  | saving p d => exact hi.2 q hq
  | writing p rest =>
    obtain ⟨w, h2, h3, h4⟩ := hi
    exact h4 q hq (fun he => hn _ (by rw [he]; exact h2))
  | finished => exact hi.1.2 q hq hn
  | raised => exact hi.2.2 q hq

theorem history_process {cfg : PipelineConfig} {process : FileStore → Str → DocResult} {sources : List Str} {fs0 fs : FileStore}
    (hind : IndependentOfOutputs cfg process sources) (hi : HistoryInv cfg process sources fs0 fs) {u : Str} (hu : u ∈ sources) :
    process fs u = process fs0 u := hind _ _ hi.other u hu

theorem historyInv {cfg : PipelineConfig} (hres : cfg.resume = true) {process : FileStore → Str → DocResult} {sources : List Str}
    {fs0 : FileStore} (hind : IndependentOfOutputs cfg process sources) (hsep : SeparateOutputs cfg sources)
    {runs : List PipelineRun} {fs : FileStore} (h : RunHistory cfg process sources fs0 runs fs)
    (hclean : ∀ r ∈ runs, ∀ u ∈ sources, ¬ r.last.halfWritten (annotatedOutput cfg.outputPath u)) :
    HistoryInv cfg process sources fs0 fs := by
  induction h with
  | start =>
    exact ⟨fun _ _ => rfl, fun _ _ _ _ _ => rfl, fun _ _ _ _ _ _ _ => rfl, fun u _ h1 h2 => absurd h1 h2⟩
  | run hh hc ih =>
    rename_i runs fs c
    have hi := ih (fun r hr => hclean r (List.mem_append_left _ hr))
    have hsub := remaining_sublist cfg fs sources
    have hj := jobsInv_reach hind hsub hsep hc
    have hcl := hclean ⟨remainingFiles cfg fs sources, c⟩ (by simp)
    refine ⟨fun q hq => ?_, fun u hu h0 q hq => ?_, fun u hu h0 h1 q hq hn => ?_, fun u hu h0 h1 => ?_⟩
    · rw [hj.other q (fun u hu => hq u (hsub.mem hu)), hi.other q hq]
    · have hnr : u ∉ remainingFiles cfg fs sources := by
        rw [mem_remaining hres]
        rintro ⟨-, hc⟩
        rw [hi.existed u hu h0 _ (output_mem cfg u)] at hc
        exact h0 hc
      rw [jobs_other_source hsub hsep hj hu hnr q hq, hi.existed u hu h0 q hq]
    · by_cases hr : u ∈ remainingFiles cfg fs sources
      · obtain ⟨i, hji⟩ := mem_index hr
        have hlt : i < c.states.length := by rw [hj.length]; exact (List.getElem?_eq_some_iff.mp hji).1
        have := hj.state i u _ hji (List.getElem?_eq_getElem hlt)
        rw [history_process hind hi hu] at this
        rw [state_missing this q hq hn]
        exact hi.missing u hu h0 ((mem_remaining hres).mp hr).2 q hq hn
      · exfalso
        apply hr
        rw [mem_remaining hres]
        refine ⟨hu, ?_⟩
        rw [← jobs_other_source hsub hsep hj hu hr _ (output_mem cfg u)]
        exact h1
    · by_cases hr : u ∈ remainingFiles cfg fs sources
      · obtain ⟨i, hji⟩ := mem_index hr
        have hlt : i < c.states.length := by rw [hj.length]; exact (List.getElem?_eq_some_iff.mp hji).1
        have hst := hj.state i u _ hji (List.getElem?_eq_getElem hlt)
        rw [history_process hind hi hu] at hst
        have hfn := ((mem_remaining hres).mp hr).2
        have := state_output hst hfn h1 (fun rest hrest => by
          refine Classical.byContradiction fun hne => hcl u hu ⟨rest, hne, ?_⟩
          rw [← hrest]
          exact List.getElem_mem hlt)
        exact ⟨this.1, fun q hq hn => (this.2 q hq hn).trans (hi.missing u hu h0 hfn q hq hn)⟩
      · have hsame := jobs_other_source hsub hsep hj hu hr
        have := hi.saved u hu h0 (by rw [← hsame _ (output_mem cfg u)]; exact h1)
        exact ⟨fun p d hp => by rw [hsame p (toSave_mem hp)]; exact this.1 p d hp,
          fun q hq hn => by rw [hsame q hq]; exact this.2 q hq hn⟩

/-- The files of one source file after runs of which the last one was completed. -/
def FinalFiles (cfg : PipelineConfig) (process : FileStore → Str → DocResult) (fs0 fs : FileStore) (u : Str) : Prop :=
  if fs0 (annotatedOutput cfg.outputPath u) = none then SavedAs cfg fs0 fs u (process fs0 u)
  else ∀ q ∈ outputPaths cfg u, fs q = fs0 q

theorem complete_state {c : JobsConfig} (h : c.complete) {cfg : PipelineConfig} {fs0 fs : FileStore} {u : Str} {r : DocResult}
    {i : Nat} {st : JobState} (hst : c.states[i]? = some st) (hi : StateInv cfg fs0 fs u r st) : SavedAs cfg fs0 fs u r := by
  rcases h st (List.mem_of_getElem? hst) with rfl | rfl
  · exact hi.1
  · obtain ⟨hr, -, h3⟩ := hi
    refine ⟨fun p d hp => ?_, fun q hq _ => h3 q hq⟩
    rw [hr] at hp
    simp [toSave] at hp

theorem history_final {cfg : PipelineConfig} (hres : cfg.resume = true) {process : FileStore → Str → DocResult} {sources : List Str}
    {fs0 fs : FileStore} (hind : IndependentOfOutputs cfg process sources) (hsep : SeparateOutputs cfg sources)
    (hi : HistoryInv cfg process sources fs0 fs) {c : JobsConfig} (hc : JobsReach cfg process (remainingFiles cfg fs sources) fs c)
    (hcomp : c.complete) :
    (∀ q, (∀ u ∈ sources, q ∉ outputPaths cfg u) → c.fs q = fs0 q) ∧ ∀ u ∈ sources, FinalFiles cfg process fs0 c.fs u := by
  have hsub := remaining_sublist cfg fs sources
  have hj := jobsInv_reach hind hsub hsep hc
  refine ⟨fun q hq => by rw [hj.other q (fun u hu => hq u (hsub.mem hu)), hi.other q hq], fun u hu => ?_⟩
  unfold FinalFiles
  split
  · rename_i h0
    by_cases hr : u ∈ remainingFiles cfg fs sources
    · obtain ⟨i, hji⟩ := mem_index hr
      have hlt : i < c.states.length := by rw [hj.length]; exact (List.getElem?_eq_some_iff.mp hji).1
      have hst := hj.state i u _ hji (List.getElem?_eq_getElem hlt)
      rw [history_process hind hi hu] at hst
      have := complete_state hcomp (List.getElem?_eq_getElem hlt) hst
      exact ⟨this.1, fun q hq hn =>
        (this.2 q hq hn).trans (hi.missing u hu h0 ((mem_remaining hres).mp hr).2 q hq hn)⟩
    · have hsame := jobs_other_source hsub hsep hj hu hr
      have hex : fs (annotatedOutput cfg.outputPath u) ≠ none := fun hn => hr ((mem_remaining hres).mpr ⟨hu, hn⟩)
      have := hi.saved u hu h0 hex
      exact ⟨fun p d hp => by rw [hsame p (toSave_mem hp)]; exact this.1 p d hp,
          fun q hq hn => by rw [hsame q hq]; exact this.2 q hq hn⟩
  · rename_i h0
    have hnr : u ∉ remainingFiles cfg fs sources := by
      rw [mem_remaining hres]
      rintro ⟨-, hc⟩
      rw [hi.existed u hu h0 _ (output_mem cfg u)] at hc
      exact h0 hc
    intro q hq
    rw [jobs_other_source hsub hsep hj hu hnr q hq, hi.existed u hu h0 q hq]

theorem savedAs_unique {cfg : PipelineConfig} {fs0 fs fs' : FileStore} {u : Str} {r : DocResult} (h : SavedAs cfg fs0 fs u r)
    (h' : SavedAs cfg fs0 fs' u r) (q : Str) (hq : q ∈ outputPaths cfg u) : fs q = fs' q := by
  by_cases hs : ∃ d, toSave cfg u r = some (q, d)
  · obtain ⟨d, hd⟩ := hs
    rw [h.1 q d hd, h'.1 q d hd]
  · have hn : ∀ d, toSave cfg u r ≠ some (q, d) := fun d hd => hs ⟨d, hd⟩
    rw [h.2 q hq hn, h'.2 q hq hn]

end Verif
