/-
Helper lemmas for the source files of a run.
-/
import Verif.Model.SourceFiles
import Verif.Spec.Pipeline
import Verif.Lemmas.Pipeline
import Verif.Lemmas.JatsDoc

namespace Verif

open Spec

theorem occursIn_iff (t s : Str) : occursIn t s = true ↔ t <:+: s := by
  induction s with
  | nil => unfold occursIn; simp
  | cons c s ih =>
    unfold occursIn
    rw [Bool.or_eq_true, ih, startsWith_prefix, List.infix_cons_iff]

theorem substituted_same {old new s t : Str} (h : Substituted old new s t) (hn : ¬ old <:+: s) : t = s := by
  induction h with
  | nil => rfl
  | found s t _ _ => exact absurd ⟨[], s, by simp⟩ hn
  | other c s t _ _ ih => rw [ih (fun h => hn (h.trans (List.suffix_cons c s).isInfix))]

/-- Where a job is about to write. -/
theorem jobs_writes {cfg : PipelineConfig} {process : FileStore → Str → DocResult} {jobs : List Str} {fs0 : FileStore}
    {c : JobsConfig} (h : JobsReach cfg process jobs fs0 c) :
    (∀ (i : Nat) (p d : Str), (c.states[i]? = some (.saving p d) ∨ c.states[i]? = some (.writing p d)) →
        ∃ u ∈ jobs, p ∈ outputPaths cfg u) ∧
      ∀ q, (∀ u ∈ jobs, q ∉ outputPaths cfg u) → c.fs q = fs0 q := by
  induction h with
  | start =>
    refine ⟨fun i p d h => ?_, fun q _ => rfl⟩
    simp only [List.getElem?_map, Option.map_eq_some_iff] at h
    rcases h with ⟨_, _, h⟩ | ⟨_, _, h⟩ <;> simp at h
  | step hreach hs ih =>
    cases hs with
    | step hj hst hstep =>
      rename_i c i source st st' fs'
      have hmem : source ∈ jobs := List.mem_of_getElem? hj
      have key : (∀ p d, (st' = .saving p d ∨ st' = .writing p d) → ∃ u ∈ jobs, p ∈ outputPaths cfg u) ∧
          ∀ q, (∀ u ∈ jobs, q ∉ outputPaths cfg u) → fs' q = c.fs q := by
        cases hstep with
        | process =>
          refine ⟨fun p d hp => ⟨source, hmem, ?_⟩, fun _ _ => rfl⟩
          cases hr : process c.fs source with
          | passed x =>
            rw [hr] at hp; simp only [afterProcess, JobState.saving.injEq, reduceCtorEq, or_false] at hp
            rw [← hp.1]; simp [outputPaths]
          | failedChecks x =>
            rw [hr] at hp; simp only [afterProcess] at hp
            cases hf : failedOutput cfg.failedOutputPath source with
            | none => rw [hf] at hp; simp at hp
            | some y =>
              rw [hf] at hp; simp only [JobState.saving.injEq, reduceCtorEq, or_false] at hp
              rw [← hp.1]; simp [outputPaths, hf]
          | error =>
            rw [hr] at hp; simp only [afterProcess] at hp
            split at hp <;> simp at hp
        | create =>
          rename_i p0 d0
          have hw := ih.1 i p0 d0 (.inl hst)
          refine ⟨fun p d hp => ?_, fun q hq => ?_⟩
          · simp only [reduceCtorEq, JobState.writing.injEq, false_or] at hp; rw [← hp.1]; exact hw
          · obtain ⟨u, hu, hpu⟩ := hw
            have : q ≠ p0 := fun he => hq u hu (he ▸ hpu)
            simp [FileStore.put, this]
        | write _ =>
          rename_i p0 piece rest _
          have hw := ih.1 i p0 _ (.inr hst)
          refine ⟨fun p d hp => ?_, fun q hq => ?_⟩
          · simp only [reduceCtorEq, JobState.writing.injEq, false_or] at hp; rw [← hp.1]; exact hw
          · obtain ⟨u, hu, hpu⟩ := hw
            have : q ≠ p0 := fun he => hq u hu (he ▸ hpu)
            simp [FileStore.put, this]
        | close => exact ⟨fun p d hp => by simp at hp, fun _ _ => rfl⟩
      refine ⟨fun k p d hk => ?_, fun q hq => (key.2 q hq).trans (ih.2 q hq)⟩
      by_cases hik : i = k
      · subst hik
        have hlt : i < c.states.length := (List.getElem?_eq_some_iff.mp hst).1
        simp only [List.getElem?_set_self hlt, Option.some.injEq] at hk
        exact key.1 p d hk
      · simp only [List.getElem?_set_ne hik] at hk
        exact ih.1 k p d hk

/-- Over a sequence of runs nothing but the output files of the source files changes. -/
theorem history_writes {cfg : PipelineConfig} {process : FileStore → Str → DocResult} {sources : List Str} {fs0 fs : FileStore}
    {runs : List PipelineRun} (h : RunHistory cfg process sources fs0 runs fs) :
    (∀ r ∈ runs, r.jobs.Sublist sources) ∧ ∀ q, (∀ u ∈ sources, q ∉ outputPaths cfg u) → fs q = fs0 q := by
  induction h with
  | start => exact ⟨fun r hr => (by cases hr), fun _ _ => rfl⟩
  | run hh hc ih =>
    refine ⟨fun r hr => ?_, fun q hq => ?_⟩
    · rw [List.mem_append, List.mem_singleton] at hr
      rcases hr with hr | rfl
      · exact ih.1 r hr
      · exact remaining_sublist cfg _ sources
    · rw [(jobs_writes hc).2 q (fun u hu => hq u ((remaining_sublist cfg _ sources).mem hu)), ih.2 q hq]

end Verif
