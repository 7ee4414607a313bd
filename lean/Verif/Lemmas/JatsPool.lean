/-
Helper lemmas for the tool repairing JATS files.
-/
import Verif.Spec.JatsPool
import Verif.Lemmas.Pipeline
import Verif.Lemmas.PyStr

namespace Verif

open Spec

/-- What is known about one job. -/
def PoolInv (env : PoolEnv) (fs0 fs : FileStore) (u : Str) : JobState → Prop
  | .pending => fs (env.file (env.output u)) = fs0 (env.file (env.output u))
  | .saving p d => p = env.file (env.output u) ∧ env.process u (fs0 (env.file u)) = .ok d ∧ fs p = fs0 p
  | .writing p rest => p = env.file (env.output u) ∧ ∃ w, env.process u (fs0 (env.file u)) = .ok (w ++ rest) ∧ fs p = some w
  | .finished => ∃ d, env.process u (fs0 (env.file u)) = .ok d ∧ fs (env.file (env.output u)) = some d
  | .raised => Fails env fs0 u ∧ fs (env.file (env.output u)) = fs0 (env.file (env.output u))

theorem PoolInv.congr {env : PoolEnv} {fs0 fs fs' : FileStore} {u : Str} {st : JobState} (h : PoolInv env fs0 fs u st)
    (he : fs' (env.file (env.output u)) = fs (env.file (env.output u))) : PoolInv env fs0 fs' u st := by
  cases st with
  | pending => exact he.trans h
  | saving p d => obtain ⟨rfl, h2, h3⟩ := h; exact ⟨rfl, h2, he.trans h3⟩
  | writing p rest => obtain ⟨rfl, w, h2, h3⟩ := h; exact ⟨rfl, w, h2, he.trans h3⟩
  | finished => obtain ⟨d, h2, h3⟩ := h; exact ⟨d, h2, he.trans h3⟩
  | raised => exact ⟨h.1, he.trans h.2⟩

theorem storePut_ne (fs : FileStore) {p q : Str} (d : Str) (h : q ≠ p) : (fs.put p d) q = fs q := by simp [FileStore.put, h]

theorem storePut_self (fs : FileStore) (p d : Str) : (fs.put p d) p = some d := by simp [FileStore.put]

structure PoolJobsInv (env : PoolEnv) (jobs : List Str) (fs0 : FileStore) (c : JobsConfig) : Prop where
  length : c.states.length = jobs.length
  other : ∀ q, (∀ u ∈ jobs, q ≠ env.file (env.output u)) → c.fs q = fs0 q
  state : ∀ (i : Nat) (u : Str) (st : JobState), jobs[i]? = some u → c.states[i]? = some st → PoolInv env fs0 c.fs u st

theorem poolStep_other {env : PoolEnv} {u : Str} {fs0 fs fs' : FileStore} {st st' : JobState} (hi : PoolInv env fs0 fs u st)
    (h : PoolStep env u fs st fs' st') (q : Str) (hq : q ≠ env.file (env.output u)) : fs' q = fs q := by
  cases h with
  | process => rfl
  | create => exact storePut_ne _ _ (fun he => hq (he.trans hi.1))
  | write => exact storePut_ne _ _ (fun he => hq (he.trans hi.1))
  | close => rfl

theorem poolStep_inv {env : PoolEnv} {u : Str} {fs0 fs fs' : FileStore} {st st' : JobState}
    (hne : env.file (env.output u) ≠ env.file u) (hp : fs (env.file u) = fs0 (env.file u)) (hi : PoolInv env fs0 fs u st)
    (h : PoolStep env u fs st fs' st') : PoolInv env fs0 fs' u st' := by
  cases h with
  | process =>
    unfold poolStart
    rw [if_neg (fun he => hne (by rw [he])), hp]
    cases hr : env.process u (fs0 (env.file u)) with
    | error e => exact ⟨⟨e, hr⟩, hi⟩
    | ok d => exact ⟨rfl, hr, hi⟩
  | create =>
    obtain ⟨rfl, h2, h3⟩ := hi
    exact ⟨rfl, [], h2, storePut_self _ _ _⟩
  | write =>
    obtain ⟨rfl, w, h2, h3⟩ := hi
    refine ⟨rfl, w ++ _, by rw [h2, List.append_assoc], ?_⟩
    rw [storePut_self, h3]; rfl
  | close =>
    obtain ⟨rfl, w, h2, h3⟩ := hi
    rw [List.append_nil] at h2
    exact ⟨w, h2, h3⟩

theorem poolInv_reach {env : PoolEnv} {jobs : List Str} {fs0 : FileStore} (hap : OutputsApart env jobs) {c : JobsConfig}
    (h : PoolReach env jobs fs0 c) : PoolJobsInv env jobs fs0 c := by
  induction h with
  | start =>
    refine ⟨by simp, fun _ _ => rfl, ?_⟩
    intro i u st hj hst
    simp only [List.getElem?_map, hj, Option.map_some] at hst
    cases hst
    rfl
  | @step c i u st st' fs' _ hj hst hstep hi =>
    have hju : u ∈ jobs := List.mem_of_getElem? hj
    have hold := hi.state i u st hj hst
    refine ⟨by simp [hi.length], ?_, ?_⟩
    · intro q hq
      exact (poolStep_other hold hstep q (hq u hju)).trans (hi.other q hq)
    · intro k v stk hk hstk
      simp only at hstk
      by_cases hik : i = k
      · subst hik
        rw [hj] at hk
        cases hk
        rw [List.getElem?_set_self (List.getElem?_eq_some_iff.mp hst).1] at hstk
        cases hstk
        exact poolStep_inv (hap.1 u hju u hju) (hi.other _ (fun v hv => Ne.symm (hap.1 v hv u hju))) hold hstep
      · rw [List.getElem?_set_ne hik] at hstk
        refine (hi.state k v stk hk hstk).congr (poolStep_other hold hstep _ ?_)
        exact pairwise_index (R := fun u v => env.file (env.output u) ≠ env.file (env.output v))
          (fun a b hab => Ne.symm hab) hap.2 hk hj (Ne.symm hik)

/-- Without any assumption: only outputs are changed, and only those of jobs passing the assertion. -/
theorem pool_untouched {env : PoolEnv} {jobs : List Str} {fs0 : FileStore} {c : JobsConfig} (h : PoolReach env jobs fs0 c)
    (q : Str) (hq : ∀ u ∈ jobs, env.output u ≠ u → q ≠ env.file (env.output u)) :
    c.fs q = fs0 q ∧ ∀ st ∈ c.states, ∀ p x, st = .saving p x ∨ st = .writing p x → p ≠ q := by
  induction h with
  | start =>
    refine ⟨rfl, ?_⟩
    intro st hst p x hx
    obtain ⟨_, _, rfl⟩ := List.mem_map.mp hst
    rcases hx with hx | hx <;> cases hx
  | @step c i u st st' fs' _ hj hst hstep ih =>
    have hju : u ∈ jobs := List.mem_of_getElem? hj
    have hmem : st ∈ c.states := List.mem_of_getElem? hst
    have key : fs' q = c.fs q ∧ ∀ p x, st' = .saving p x ∨ st' = .writing p x → p ≠ q := by
      cases hstep with
      | process =>
        refine ⟨rfl, ?_⟩
        intro p x hx
        unfold poolStart at hx
        by_cases ho : env.output u = u
        · rw [if_pos ho] at hx
          rcases hx with hx | hx <;> cases hx
        · rw [if_neg ho] at hx
          split at hx
          · rcases hx with hx | hx <;> cases hx
          · rcases hx with hx | hx
            · cases hx; exact Ne.symm (hq u hju ho)
            · cases hx
      | create =>
        have hne := ih.2 _ hmem _ _ (.inl rfl)
        refine ⟨storePut_ne _ _ (Ne.symm hne), ?_⟩
        rintro p x (hx | hx) <;> cases hx
        exact hne
      | write =>
        have hne := ih.2 _ hmem _ _ (.inr rfl)
        refine ⟨storePut_ne _ _ (Ne.symm hne), ?_⟩
        rintro p x (hx | hx) <;> cases hx
        exact hne
      | close => exact ⟨rfl, fun p x hx => by rcases hx with hx | hx <;> cases hx⟩
    refine ⟨key.1.trans ih.1, ?_⟩
    intro s hs
    rcases List.mem_or_eq_of_mem_set hs with hs | rfl
    · exact ih.2 s hs
    · exact key.2

/-- Run one job to its end. -/
theorem pool_one {env : PoolEnv} {jobs : List Str} {fs0 : FileStore} {c : JobsConfig} (h : PoolReach env jobs fs0 c) {i : Nat}
    {u p d : Str} (hj : jobs[i]? = some u) (hs : c.states[i]? = some .pending)
    (hp : poolStart env u (c.fs (env.file u)) = .saving p d) :
    PoolReach env jobs fs0 ⟨(c.fs.put p []).put p d, c.states.set i .finished⟩ := by
  have hlt : i < c.states.length := (List.getElem?_eq_some_iff.mp hs).1
  have h1 := PoolReach.step h hj hs .process
  rw [hp] at h1
  have h2 := PoolReach.step h1 hj (st := .saving p d) (by simp [hlt]) .create
  by_cases hd : d = []
  · subst hd
    have h3 := PoolReach.step h2 hj (st := .writing p []) (by simp [hlt]) .close
    have he : (c.fs.put p []).put p [] = c.fs.put p [] := by
      funext q
      simp only [FileStore.put]
      split <;> rfl
    rw [he]
    simpa using h3
  · have h3 := PoolReach.step h2 hj (st := .writing p (d ++ [])) (by simp [hlt]) (.write hd)
    have h4 := PoolReach.step h3 hj (st := .writing p []) (by simp [hlt]) .close
    simpa [FileStore.put] using h4

theorem pool_raise {env : PoolEnv} {jobs : List Str} {fs0 : FileStore} {c : JobsConfig} (h : PoolReach env jobs fs0 c) {i : Nat}
    {u : Str} (hj : jobs[i]? = some u) (hs : c.states[i]? = some .pending) (hp : poolStart env u (c.fs (env.file u)) = .raised) :
    PoolReach env jobs fs0 ⟨c.fs, c.states.set i .raised⟩ := by
  have h1 := PoolReach.step h hj hs .process
  rwa [hp] at h1

theorem pool_length {env : PoolEnv} {jobs : List Str} {fs0 : FileStore} {c : JobsConfig} (h : PoolReach env jobs fs0 c) :
    c.states.length = jobs.length := by
  induction h with
  | start => simp
  | step _ _ _ _ ih => simpa using ih

/-! ### Paths -/

theorem joinPath_plain (a b : Str) (ha : a ≠ []) (hs : a.getLast? ≠ some '/') (hb : b.head? ≠ some '/') :
    joinPath a b = a ++ '/' :: b := by
  unfold joinPath
  rw [if_neg, if_neg]
  · intro h
    rcases Bool.or_eq_true_iff.mp h with h | h
    · exact ha (List.isEmpty_iff.mp h)
    · unfold endsWith at h
      rw [List.isSuffixOf_iff_suffix] at h
      obtain ⟨t, ht⟩ := h
      exact hs (by rw [← ht]; simp)
  · intro h
    unfold startsWith at h
    rw [List.isPrefixOf_iff_prefix] at h
    obtain ⟨t, ht⟩ := h
    exact hb (by rw [← ht]; rfl)

end Verif
