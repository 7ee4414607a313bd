/-
Lemmas on the temporary copies of source files.
-/
import Verif.Model.TempFiles

namespace Verif

/-- What is known about a job in a phase. -/
def PhaseInv (stackOf : Nat → Nat) (c : TempConfig) (i : Nat) : TempPhase → Prop
  | .waiting => c.ctx i = .fresh
  | .pushed => c.ctx i = .fresh ∧ i ∈ c.stacks (stackOf i)
  | .processing => c.ctx i = .entered ∧ i ∈ c.stacks (stackOf i)
  | .leaving _ => c.ctx i = .entered → i ∈ c.stacks (stackOf i)
  | .done _ => c.ctx i ≠ .entered

structure TempInv (workers : Nat) (stackOf : Nat → Nat) (c : TempConfig) : Prop where
  stack : ∀ j k, k ∈ c.stacks j → j = stackOf k ∧ ∃ p, c.phases[k]? = some p ∧ p.running = true
  single : workers = 1 → ∀ (i k : Nat) (p q : TempPhase), c.phases[i]? = some p → c.phases[k]? = some q → p.running = true → q.running = true → i = k
  phase : ∀ (i : Nat) (p : TempPhase), c.phases[i]? = some p → PhaseInv stackOf c i p

theorem set_get {α : Type} {l : List α} {i k : Nat} {a b x : α} (hi : l[i]? = some a) (h : (l.set i b)[k]? = some x) :
    (k = i ∧ x = b) ∨ (k ≠ i ∧ l[k]? = some x) := by
  by_cases hik : k = i
  · subst hik
    rw [List.getElem?_set_self (List.getElem?_eq_some_iff.mp hi).1] at h
    cases h
    exact .inl ⟨rfl, rfl⟩
  · rw [List.getElem?_set_ne (Ne.symm hik)] at h
    exact .inr ⟨hik, h⟩

theorem get_set {α : Type} {l : List α} {i k : Nat} {a b x : α} (hi : l[i]? = some a) (h : l[k]? = some x) :
    (l.set i b)[k]? = some (if k = i then b else x) := by
  by_cases hik : k = i
  · subst hik
    rw [List.getElem?_set_self (List.getElem?_eq_some_iff.mp hi).1, if_pos rfl]
  · rw [List.getElem?_set_ne (Ne.symm hik), if_neg hik, h]

/-- A job moves from one running phase to another one. -/
theorem tempInv_move {workers : Nat} {stackOf : Nat → Nat} {c : TempConfig} (h : TempInv workers stackOf c) {i : Nat} {p q : TempPhase}
    {ctx : Nat → CtxState} (hi : c.phases[i]? = some p) (hp : p.running = true) (hq : q.running = true)
    (hctx : ∀ k, k ≠ i → ctx k = c.ctx k) (hnew : PhaseInv stackOf ⟨c.phases.set i q, ctx, c.stacks⟩ i q) :
    TempInv workers stackOf ⟨c.phases.set i q, ctx, c.stacks⟩ := by
  refine ⟨fun j k hk => ?_, fun hw k l x y hk hl hx hy => ?_, fun k x hk => ?_⟩
  · obtain ⟨h1, x, h2, h3⟩ := h.stack j k hk
    refine ⟨h1, _, get_set hi h2, ?_⟩
    split
    · exact hq
    · exact h3
  · rcases set_get hi hk with ⟨rfl, rfl⟩ | ⟨-, hk'⟩ <;> rcases set_get hi hl with ⟨rfl, rfl⟩ | ⟨-, hl'⟩
    · rfl
    · exact h.single hw _ _ _ _ hi hl' hp hy
    · exact h.single hw _ _ _ _ hk' hi hx hp
    · exact h.single hw _ _ _ _ hk' hl' hx hy
  · rcases set_get hi hk with ⟨rfl, rfl⟩ | ⟨hne, hk'⟩
    · exact hnew
    · have := h.phase k x hk'
      cases x <;> simp only [PhaseInv, hctx k hne] at this ⊢ <;> exact this

theorem none_running {l : List TempPhase} (h : (l.filter (fun p => p.running)).length < 1) {k : Nat} {p : TempPhase}
    (hk : l[k]? = some p) : p.running = false := by
  rw [Bool.eq_false_iff]
  intro hp
  have : p ∈ l.filter (fun p => p.running) := List.mem_filter.mpr ⟨List.mem_of_getElem? hk, hp⟩
  have := List.length_pos_of_mem this
  omega

theorem tempInv_step {workers : Nat} {stackOf : Nat → Nat} (hex : (∀ i k, stackOf i = stackOf k → i = k) ∨ workers = 1)
    {c c' : TempConfig} (h : TempInv workers stackOf c) (hs : TempStep workers stackOf c c') : TempInv workers stackOf c' := by
  cases hs with
  | push hi hlt =>
    rename_i i
    have hni : ∀ k, k ∈ c.stacks (stackOf i) → k ≠ i := by
      rintro k hk rfl
      obtain ⟨-, p, h2, h3⟩ := h.stack _ _ hk
      rw [hi] at h2
      cases h2
      cases h3
    refine ⟨fun j k hk => ?_, fun hw k l x y hk hl hx hy => ?_, fun k x hk => ?_⟩
    · simp only [setAt] at hk
      by_cases hj : j = stackOf i
      · rw [if_pos hj, List.mem_cons] at hk
        rcases hk with rfl | hk
        · refine ⟨hj, .pushed, ?_, rfl⟩
          have := get_set (b := TempPhase.pushed) hi hi
          simpa using this
        · obtain ⟨h1, p, h2, h3⟩ := h.stack _ k hk
          refine ⟨hj.trans h1, _, get_set hi h2, ?_⟩
          rw [if_neg (hni k hk)]
          exact h3
      · rw [if_neg hj] at hk
        obtain ⟨h1, p, h2, h3⟩ := h.stack _ k hk
        refine ⟨h1, _, get_set hi h2, ?_⟩
        split
        · rfl
        · exact h3
    · rcases set_get hi hk with ⟨rfl, rfl⟩ | ⟨-, hk'⟩
      · rcases set_get hi hl with ⟨rfl, rfl⟩ | ⟨-, hl'⟩
        · rfl
        · rw [hw] at hlt
          rw [none_running hlt hl'] at hy
          cases hy
      · rw [hw] at hlt
        rw [none_running hlt hk'] at hx
        cases hx
    · have hsub : ∀ k, k ∈ c.stacks (stackOf k) → k ∈ setAt c.stacks (stackOf i) (i :: c.stacks (stackOf i)) (stackOf k) := by
        intro k hk
        unfold setAt
        split
        · rename_i he
          rw [← he]
          exact List.mem_cons_of_mem _ hk
        · exact hk
      rcases set_get hi hk with ⟨rfl, rfl⟩ | ⟨-, hk'⟩
      · exact ⟨h.phase k _ hi, by simp [setAt]⟩
      · have := h.phase k x hk'
        cases x with
        | waiting => exact this
        | pushed => exact ⟨this.1, hsub k this.2⟩
        | processing => exact ⟨this.1, hsub k this.2⟩
        | leaving ok => exact fun he => hsub k (this he)
        | done ok => exact this
  | enter hi hf =>
    exact tempInv_move h hi rfl rfl (fun k hk => by simp [setAt, hk]) ⟨by simp [setAt], (h.phase _ _ hi).2⟩
  | enterFails hi hf =>
    exact absurd (h.phase _ _ hi).1 hf
  | enterRaises hi hf =>
    exact tempInv_move h hi rfl rfl (fun k hk => by simp [setAt, hk]) (by intro he; simp [setAt] at he)
  | read => exact h
  | readFails hi hf => exact absurd (h.phase _ _ hi).1 hf
  | finish hi => exact tempInv_move h hi rfl rfl (fun _ _ => rfl) (fun _ => (h.phase _ _ hi).2)
  | fails hi => exact tempInv_move h hi rfl rfl (fun _ _ => rfl) (fun _ => (h.phase _ _ hi).2)
  | pop hi hst =>
    rename_i i k ok rest
    have hk : k = i := by
      have hm : k ∈ c.stacks (stackOf i) := by rw [hst]; exact List.mem_cons_self
      obtain ⟨h1, p, h2, h3⟩ := h.stack _ k hm
      rcases hex with hinj | hw
      · exact hinj _ _ h1.symm
      · exact h.single hw _ _ _ _ h2 hi h3 rfl
    subst hk
    refine ⟨fun j l hl => ?_, h.single, fun l x hl => ?_⟩
    · simp only [setAt] at hl
      split at hl
      · rename_i he
        subst he
        exact h.stack _ l (by rw [hst]; exact List.mem_cons_of_mem _ hl)
      · exact h.stack j l hl
    · by_cases hlk : l = k
      · subst hlk
        simp only at hl
        rw [hi] at hl
        cases hl
        intro he
        simp only [setAt, if_true] at he
        cases hc : c.ctx l <;> rw [hc] at he <;> cases he
      · have := h.phase l x hl
        have hmem : l ∈ c.stacks (stackOf l) → l ∈ setAt c.stacks (stackOf k) rest (stackOf l) := by
          intro hm
          unfold setAt
          split
          · rename_i he
            rw [he, hst, List.mem_cons] at hm
            exact hm.resolve_left hlk
          · exact hm
        cases x <;> simp only [PhaseInv, setAt, hlk, if_false] at this ⊢
        · exact this
        · exact ⟨this.1, hmem this.2⟩
        · exact ⟨this.1, hmem this.2⟩
        · exact fun he => hmem (this he)
        · exact this
  | exit hi hst =>
    rename_i i ok
    refine ⟨fun j k hk => ?_, fun hw k l x y hk hl hx hy => ?_, fun k x hk => ?_⟩
    · obtain ⟨h1, p, h2, h3⟩ := h.stack j k hk
      refine ⟨h1, _, get_set hi h2, ?_⟩
      rw [if_neg]
      · exact h3
      · rintro rfl
        simp only at hk
        rw [h1, hst] at hk
        cases hk
    · rcases set_get hi hk with ⟨rfl, rfl⟩ | ⟨-, hk'⟩
      · cases hx
      · rcases set_get hi hl with ⟨rfl, rfl⟩ | ⟨-, hl'⟩
        · cases hy
        · exact h.single hw _ _ _ _ hk' hl' hx hy
    · rcases set_get hi hk with ⟨rfl, rfl⟩ | ⟨-, hk'⟩
      · intro he
        have := h.phase _ _ hi he
        rw [hst] at this
        cases this
      · exact h.phase k x hk'

theorem tempInv_reach {workers n : Nat} {stackOf : Nat → Nat} (hex : (∀ i k, stackOf i = stackOf k → i = k) ∨ workers = 1)
    {c : TempConfig} (h : TempReach workers stackOf n c) : TempInv workers stackOf c := by
  induction h with
  | start =>
    have hw : ∀ (i : Nat) (p : TempPhase), (List.replicate n TempPhase.waiting)[i]? = some p → p = .waiting := by
      intro i p hp
      exact (List.mem_replicate.mp (List.mem_of_getElem? hp)).2
    refine ⟨fun j k hk => (by cases hk), fun _ i k p q hp hq h1 h2 => ?_, fun i p hp => ?_⟩
    · rw [hw i p hp] at h1
      cases h1
    · rw [hw i p hp]
      rfl
  | step _ hs ih => exact tempInv_step hex ih hs

end Verif
