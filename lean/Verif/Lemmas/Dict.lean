import Verif.Model.Basic

namespace Verif.Dict
variable {β : Type}

@[simp] theorem get?_nil (k : Str) : get? ([] : Dict β) k = none := rfl

@[simp] theorem get?_set_self (d : Dict β) (k : Str) (v : β) : (d.set k v).get? k = some v := by
  induction d with
  | nil => simp [set, get?]
  | cons p d ih =>
    obtain ⟨k', v'⟩ := p
    by_cases h : k' = k <;> simp [set, get?, h, ih]

theorem get?_set_ne (d : Dict β) {k k' : Str} (v : β) (h : k' ≠ k) :
    (d.set k v).get? k' = d.get? k' := by
  induction d with
  | nil => simp [set, get?, Ne.symm h]
  | cons p d ih =>
    obtain ⟨k₀, v'⟩ := p
    by_cases h0 : k₀ = k
    · subst h0; simp [set, get?, Ne.symm h]
    · simp only [set, h0, if_false, get?, ih]

@[simp] theorem get?_erase_self (d : Dict β) (k : Str) : (d.erase k).get? k = none := by
  induction d with
  | nil => rfl
  | cons p d ih =>
    obtain ⟨k', v'⟩ := p
    by_cases h : k' = k
    · simpa [erase, h] using ih
    · simp only [erase, h, List.filter, decide_false, Bool.not_false, get?, if_false]
      exact ih

theorem get?_erase_ne (d : Dict β) {k k' : Str} (h : k' ≠ k) :
    (d.erase k).get? k' = d.get? k' := by
  induction d with
  | nil => rfl
  | cons p d ih =>
    obtain ⟨k₀, v'⟩ := p
    by_cases h0 : k₀ = k
    · subst h0
      simp only [erase, List.filter, decide_true, Bool.not_true, get?, Ne.symm h, if_false]
      exact ih
    · simp only [erase, h0, List.filter, decide_false, Bool.not_false, get?]
      split
      · rfl
      · exact ih

@[simp] theorem get?_setOrRemove_self (d : Dict β) (k : Str) (v : Option β) :
    (d.setOrRemove k v).get? k = v := by
  cases v <;> simp [setOrRemove]

theorem get?_setOrRemove_ne (d : Dict β) {k k' : Str} (v : Option β) (h : k' ≠ k) :
    (d.setOrRemove k v).get? k' = d.get? k' := by
  cases v
  · exact get?_erase_ne d h
  · exact get?_set_ne d _ h

theorem get?_setOrRemove (d : Dict β) (k k' : Str) (v : Option β) :
    (d.setOrRemove k v).get? k' = if k' = k then v else d.get? k' := by
  split
  · next h => subst h; simp
  · next h => exact get?_setOrRemove_ne d v h

end Verif.Dict
