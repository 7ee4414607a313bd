import Verif.Model.Basic

namespace Verif

/-- A computation succeeds with a result satisfying a decidable property (for closed examples,
evaluated by the kernel). -/
def okAnd {ε α : Type} (x : Except ε α) (p : α → Prop) [∀ a, Decidable (p a)] : Bool :=
  match x with
  | .ok a => decide (p a)
  | .error _ => false

theorem exists_of_okAnd {ε α : Type} {x : Except ε α} {p : α → Prop} [∀ a, Decidable (p a)]
    (h : okAnd x p = true) : ∃ a, x = .ok a ∧ p a := by
  cases x with
  | error e => cases h
  | ok a => exact ⟨a, rfl, of_decide_eq_true h⟩

end Verif
