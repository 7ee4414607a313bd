import Verif.Model.Tags
import Verif.Lemmas.Dict

namespace Verif

theorem startsWith_iff {p s : Str} : startsWith p s = true ↔ p <+: s := by
  simp [startsWith]

theorem endsWith_iff {p s : Str} : endsWith p s = true ↔ p <:+ s := by
  simp [endsWith]

@[simp] theorem truthy_none : truthy none = false := rfl
@[simp] theorem truthy_nil : truthy (some []) = false := rfl
@[simp] theorem truthy_cons (c : Char) (s : Str) : truthy (some (c :: s)) = true := rfl

theorem truthy_iff {t : Option Str} : truthy t = true ↔ ∃ s, t = some s ∧ s ≠ [] := by
  rcases t with _ | _ | ⟨c, s⟩ <;> simp

theorem truthy_some {s : Str} : truthy (some s) = true ↔ s ≠ [] := by
  cases s <;> simp

/-- The three ways a tag can be split. -/
theorem splitTagPrefix_cases (t : Option Str) :
    (∃ v, t = some (bPrefix ++ v) ∧ splitTagPrefix t = (some bPrefix, some v)) ∨
    (∃ v, t = some (iPrefix ++ v) ∧ splitTagPrefix t = (some iPrefix, some v)) ∨
    ((∀ v, t ≠ some (bPrefix ++ v)) ∧ (∀ v, t ≠ some (iPrefix ++ v)) ∧
      splitTagPrefix t = (none, t)) := by
  rcases t with _ | s
  · right; right; simp [splitTagPrefix]
  · unfold splitTagPrefix
    by_cases hb : startsWith bPrefix s = true
    · left
      obtain ⟨v, rfl⟩ := startsWith_iff.1 hb
      refine ⟨v, rfl, ?_⟩
      simp [bPrefix, startsWith]
    · by_cases hi : startsWith iPrefix s = true
      · right; left
        obtain ⟨v, rfl⟩ := startsWith_iff.1 hi
        refine ⟨v, rfl, ?_⟩
        simp [iPrefix, bPrefix, startsWith]
      · right; right
        refine ⟨?_, ?_, ?_⟩
        · intro v hv; cases hv; exact hb (startsWith_iff.2 ⟨v, rfl⟩)
        · intro v hv; cases hv; exact hi (startsWith_iff.2 ⟨v, rfl⟩)
        · simp [hb, hi]

@[simp] theorem splitTagPrefix_b (v : Str) :
    splitTagPrefix (some (bPrefix ++ v)) = (some bPrefix, some v) := by
  simp [splitTagPrefix, bPrefix, startsWith]

@[simp] theorem splitTagPrefix_i (v : Str) :
    splitTagPrefix (some (iPrefix ++ v)) = (some iPrefix, some v) := by
  simp [splitTagPrefix, bPrefix, iPrefix, startsWith]

@[simp] theorem splitTagPrefix_none : splitTagPrefix none = (none, none) := rfl

@[simp] theorem stripTagPrefix_none : stripTagPrefix none = none := rfl

@[simp] theorem stripTagPrefix_b (v : Str) : stripTagPrefix (some (bPrefix ++ v)) = some v := by
  simp [stripTagPrefix]

@[simp] theorem stripTagPrefix_i (v : Str) : stripTagPrefix (some (iPrefix ++ v)) = some v := by
  simp [stripTagPrefix]

theorem addTagPrefix_none_left (p : Option Str) : addTagPrefix none p = none := by
  cases p <;> rfl

theorem addTagPrefix_of_truthy {t p : Str} (ht : t ≠ []) (hp : p ≠ []) :
    addTagPrefix (some t) (some p) = some (p ++ t) := by
  simp [addTagPrefix, truthy_some.2 ht, truthy_some.2 hp]

/-! ### Attribute names -/

theorem digits_all (n : Nat) : ∀ c ∈ Nat.toDigits 10 n, c.isDigit = true :=
  fun _ h => Nat.isDigit_of_mem_toDigits (by decide) (by decide) h

theorem toDigits_inj {m n : Nat} (h : Nat.toDigits 10 m = Nat.toDigits 10 n) : m = n := by
  have := congrArg (fun l => Nat.ofDigitChars 10 l 0) h
  simpa [Nat.ofDigitChars_ten_toDigits] using this

/-- Two strings ending in a run of digits preceded by the same non digit. -/
theorem append_digits_inj {a b : Str} {c : Char} {m n : Str} (hc : c.isDigit = false)
    (hm : ∀ x ∈ m, x.isDigit = true) (hn : ∀ x ∈ n, x.isDigit = true)
    (h : a ++ c :: m = b ++ c :: n) : a = b ∧ m = n := by
  rw [List.append_eq_append_iff] at h
  rcases h with ⟨d, rfl, h2⟩ | ⟨d, rfl, h2⟩
  · cases d with
    | nil => simpa using h2
    | cons x d =>
      simp only [List.cons_append, List.cons.injEq] at h2
      have : c ∈ m := by rw [h2.2]; simp
      exact absurd (hm _ this) (by simp [hc])
  · cases d with
    | nil => simpa using h2.symm
    | cons x d =>
      simp only [List.cons_append, List.cons.injEq] at h2
      have : c ∈ n := by rw [h2.2]; simp
      exact absurd (hn _ this) (by simp [hc])

/-- The text in front of the attribute name. -/
def namePrefix (scope : Option Str) (level : Option Nat) : Str :=
  (match scope with
    | none => []
    | some [] => []
    | some (c :: s) => (c :: s) ++ c!"-") ++
  (match level with
    | none => []
    | some 0 => []
    | some n => c!"level" ++ Nat.toDigits 10 n ++ c!"_")

theorem scopedAttribName_eq (name : Str) (scope : Option Str) (level : Option Nat) :
    scopedAttribName name scope level = namePrefix scope level ++ name := by
  rcases scope with _ | _ | ⟨c, s⟩ <;> rcases level with _ | _ | n <;>
    simp [scopedAttribName, namePrefix]

/-- `None` and `''` select the same scope. -/
def normScope : Option Str → Option Str
  | some [] => none
  | s => s

/-- `None` and `0` select the same level. -/
def normLevel : Option Nat → Option Nat
  | some 0 => none
  | l => l

theorem namePrefix_norm (scope : Option Str) (level : Option Nat) :
    namePrefix (normScope scope) (normLevel level) = namePrefix scope level := by
  rcases scope with _ | _ | ⟨c, s⟩ <;> rcases level with _ | _ | n <;> rfl

theorem namePrefix_inj {s s' : Option Str} {l l' : Option Nat}
    (h : namePrefix s l = namePrefix s' l') : normScope s = normScope s' ∧ normLevel l = normLevel l' := by
  have key : ∀ (a b : Str) (m n : Nat),
      a ++ (c!"level" ++ Nat.toDigits 10 m ++ c!"_") = b ++ (c!"level" ++ Nat.toDigits 10 n ++ c!"_") →
      a = b ∧ m = n := by
    intro a b m n h
    have h1 : (a ++ c!"leve") ++ 'l' :: Nat.toDigits 10 m = (b ++ c!"leve") ++ 'l' :: Nat.toDigits 10 n := by
      have : ((a ++ c!"leve") ++ 'l' :: Nat.toDigits 10 m) ++ c!"_" =
          ((b ++ c!"leve") ++ 'l' :: Nat.toDigits 10 n) ++ c!"_" := by simpa using h
      exact List.append_cancel_right this
    obtain ⟨ha, hm⟩ := append_digits_inj (by decide) (digits_all m) (digits_all n) h1
    exact ⟨List.append_cancel_right ha, toDigits_inj hm⟩
  have hlast : ∀ (a : Str) (m : Nat),
      (a ++ (c!"level" ++ Nat.toDigits 10 m ++ c!"_")).getLast? = some '_' := by
    intro a m; rw [← List.append_assoc, List.getLast?_concat]
  have hs : ∀ sc : Option Str, (match sc with
    | none => []
    | some [] => []
    | some (c :: s) => (c :: s) ++ c!"-" : Str).getLast? ≠ some '_' := by
    rintro (_ | _ | ⟨c, t⟩)
    · simp
    · simp
    · show ((c :: t) ++ ['-']).getLast? ≠ _
      rw [List.getLast?_concat]; decide
  have hsinj : ∀ sc sc' : Option Str, (match sc with
    | none => []
    | some [] => []
    | some (c :: s) => (c :: s) ++ c!"-" : Str) = (match sc' with
    | none => []
    | some [] => []
    | some (c :: s) => (c :: s) ++ c!"-" : Str) → normScope sc = normScope sc' := by
    rintro (_ | _ | ⟨c, t⟩) (_ | _ | ⟨c', t'⟩) <;> simp [normScope]
  unfold namePrefix at h
  rcases l with _ | _ | n <;> rcases l' with _ | _ | n'
  all_goals (try simp only [List.append_nil] at h)
  · exact ⟨hsinj _ _ h, rfl⟩
  · exact ⟨hsinj _ _ h, rfl⟩
  · exact absurd (h ▸ hlast _ _) (hs s)
  · exact ⟨hsinj _ _ h, rfl⟩
  · exact ⟨hsinj _ _ h, rfl⟩
  · exact absurd (h ▸ hlast _ _) (hs s)
  · exact absurd (h.symm ▸ hlast _ _) (hs s')
  · exact absurd (h.symm ▸ hlast _ _) (hs s')
  · obtain ⟨h1, h2⟩ := key _ _ _ _ h
    exact ⟨hsinj _ _ h1, by simp [normLevel]; omega⟩

theorem scopedAttribName_inj {name : Str} {s s' : Option Str} {l l' : Option Nat}
    (h : scopedAttribName name s l = scopedAttribName name s' l') :
    normScope s = normScope s' ∧ normLevel l = normLevel l' := by
  rw [scopedAttribName_eq, scopedAttribName_eq] at h
  exact namePrefix_inj (List.append_cancel_right h)

end Verif
