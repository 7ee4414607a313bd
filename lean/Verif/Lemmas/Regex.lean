/-
The matcher for regular expressions finds exactly the matches of the expression, in the sense of `Re.Den`.
-/
import Verif.Model.Regex

namespace Verif

/-- `n` steps, each of them forward. -/
def StepsTo (R : Nat → Nat → Prop) : Nat → Nat → Nat → Prop
  | 0, i, j => i = j
  | n + 1, i, j => ∃ k, i < k ∧ R i k ∧ StepsTo R n k j

/-- The expression matches the text from `i` to `j`. -/
def Re.Den (cc : CharClass) (s : Str) : Re → Nat → Nat → Prop
  | .empty, i, j => i = j
  | .chr p, i, j => ∃ c, s[i]? = some c ∧ p c = true ∧ j = i + 1
  | .wordB, i, j => boundaryAt cc s i = true ∧ i = j
  | .bol, i, j => i = 0 ∧ i = j
  | .eol, i, j => (i = s.length ∨ (i + 1 = s.length ∧ s[i]? = some '\n')) ∧ i = j
  | .seq a b, i, j => ∃ k, a.Den cc s i k ∧ b.Den cc s k j
  | .alt a b, i, j => a.Den cc s i j ∨ b.Den cc s i j
  | .rep a lo hi _, i, j => ∃ n, lo ≤ n ∧ (∀ h, hi = some h → n ≤ h) ∧ StepsTo (a.Den cc s) n i j

theorem stepsTo_bounds {R : Nat → Nat → Prop} {L : Nat} (hR : ∀ i k, i ≤ L → R i k → i ≤ k ∧ k ≤ L) :
    ∀ (n i j : Nat), i ≤ L → StepsTo R n i j → i ≤ j ∧ j ≤ L := by
  intro n
  induction n with
  | zero => intro i j hi h; cases h; exact ⟨Nat.le_refl i, hi⟩
  | succ n ih =>
    rintro i j hi ⟨k, h1, h2, h3⟩
    have := hR i k hi h2
    have := ih k j this.2 h3
    omega

theorem Re.Den.bounds {cc : CharClass} {s : Str} : ∀ {r : Re} {i j : Nat}, i ≤ s.length → r.Den cc s i j → i ≤ j ∧ j ≤ s.length := by
  intro r
  induction r with
  | empty => intro i j hi h; cases h; exact ⟨Nat.le_refl i, hi⟩
  | chr p =>
    rintro i j hi ⟨c, h, _, rfl⟩
    have := (List.getElem?_eq_some_iff.1 h).1
    omega
  | wordB => rintro i j hi ⟨_, rfl⟩; exact ⟨Nat.le_refl i, hi⟩
  | bol => rintro i j hi ⟨_, rfl⟩; exact ⟨Nat.le_refl i, hi⟩
  | eol => rintro i j hi ⟨_, rfl⟩; exact ⟨Nat.le_refl i, hi⟩
  | seq a b iha ihb =>
    rintro i j hi ⟨k, h1, h2⟩
    have := iha hi h1
    have := ihb this.2 h2
    omega
  | alt a b iha ihb =>
    rintro i j hi (h | h)
    · exact iha hi h
    · exact ihb hi h
  | rep a lo hi' g ih =>
    rintro i j hi ⟨n, _, _, h⟩
    exact stepsTo_bounds (fun i k => ih) n i j hi h

theorem mem_repRun {step : Nat → List Nat} {g : Bool} {R : Nat → Nat → Prop} {L : Nat} (hR : ∀ i k, i ≤ L → (k ∈ step i ↔ R i k))
    (hb : ∀ i k, i ≤ L → R i k → i ≤ k ∧ k ≤ L) :
    ∀ (fuel lo : Nat) (hi : Option Nat) (i j : Nat), i ≤ L → L + 1 ≤ fuel + i →
      (j ∈ repRun step g fuel lo hi i ↔ ∃ n, lo ≤ n ∧ (∀ h, hi = some h → n ≤ h) ∧ StepsTo R n i j) := by
  intro fuel
  induction fuel with
  | zero => intro lo hi i j h1 h2; omega
  | succ fuel ih =>
    intro lo hi i j h1 h2
    have hmore : (j ∈ (if hi = some 0 then ([] : List Nat)
        else ((step i).filter (fun k => decide (i < k))).flatMap (repRun step g fuel (lo - 1) (hi.map (· - 1))))) ↔
        ∃ n, lo ≤ n + 1 ∧ (∀ h, hi = some h → n + 1 ≤ h) ∧ StepsTo R (n + 1) i j := by
      by_cases h0 : hi = some 0
      · rw [if_pos h0]
        constructor
        · intro h; cases h
        · rintro ⟨n, _, h, _⟩
          have := h 0 h0
          omega
      · rw [if_neg h0, List.mem_flatMap]
        constructor
        · rintro ⟨k, hk, hj⟩
          obtain ⟨hk1, hk2⟩ := List.mem_filter.1 hk
          have hik : i < k := of_decide_eq_true hk2
          have hRk := (hR i k h1).1 hk1
          have hkL := (hb i k h1 hRk).2
          have := (ih (lo - 1) (hi.map (· - 1)) k j hkL (by omega)).1 hj
          obtain ⟨n, a1, a2, a3⟩ := this
          refine ⟨n, by omega, fun h hh => ?_, k, hik, hRk, a3⟩
          have := a2 (h - 1) (by rw [hh]; rfl)
          have : h ≠ 0 := fun e => h0 (by rw [hh, e])
          omega
        · rintro ⟨n, a1, a2, k, hik, hRk, a3⟩
          have hkL := (hb i k h1 hRk).2
          refine ⟨k, List.mem_filter.2 ⟨(hR i k h1).2 hRk, decide_eq_true hik⟩, ?_⟩
          refine (ih (lo - 1) (hi.map (· - 1)) k j hkL (by omega)).2 ⟨n, by omega, fun h hh => ?_, a3⟩
          obtain ⟨h', e1, rfl⟩ := Option.map_eq_some_iff.1 hh
          have := a2 h' e1
          omega
    have hstop : (∃ n, lo ≤ n ∧ (∀ h, hi = some h → n ≤ h) ∧ StepsTo R n i j) ↔
        (lo = 0 ∧ i = j) ∨ ∃ n, lo ≤ n + 1 ∧ (∀ h, hi = some h → n + 1 ≤ h) ∧ StepsTo R (n + 1) i j := by
      constructor
      · rintro ⟨n, a1, a2, a3⟩
        cases n with
        | zero => exact .inl ⟨by omega, a3⟩
        | succ n => exact .inr ⟨n, a1, a2, a3⟩
      · rintro (⟨rfl, rfl⟩ | ⟨n, h⟩)
        · exact ⟨0, Nat.le_refl 0, fun _ _ => Nat.zero_le _, rfl⟩
        · exact ⟨n + 1, h⟩
    rw [hstop, ← hmore]
    simp only [repRun]
    by_cases hlo : 0 < lo
    · rw [if_pos hlo]
      exact ⟨.inr, fun h => h.elim (fun h => by omega) id⟩
    · have hlo0 : lo = 0 := by omega
      rw [if_neg hlo]
      cases g with
      | true =>
        rw [if_pos rfl, List.mem_append, List.mem_singleton]
        exact ⟨fun h => h.elim .inr (fun h => .inl ⟨hlo0, h.symm⟩), fun h => h.elim (fun h => .inr h.2.symm) .inl⟩
      | false =>
        rw [if_neg (by decide), List.mem_cons]
        exact ⟨fun h => h.elim (fun h => .inl ⟨hlo0, h.symm⟩) .inr, fun h => h.elim (fun h => .inl h.2.symm) .inr⟩

theorem Re.mem_run {cc : CharClass} {s : Str} : ∀ {r : Re} {i j : Nat}, i ≤ s.length → (j ∈ r.run cc s i ↔ r.Den cc s i j) := by
  intro r
  induction r with
  | empty => intro i j _; simp only [Re.run, Re.Den, List.mem_singleton]; exact eq_comm
  | chr p =>
    intro i j _
    simp only [Re.run, Re.Den]
    cases h : s[i]? with
    | none => simp
    | some c => cases hp : p c <;> simp [hp]
  | wordB =>
    intro i j _
    simp only [Re.run, Re.Den]
    split
    · next h => rw [List.mem_singleton]; exact ⟨fun e => ⟨h, e.symm⟩, fun e => e.2.symm⟩
    · next h => exact ⟨fun e => (nomatch e), fun e => absurd e.1 h⟩
  | bol =>
    intro i j _
    simp only [Re.run, Re.Den]
    split
    · next h => rw [List.mem_singleton]; exact ⟨fun e => ⟨h, e.symm⟩, fun e => e.2.symm⟩
    · next h => exact ⟨fun e => (nomatch e), fun e => absurd e.1 h⟩
  | eol =>
    intro i j _
    simp only [Re.run, Re.Den]
    split
    · next h => rw [List.mem_singleton]; exact ⟨fun e => ⟨h, e.symm⟩, fun e => e.2.symm⟩
    · next h => exact ⟨fun e => (nomatch e), fun e => absurd e.1 h⟩
  | seq a b iha ihb =>
    intro i j hi
    simp only [Re.run, Re.Den, List.mem_flatMap]
    constructor
    · rintro ⟨k, h1, h2⟩
      have hk := (iha hi).1 h1
      exact ⟨k, hk, (ihb (hk.bounds hi).2).1 h2⟩
    · rintro ⟨k, h1, h2⟩
      exact ⟨k, (iha hi).2 h1, (ihb (h1.bounds hi).2).2 h2⟩
  | alt a b iha ihb => intro i j hi; simp only [Re.run, Re.Den, List.mem_append, iha hi, ihb hi]
  | rep a lo hi' g ih =>
    intro i j hi
    exact mem_repRun (fun i k h => ih h) (fun i k h hd => hd.bounds h) _ _ _ _ _ hi (by omega)

/-- The matches of a pattern with the group from `a` to `b`. -/
def Pattern.Den (cc : CharClass) (p : Pattern) (s : Str) (i a b j : Nat) : Prop :=
  p.pre.Den cc s i a ∧ p.grp.Den cc s a b ∧ p.post.Den cc s b j

theorem Pattern.mem_all {cc : CharClass} {p : Pattern} {s : Str} {i a b : Nat} (hi : i ≤ s.length) :
    (a, b) ∈ p.all cc s i ↔ ∃ j, p.Den cc s i a b j := by
  unfold Pattern.all Pattern.Den
  simp only [List.mem_flatMap, List.mem_map]
  constructor
  · rintro ⟨k, h1, l, h2, j, h3, h4⟩
    cases h4
    have g1 := (Re.mem_run hi).1 h1
    have g2 := (Re.mem_run (g1.bounds hi).2).1 h2
    exact ⟨j, g1, g2, (Re.mem_run (g2.bounds (g1.bounds hi).2).2).1 h3⟩
  · rintro ⟨j, g1, g2, g3⟩
    have b1 := (g1.bounds hi).2
    have b2 := (g2.bounds b1).2
    exact ⟨a, (Re.mem_run hi).2 g1, b, (Re.mem_run b1).2 g2, j, (Re.mem_run b2).2 g3, rfl⟩

theorem Pattern.all_nil {cc : CharClass} {p : Pattern} {s : Str} {i : Nat} (hi : i ≤ s.length) :
    p.all cc s i = [] ↔ ∀ a b j, ¬ p.Den cc s i a b j := by
  constructor
  · intro h a b j hd
    have := (Pattern.mem_all hi).2 ⟨j, hd⟩
    rw [h] at this
    cases this
  · intro h
    refine List.eq_nil_iff_forall_not_mem.2 fun q hq => ?_
    obtain ⟨j, hd⟩ := (Pattern.mem_all hi).1 hq
    exact h _ _ _ hd

/-- Nothing is found exactly if there is no match. -/
theorem Pattern.search_none {cc : CharClass} {p : Pattern} {s : Str} :
    p.search cc s = none ↔ ∀ i a b j, i ≤ s.length → ¬ p.Den cc s i a b j := by
  unfold Pattern.search
  rw [List.findSome?_eq_none_iff]
  constructor
  · intro h i a b j hi
    have := h i (List.mem_range.2 (by omega))
    exact (Pattern.all_nil hi).1 (List.head?_eq_none_iff.1 this) a b j
  · intro h i hi
    have hi : i ≤ s.length := by have := List.mem_range.1 hi; omega
    exact List.head?_eq_none_iff.2 ((Pattern.all_nil hi).2 (fun a b j => h i a b j hi))

/-- What is found is the first of the matches at the first position with a match. -/
theorem Pattern.search_some {cc : CharClass} {p : Pattern} {s : Str} {a b : Nat} (h : p.search cc s = some (a, b)) :
    ∃ i j, i ≤ s.length ∧ p.Den cc s i a b j ∧ (p.all cc s i).head? = some (a, b) ∧
      ∀ i' a' b' j', i' ≤ s.length → p.Den cc s i' a' b' j' → i ≤ i' := by
  unfold Pattern.search at h
  obtain ⟨l1, i, l2, h1, h2, h3⟩ := List.findSome?_eq_some_iff.1 h
  have hi : i ≤ s.length := by
    have : i ∈ List.range (s.length + 1) := by rw [h1]; simp
    have := List.mem_range.1 this
    omega
  obtain ⟨j, hd⟩ := (Pattern.mem_all hi).1 (List.mem_of_mem_head? h2)
  refine ⟨i, j, hi, hd, h2, fun i' a' b' j' hi' hd' => Nat.le_of_not_lt fun hlt => ?_⟩
  have hl : i = l1.length := by
    have h4 := congrArg (fun l => l[l1.length]?) h1
    simp only [List.getElem?_append_right (Nat.le_refl _), Nat.sub_self, List.getElem?_cons_zero] at h4
    have hlen : l1.length < s.length + 1 := by
      have := congrArg List.length h1
      simp at this
      omega
    rw [List.getElem?_range hlen] at h4
    exact (Option.some.inj h4).symm
  have hm : i' ∈ l1 := by
    have h4 := congrArg (fun l => l[i']?) h1
    simp only [List.getElem?_append_left (show i' < l1.length by omega)] at h4
    rw [List.getElem?_range (by omega)] at h4
    exact List.mem_of_getElem? h4.symm
  exact (Pattern.all_nil hi').1 (List.head?_eq_none_iff.1 (h3 i' hm)) a' b' j' hd'


end Verif
