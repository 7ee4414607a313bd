/-
Property C56: which expressions of a name and an attribute are understood.
-/
import Verif.Props.TeiWrite
import Verif.Spec.TagExpression
import Verif.Lemmas.List

namespace Verif

open Spec (TagExpression)

theorem span_unique {p : Char → Bool} {a s : Str} {b : Char} (ha : ∀ x ∈ a, p x = true) (hb : p b = false) :
    (a ++ b :: s).takeWhile p = a ∧ (a ++ b :: s).dropWhile p = b :: s :=
  Props.C56_aux_takeWhile a s b ha hb

/-- A text whose end is cut off by `"]`. -/
theorem parseAttribValue_iff (rest v : Str) : parseAttribValue rest = some v ↔
    v ≠ [] ∧ '\n' ∉ v ∧ ∃ lf, (lf = [] ∨ lf = c!"\n") ∧ rest = c!"=\"" ++ v ++ c!"\"]" ++ lf := by
  have key : ∀ w : Str, (if (endsWith c!"\"]" w && !(w.take (w.length - 2)).isEmpty && (w.take (w.length - 2)).all (fun c => c ≠ '\n')) = true
      then some (w.take (w.length - 2)) else none) = some v ↔ v ≠ [] ∧ '\n' ∉ v ∧ w = v ++ c!"\"]" := by
    intro w
    constructor
    · intro h
      split at h
      · next hc =>
        simp only [Option.some.injEq] at h
        rw [h, Bool.and_eq_true, Bool.and_eq_true, endsWith_iff] at hc
        obtain ⟨⟨⟨u, hu⟩, h2⟩, h3⟩ := hc
        have hv : v = u := by rw [← h, ← hu]; simp
        refine ⟨by rintro rfl; simp at h2, ?_, by rw [hv, hu]⟩
        intro hm
        have := List.all_eq_true.1 h3 _ hm
        simp at this
      · cases h
    · rintro ⟨h1, h2, rfl⟩
      have e : (v ++ c!"\"]").take ((v ++ c!"\"]").length - 2) = v := by simp
      rw [e, if_pos]
      rw [Bool.and_eq_true, Bool.and_eq_true, endsWith_iff]
      refine ⟨⟨List.suffix_append _ _, by cases v <;> simp_all⟩, ?_⟩
      simp only [List.all_eq_true, decide_eq_true_eq]
      rintro x hx rfl
      exact h2 hx
  unfold parseAttribValue
  split
  · next hs =>
    obtain ⟨w, rfl⟩ := startsWith_iff.1 hs
    have hd : (c!"=\"" ++ w).drop 2 = w := rfl
    simp only [hd]
    rw [key]
    constructor
    · rintro ⟨h1, h2, h3⟩
      refine ⟨h1, h2, ?_⟩
      split at h3
      · next hl =>
        obtain ⟨u, rfl⟩ := endsWith_iff.1 hl
        refine ⟨c!"\n", .inr rfl, ?_⟩
        simp at h3
        simp [h3]
      · exact ⟨[], .inl rfl, by simp [h3]⟩
    · rintro ⟨h1, h2, lf, h3, h4⟩
      refine ⟨h1, h2, ?_⟩
      have hw : w = v ++ c!"\"]" ++ lf := by simpa using h4
      rcases h3 with rfl | rfl
      · rw [if_neg, hw, List.append_nil]
        intro hl
        obtain ⟨u, hu⟩ := endsWith_iff.1 hl
        have := congrArg List.getLast? (hu.trans hw)
        simp at this
      · rw [if_pos (endsWith_iff.2 (by rw [hw]; exact List.suffix_append _ _)), hw, List.dropLast_concat]
  · next hs =>
    constructor
    · intro h; cases h
    · rintro ⟨_, _, lf, _, h4⟩
      exact absurd (startsWith_iff.2 (by rw [h4, List.append_assoc, List.append_assoc]; exact List.prefix_append _ _)) hs

theorem parseTagAttrib_iff (r k v : Str) : parseTagAttrib r = some (k, v) ↔
    k ≠ [] ∧ '=' ∉ k ∧ v ≠ [] ∧ '\n' ∉ v ∧ ∃ at' lf, (at' = c!"@" ∨ at' = [] ∧ (k = c!"@" ∨ k.head? ≠ some '@')) ∧
      (lf = [] ∨ lf = c!"\n") ∧ r = at' ++ k ++ c!"=\"" ++ v ++ c!"\"]" ++ lf := by
  have hkey : ∀ w : Str, (if (w.takeWhile (fun c => decide (c ≠ '='))).isEmpty then none
        else (parseAttribValue (w.dropWhile (fun c => decide (c ≠ '=')))).map (fun v => (w.takeWhile (fun c => decide (c ≠ '=')), v)))
          = some (k, v) ↔
      k ≠ [] ∧ '=' ∉ k ∧ v ≠ [] ∧ '\n' ∉ v ∧ ∃ lf, (lf = [] ∨ lf = c!"\n") ∧ w = k ++ c!"=\"" ++ v ++ c!"\"]" ++ lf := by
    intro w
    constructor
    · intro h
      split at h
      · cases h
      · next hk =>
        rw [Option.map_eq_some_iff] at h
        obtain ⟨x, hx, he⟩ := h
        simp only [Prod.mk.injEq] at he
        obtain ⟨he, rfl⟩ := he
        obtain ⟨h1, h2, lf, h3, h4⟩ := (parseAttribValue_iff _ _).1 hx
        refine ⟨by rw [← he]; intro hn; rw [hn] at hk; simp at hk, ?_, h1, h2, lf, h3, ?_⟩
        · rw [← he]
          intro hm
          have := mem_takeWhile_imp hm
          simp at this
        · rw [← he]
          conv => lhs; rw [← List.takeWhile_append_dropWhile (p := fun c => decide (c ≠ '=')) (l := w), h4]
          simp
    · rintro ⟨h1, h2, h3, h4, lf, h5, rfl⟩
      have hs := span_unique (p := fun c => decide (c ≠ '=')) (a := k) (b := '=') (s := '"' :: (v ++ c!"\"]" ++ lf))
        (by intro x hx; simp; rintro rfl; exact h2 hx) (by simp)
      have e : k ++ c!"=\"" ++ v ++ c!"\"]" ++ lf = k ++ '=' :: ('"' :: (v ++ c!"\"]" ++ lf)) := by simp
      rw [e, hs.1, hs.2, if_neg (by cases k <;> simp_all)]
      rw [(parseAttribValue_iff _ v).2 ⟨h3, h4, lf, h5, by simp⟩]
      rfl
  unfold parseTagAttrib
  simp only
  rw [hkey]
  constructor
  · rintro ⟨h1, h2, h3, h4, lf, h5, h6⟩
    refine ⟨h1, h2, h3, h4, ?_⟩
    unfold skipAt at h6
    split at h6
    · next hc =>
      refine ⟨c!"@", lf, .inl rfl, h5, ?_⟩
      rw [Bool.and_eq_true] at hc
      cases r with
      | nil => simp at hc
      | cons a r =>
        have : a = '@' := by simpa using hc.1
        subst this
        simp at h6
        simp [h6]
    · next hc =>
      refine ⟨[], lf, .inr ⟨rfl, ?_⟩, h5, by simpa using h6⟩
      cases k with
      | nil => exact absurd rfl h1
      | cons a k =>
        rcases Decidable.em (a = '@') with rfl | ha
        · left
          cases k with
          | nil => rfl
          | cons b k =>
            have hb : b ≠ '=' := by rintro rfl; simp at h2
            exact absurd (by rw [h6]; simp [hb]) hc
        · right; simpa using ha
  · rintro ⟨h1, h2, h3, h4, at', lf, hat, h5, h6⟩
    refine ⟨h1, h2, h3, h4, lf, h5, ?_⟩
    obtain ⟨a, k, rfl⟩ : ∃ a k', k = a :: k' := by cases k <;> simp_all
    have ha : a ≠ '=' := by rintro rfl; simp at h2
    unfold skipAt
    rcases hat with rfl | ⟨rfl, hat | hat⟩
    · rw [if_pos (by rw [h6]; simp [ha]), h6]
      rfl
    · cases hat
      rw [if_neg (by rw [h6]; simp), h6]
      rfl
    · have : a ≠ '@' := by simpa using hat
      rw [if_neg (by rw [h6]; simp [this]), h6]
      rfl

/-- Which expressions are understood, and with which name and attribute. -/
theorem C56_expression (s tag : Str) (attrib : Dict Str) :
    parseTagExpression s = .ok (tag, attrib) ↔ TagExpression s tag attrib := by
  constructor
  · intro h
    unfold parseTagExpression at h
    simp only at h
    split at h
    · cases h
    · next ht =>
      have hb : '[' ∉ s.takeWhile (fun c => decide (c ≠ '[')) := by
        intro hm
        have := mem_takeWhile_imp hm
        simp at this
      have hne : s.takeWhile (fun c => decide (c ≠ '[')) ≠ [] := by intro hn; rw [hn] at ht; simp at ht
      have hs := List.takeWhile_append_dropWhile (p := fun c => decide (c ≠ '[')) (l := s)
      split at h
      · next hd =>
        cases h
        rw [hd, List.append_nil] at hs
        rw [hs] at hb hne
        rw [hs]
        exact .name s hne hb
      · next c r hd =>
        split at h
        · next kv hkv =>
          cases h
          obtain ⟨k, v⟩ := kv
          obtain ⟨h1, h2, h3, h4, at', lf, h5, h6, h7⟩ := (parseTagAttrib_iff r k v).1 hkv
          have hc : c = '[' := by
            have := List.head?_dropWhile_not (p := fun c => decide (c ≠ '[')) s
            rw [hd] at this
            simpa using this
          have e : s = s.takeWhile (fun c => decide (c ≠ '[')) ++ c!"[" ++ at' ++ k ++ c!"=\"" ++ v ++ c!"\"]" ++ lf := by
            conv => lhs; rw [← hs, hd, h7, hc]
            simp
          generalize hg : s.takeWhile (fun c => decide (c ≠ '[')) = tag at *
          rw [e]
          exact .withAttribute tag at' k v lf hne hb h1 h2 h3 h4 h5 h6
        · cases h
  · intro h
    cases h with
    | name _ ht hb => exact (Props.C56_no_attribute _ ht hb).2
    | withAttribute _ at' k v lf ht hb hk he hv hn hat hlf =>
      have hs := span_unique (p := fun c => decide (c ≠ '[')) (a := tag) (b := '[') (s := at' ++ k ++ c!"=\"" ++ v ++ c!"\"]" ++ lf)
        (by intro x hx; simp; rintro rfl; exact hb hx) (by simp)
      have e : tag ++ c!"[" ++ at' ++ k ++ c!"=\"" ++ v ++ c!"\"]" ++ lf =
          tag ++ '[' :: (at' ++ k ++ c!"=\"" ++ v ++ c!"\"]" ++ lf) := by simp
      rw [e]
      unfold parseTagExpression
      simp only
      rw [hs.1, hs.2, if_neg (by cases tag <;> simp_all)]
      simp only
      rw [(parseTagAttrib_iff _ k v).2 ⟨hk, he, hv, hn, at', lf, hat, hlf, rfl⟩]

/-- All other expressions are rejected. -/
theorem C56_not_understood (s : Str) (h : ∀ tag attrib, ¬ TagExpression s tag attrib) :
    parseTagExpression s = .error .valueError := by
  cases hp : parseTagExpression s with
  | ok x => exact absurd ((C56_expression s x.1 x.2).1 hp) (h _ _)
  | error e =>
    unfold parseTagExpression at hp
    simp only at hp
    split at hp
    · cases hp; rfl
    · split at hp
      · cases hp
      · split at hp <;> cases hp; rfl

example : TagExpression c!"ref[@type=\"x\"]" c!"ref" [(c!"type", c!"x")] ∧ TagExpression c!"ref[type=\"x\"]\n" c!"ref" [(c!"type", c!"x")] ∧
    TagExpression c!"ref[@=\"x\"]" c!"ref" [(c!"@", c!"x")] :=
  ⟨(C56_expression _ _ _).1 (by rfl), (C56_expression _ _ _).1 (by rfl), (C56_expression _ _ _).1 (by rfl)⟩

/-- An empty value, and text behind the bracket. -/
example : ∀ s ∈ [c!"ref[@type=\"\"]", c!"ref[@type=\"x\"]/p", c!"[@type=\"x\"]", c!""], ∀ tag attrib, ¬ TagExpression s tag attrib := by
  have h : ∀ s ∈ [c!"ref[@type=\"\"]", c!"ref[@type=\"x\"]/p", c!"[@type=\"x\"]", c!""], (parseTagExpression s).toOption = none := by decide +kernel
  intro s hs tag attrib ht
  have := h s hs
  rw [(C56_expression _ _ _).2 ht] at this
  cases this

end Verif
