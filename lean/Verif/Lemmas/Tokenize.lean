import Verif.Model.TeiToken
import Verif.Lemmas.Str
import Verif.Spec.Text

namespace Verif

theorem splitCaseAux_flatten (cc : CharClass) (p : Char) (acc s : Str) :
    (splitCaseAux cc p acc s).flatten = acc ++ s := by
  induction s generalizing p acc with
  | nil => simp only [splitCaseAux]; split <;> simp_all
  | cons c s ih =>
    simp only [splitCaseAux]
    split
    · simp [ih]
    · simp [ih]

theorem splitCase_flatten (cc : CharClass) (s : Str) : (splitCase cc s).flatten = s := by
  cases s with
  | nil => rfl
  | cons c s => simp [splitCase, splitCaseAux_flatten]

theorem splitNonWord_flatten (cc : CharClass) (s : Str) : (splitNonWord cc s).flatten = s := by
  induction s with
  | nil => rfl
  | cons c s ih =>
    simp only [splitNonWord]
    split
    · next h => rw [h] at ih; simp at ih; subst ih; simp [splitNonWord] at h
    · next w ws h => rw [h] at ih; split <;> simp_all

theorem filter_nonempty_flatten (l : List Str) :
    (l.filter (fun s => !s.isEmpty)).flatten = l.flatten := by
  induction l with
  | nil => rfl
  | cons x l ih => cases x <;> simp_all

theorem tokenizeText_flatten (cc : CharClass) (s : Str) : (tokenizeText cc s).flatten = s := by
  unfold tokenizeText
  rw [filter_nonempty_flatten]
  have key : ∀ l : List Str, (l.flatMap (splitCase cc)).flatten = l.flatten := by
    intro l
    induction l with
    | nil => rfl
    | cons x l ih => simp [splitCase_flatten, ih]
  rw [key, splitNonWord_flatten]

theorem tokenizeText_ne_nil (cc : CharClass) (s : Str) : ∀ t ∈ tokenizeText cc s, t ≠ [] := by
  intro t ht
  have := (List.mem_filter.1 ht).2
  intro h; subst h; simp at this

/-- Adds a character to the first item. -/
def consHead (c : Char) : List Str → List Str
  | [] => [[c]]
  | w :: ws => (c :: w) :: ws

theorem splitCaseAux_cons (cc : CharClass) (p a : Char) (acc s : Str) (h : acc ≠ []) :
    splitCaseAux cc p (a :: acc) s = consHead a (splitCaseAux cc p acc s) := by
  induction s generalizing p acc with
  | nil => cases acc with
    | nil => exact absurd rfl h
    | cons x acc => simp [splitCaseAux, consHead]
  | cons c s ih =>
    simp only [splitCaseAux]
    split
    · rfl
    · rw [List.cons_append, ih _ _ (by simp)]

theorem splitCase_cons_cons (cc : CharClass) (c d : Char) (w : Str) :
    splitCase cc (c :: d :: w) =
      if cc.isLower c && cc.isUpper d then [c] :: splitCase cc (d :: w)
      else consHead c (splitCase cc (d :: w)) := by
  simp only [splitCase, splitCaseAux]
  rw [Bool.and_comm]
  split
  · rfl
  · exact splitCaseAux_cons cc d c [d] w (by simp)

theorem splitNonWord_head (cc : CharClass) (s : Str) :
    ∃ w ws, splitNonWord cc s = w :: ws ∧
      ((w = [] ∧ (s = [] ∨ ∃ c t, s = c :: t ∧ cc.isWord c = false)) ∨
       (∃ d w' t, w = d :: w' ∧ s = d :: t ∧ cc.isWord d = true)) := by
  induction s with
  | nil => exact ⟨[], [], rfl, .inl ⟨rfl, .inl rfl⟩⟩
  | cons c s ih =>
    obtain ⟨w, ws, h, _⟩ := ih
    by_cases hc : cc.isWord c = true
    · exact ⟨c :: w, ws, by simp [splitNonWord, h, hc], .inr ⟨c, w, s, rfl, rfl, hc⟩⟩
    · exact ⟨[], [c] :: w :: ws, by simp [splitNonWord, h, hc],
        .inl ⟨rfl, .inr ⟨c, s, rfl, by simpa using hc⟩⟩⟩

theorem splitCase_head (cc : CharClass) (d : Char) (w : Str) :
    ∃ v vs, splitCase cc (d :: w) = (d :: v) :: vs := by
  have key : ∀ (s : Str) (p a : Char) (acc : Str), ∃ v vs, splitCaseAux cc p (a :: acc) s = (a :: v) :: vs := by
    intro s
    induction s with
    | nil => intro p a acc; exact ⟨acc, [], by simp [splitCaseAux]⟩
    | cons c s ih =>
      intro p a acc
      simp only [splitCaseAux]
      split
      · exact ⟨acc, _, rfl⟩
      · exact ih c a (acc ++ [c])
  exact key w d d []

theorem cutAt_cons (b : Char → Char → Bool) (c d : Char) (s : Str) :
    Spec.cutAt b (c :: d :: s) =
      if b c d then [c] :: Spec.cutAt b (d :: s) else consHead c (Spec.cutAt b (d :: s)) := by
  rw [Spec.cutAt]
  split
  · rfl
  · cases Spec.cutAt b (d :: s) <;> rfl

/-- The tokeniser cuts the text exactly at the token boundaries. -/
theorem tokenizeText_eq_cutAt (cc : CharClass) (s : Str) :
    tokenizeText cc s = Spec.cutAt (Spec.tokenBoundary cc) s := by
  induction s with
  | nil => rfl
  | cons c s ih =>
    obtain ⟨w, ws, h, hw⟩ := splitNonWord_head cc s
    by_cases hc : cc.isWord c = true
    · have e : splitNonWord cc (c :: s) = (c :: w) :: ws := by simp [splitNonWord, h, hc]
      have hs : tokenizeText cc s = (splitCase cc w ++ ws.flatMap (splitCase cc)).filter (fun s => !s.isEmpty) := by
        simp [tokenizeText, h]
      have hcs : tokenizeText cc (c :: s) =
          (splitCase cc (c :: w) ++ ws.flatMap (splitCase cc)).filter (fun s => !s.isEmpty) := by
        simp [tokenizeText, e]
      rcases hw with ⟨rfl, rfl | ⟨d, t, rfl, hd⟩⟩ | ⟨d, w', t, rfl, rfl, hd⟩
      · simp [splitNonWord] at h
        subst h
        simp [tokenizeText, splitNonWord, hc, splitCase, splitCaseAux, Spec.cutAt]
      · rw [cutAt_cons, ← ih]
        simp only [Spec.tokenBoundary, hd, Bool.not_false, Bool.or_true, Bool.true_or, if_true]
        rw [hcs, hs]
        simp [splitCase, splitCaseAux]
      · rw [cutAt_cons, ← ih]
        obtain ⟨v, vs, hv⟩ := splitCase_head cc d w'
        simp only [Spec.tokenBoundary, hc, hd, Bool.not_true, Bool.false_or]
        rw [hcs, hs, splitCase_cons_cons]
        split
        · simp
        · simp [hv, consHead]
    · have e : splitNonWord cc (c :: s) = [] :: [c] :: w :: ws := by simp [splitNonWord, h, hc]
      have hcs : tokenizeText cc (c :: s) = [c] :: tokenizeText cc s := by
        simp [tokenizeText, e, h, splitCase, splitCaseAux]
      cases s with
      | nil => rw [hcs, ih]; rfl
      | cons d s =>
        rw [cutAt_cons, ← ih, hcs]
        simp [Spec.tokenBoundary, hc]

end Verif
