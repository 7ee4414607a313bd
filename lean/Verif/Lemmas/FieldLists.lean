/-
Lemmas about field lists and mappings.
-/
import Verif.Model.FieldLists
import Verif.Spec.FieldLists
import Verif.Lemmas.PyStr
import Verif.Lemmas.Dict

namespace Verif
open Spec

/-- Applies the changes one after the other. -/
def applyEdits : List Str → List Edit → Option (List Str)
  | l, [] => some l
  | l, .add v :: es => applyEdits (l ++ [v]) es
  | l, .remove v :: es => if v ∈ l then applyEdits (l.erase v) es else none

theorem edits_cons_plain (adding : Bool) (c : Char) (cs : Str) (items : List Str) (h1 : c ≠ '+') (h2 : c ≠ '-') :
    edits adding ((c :: cs) :: items) =
      (if adding then .add (c :: cs) else .remove (c :: cs)) :: edits adding items := by
  rw [edits]
  · intro v; simp [h1]
  · intro v; simp [h2]
  · simp

theorem put_same (h : ListHeap) (r : Nat) (l : List Str) : h.put r l r = l := by simp [ListHeap.put]

theorem put_ne (h : ListHeap) (r j : Nat) (l : List Str) (hj : j ≠ r) : h.put r l j = h j := by
  simp [ListHeap.put, hj]

/-- What the loop does to the heap, for a mode set before. -/
theorem plusMinusLoop_spec (r : Nat) (items : List Str) (h : ListHeap) (adding : Bool) (mode : Option Char)
    (hm : mode = some (if adding then '+' else '-')) :
    (∀ j, j ≠ r → (plusMinusLoop r h mode items).1 j = h j) ∧
    (∀ l, applyEdits (h r) (edits adding items) = some l →
      (plusMinusLoop r h mode items).2 = none ∧ (plusMinusLoop r h mode items).1 r = l) ∧
    (applyEdits (h r) (edits adding items) = none →
      (plusMinusLoop r h mode items).2 = some .valueError) := by
  induction items generalizing h adding mode with
  | nil =>
    simp [plusMinusLoop, edits, applyEdits]
  | cons item items ih =>
    cases item with
    | nil =>
      rw [plusMinusLoop, edits]
      exact ih h adding mode hm
      all_goals simp
    | cons c cs =>
      have step : ∀ (v : Str) (add : Bool) , 
          plusMinusLoop r h mode ((c :: cs) :: items) =
            (if add then plusMinusLoop r (h.put r (h r ++ [v])) (some '+') items
             else if v ∈ h r then plusMinusLoop r (h.put r ((h r).erase v)) (some '-') items
             else (h, some .valueError)) →
          edits adding ((c :: cs) :: items) = (if add then Edit.add v else Edit.remove v) :: edits add items →
          (∀ j, j ≠ r → (plusMinusLoop r h mode ((c :: cs) :: items)).1 j = h j) ∧
          (∀ l, applyEdits (h r) (edits adding ((c :: cs) :: items)) = some l →
            (plusMinusLoop r h mode ((c :: cs) :: items)).2 = none ∧
            (plusMinusLoop r h mode ((c :: cs) :: items)).1 r = l) ∧
          (applyEdits (h r) (edits adding ((c :: cs) :: items)) = none →
            (plusMinusLoop r h mode ((c :: cs) :: items)).2 = some .valueError) := by
        intro v add e1 e2
        rw [e1, e2]
        cases add with
        | true =>
          simp only [if_true, applyEdits]
          obtain ⟨i1, i2, i3⟩ := ih (h.put r (h r ++ [v])) true (some '+') rfl
          rw [put_same] at i2 i3
          exact ⟨fun j hj => by rw [i1 j hj, put_ne _ _ _ _ hj], i2, i3⟩
        | false =>
          simp only [Bool.false_eq_true, if_false, applyEdits]
          by_cases hv : v ∈ h r
          · simp only [hv, if_true]
            obtain ⟨i1, i2, i3⟩ := ih (h.put r ((h r).erase v)) false (some '-') rfl
            rw [put_same] at i2 i3
            exact ⟨fun j hj => by rw [i1 j hj, put_ne _ _ _ _ hj], i2, i3⟩
          · simp [hv]
      by_cases h1 : c = '+'
      · subst h1
        refine step cs true ?_ ?_
        · simp [plusMinusLoop]
        · simp [edits]
      · by_cases h2 : c = '-'
        · subst h2
          refine step cs false ?_ ?_
          · simp [plusMinusLoop]
          · simp [edits]
        · refine step (c :: cs) adding ?_ (edits_cons_plain adding c cs items h1 h2)
          subst hm
          cases adding <;> simp [plusMinusLoop, h1, h2]

theorem plusMinusLoop_none (r : Nat) (h : ListHeap) (c : Char) (cs : Str) (items : List Str)
    (hc : (c = '+' || c = '-') = true) :
    plusMinusLoop r h none ((c :: cs) :: items) = plusMinusLoop r h (some '-') ((c :: cs) :: items) := by
  simp only [plusMinusLoop, hc, if_true]

theorem edits_signed (adding : Bool) (c : Char) (cs : Str) (items : List Str) (hc : (c = '+' || c = '-') = true) :
    edits adding ((c :: cs) :: items) = edits false ((c :: cs) :: items) := by
  simp only [Bool.or_eq_true, decide_eq_true_eq] at hc
  rcases hc with hc | hc <;> subst hc <;> rfl

/-- Counting in an edited list. -/
theorem applyEdits_count (es : List Edit) (l r : List Str) (h : applyEdits l es = some r) (x : Str) :
    r.count x + es.count (.remove x) = l.count x + es.count (.add x) := by
  induction es generalizing l with
  | nil => simp only [applyEdits, Option.some.injEq] at h; subst h; simp
  | cons e es ih =>
    cases e with
    | add v =>
      simp only [applyEdits] at h
      have := ih _ h
      rw [List.count_append] at this
      simp only [List.count_cons, List.count_nil] at this ⊢
      simp only [beq_iff_eq, Edit.add.injEq, reduceCtorEq, if_false] at this ⊢
      split at this <;> simp_all <;> omega
    | remove v =>
      simp only [applyEdits] at h
      split at h
      · next hv =>
        have := ih _ h
        simp only [List.count_cons, beq_iff_eq, Edit.remove.injEq, reduceCtorEq, if_false] at this ⊢
        by_cases hx : v = x
        · subst hx
          rw [List.count_erase_self] at this
          have : 0 < l.count v := List.count_pos_iff.2 hv
          simp; omega
        · rw [List.count_erase_of_ne (Ne.symm hx)] at this
          simp only [hx, if_false]; omega
      · cases h

/-- An edited list keeps the order. -/
theorem applyEdits_sublist (es : List Edit) (l r : List Str) (h : applyEdits l es = some r) :
    r.Sublist (l ++ added es) := by
  induction es generalizing l with
  | nil => simp only [applyEdits, Option.some.injEq] at h; subst h; simp [added]
  | cons e es ih =>
    cases e with
    | add v =>
      simp only [applyEdits] at h
      have := ih _ h
      rw [List.append_assoc] at this
      simpa [added] using this
    | remove v =>
      simp only [applyEdits] at h
      split at h
      · have := ih _ h
        refine this.trans ?_
        have e : added (.remove v :: es) = added es := by simp [added]
        rw [e]
        exact List.Sublist.append_right List.erase_sublist _
      · cases h

/-- Editing fails exactly when something is removed which is not there. -/
theorem applyEdits_isSome (es : List Edit) (l : List Str) :
    (∃ r, applyEdits l es = some r) ↔
      ∀ pre x post, es = pre ++ .remove x :: post →
        pre.count (.remove x) < l.count x + pre.count (.add x) := by
  induction es generalizing l with
  | nil => simp [applyEdits]
  | cons e es ih =>
    cases e with
    | add v =>
      simp only [applyEdits]
      rw [ih]
      constructor
      · intro h pre x post he
        cases pre with
        | nil => simp at he
        | cons p pre =>
          simp only [List.cons_append, List.cons.injEq] at he
          have := h pre x post he.2
          rw [← he.1]
          simp only [List.count_append, List.count_cons, List.count_nil, beq_iff_eq, Edit.add.injEq, reduceCtorEq, if_false] at this ⊢
          omega
      · intro h pre x post he
        have := h (.add v :: pre) x post (by rw [he]; rfl)
        simp only [List.count_append, List.count_cons, List.count_nil, beq_iff_eq, Edit.add.injEq, reduceCtorEq, if_false] at this ⊢
        omega
    | remove v =>
      simp only [applyEdits]
      by_cases hv : v ∈ l
      · rw [if_pos hv, ih]
        have hcount : ∀ x, (l.erase v).count x + (if v = x then 1 else 0) = l.count x := by
          intro x
          by_cases hx : v = x
          · subst hx
            rw [List.count_erase_self]
            have : 0 < l.count v := List.count_pos_iff.2 hv
            simp; omega
          · rw [List.count_erase_of_ne (Ne.symm hx)]; simp [hx]
        constructor
        · intro h pre x post he
          cases pre with
          | nil =>
            simp only [List.nil_append, List.cons.injEq, Edit.remove.injEq] at he
            rw [← he.1]
            have : 0 < l.count v := List.count_pos_iff.2 hv
            simpa using this
          | cons p pre =>
            simp only [List.cons_append, List.cons.injEq] at he
            have := h pre x post he.2
            have := hcount x
            rw [← he.1]
            simp only [List.count_cons, beq_iff_eq, Edit.remove.injEq, reduceCtorEq, if_false] at this ⊢
            omega
        · intro h pre x post he
          have := h (.remove v :: pre) x post (by rw [he]; rfl)
          have := hcount x
          simp only [List.count_cons, beq_iff_eq, Edit.remove.injEq, reduceCtorEq, if_false] at *
          omega
      · rw [if_neg hv]
        constructor
        · rintro ⟨r, h⟩; cases h
        · intro h
          have := h [] v es rfl
          rw [List.count_eq_zero_of_not_mem hv] at this
          simp at this

/-! Mappings -/

theorem mappingKeyFieldName_eq (key f : Str) (hf : '.' ∉ f) : mappingKeyFieldName key = f ↔ keyOf f key := by
  rcases first_occurrence '.' key with h | ⟨g, r, h, hg⟩
  · unfold mappingKeyFieldName
    rw [splitOnce_of_not_mem _ _ h, List.headD_cons]
    constructor
    · intro e; exact .inl e
    · rintro (e | ⟨rest, e⟩)
      · exact e
      · rw [e] at h; simp at h
  · unfold mappingKeyFieldName
    rw [h, splitOnce_append _ _ _ hg, List.headD_cons]
    constructor
    · intro e; subst e; exact .inr ⟨r, rfl⟩
    · rintro (e | ⟨rest, e⟩)
      · rw [← e] at hf; simp at hf
      · have := congrArg (splitOnce '.') e
        rw [splitOnce_append _ _ _ hg, splitOnce_append _ _ _ hf] at this
        simp at this; exact this.1

theorem mappingKeyFieldName_no_dot (key : Str) : '.' ∉ mappingKeyFieldName key := by
  rcases first_occurrence '.' key with h | ⟨g, r, h, hg⟩
  · unfold mappingKeyFieldName
    rw [splitOnce_of_not_mem _ _ h]; exact h
  · unfold mappingKeyFieldName
    rw [h, splitOnce_append _ _ _ hg]; exact hg

theorem subFieldForKey_eq (key sub : Str) : subFieldForKey key = some sub ↔ subKeyOf sub key := by
  unfold subFieldForKey
  simp only
  constructor
  · intro h
    split at h
    · cases h
    · next hp =>
      simp only [Bool.not_eq_true', Bool.not_eq_false, startsWith, List.isPrefixOf_iff_prefix] at hp
      obtain ⟨t, ht⟩ := hp
      have h := Option.some.inj h
      refine ⟨mappingKeyFieldName key, mappingKeyFieldName_no_dot key, ?_⟩
      have hd := congrArg (List.drop (List.length (mappingKeyFieldName key ++ c!".sub" ++ c!"."))) ht
      rw [List.drop_left] at hd
      have h : t = sub := hd.trans h
      subst h
      have e : c!".sub." = c!".sub" ++ c!"." := rfl
      rw [e, ← List.append_assoc]
      exact ht.symm
  · rintro ⟨f, hf, e⟩
    have hk : mappingKeyFieldName key = f := by
      rw [mappingKeyFieldName_eq key f hf]
      right
      exact ⟨c!"sub." ++ sub, by rw [e, List.append_assoc]; rfl⟩
    rw [hk]
    have e' : key = (f ++ c!".sub" ++ c!".") ++ sub := by
      rw [e]; simp
    have hp : startsWith (f ++ c!".sub" ++ c!".") key = true := by
      rw [startsWith, List.isPrefixOf_iff_prefix, e']
      exact List.prefix_append _ _
    rw [hp]
    simp only [Bool.not_true, Bool.false_eq_true, if_false]
    rw [e', List.drop_left]

theorem keySelected_iff (subFields : List Str) (key : Str) :
    keySelected subFields key = true ↔ ∀ sub, sub ≠ [] → subKeyOf sub key → sub ∈ subFields := by
  unfold keySelected
  simp only
  constructor
  · intro h sub hne hs
    rw [(subFieldForKey_eq key sub).2 hs] at h
    cases sub with
    | nil => exact absurd rfl hne
    | cons c cs => simpa [truthy] using h
  · intro h
    cases hs : subFieldForKey key with
    | none => simp [truthy]
    | some sub =>
      cases sub with
      | nil => simp [truthy]
      | cons c cs =>
        have := h _ (by simp) ((subFieldForKey_eq key _).1 hs)
        simpa [truthy] using this

theorem get?_filter_keys {β : Type} (d : Dict β) (p : Str → Bool) (k : Str) :
    Dict.get? (d.filter (fun e => p e.1)) k = if p k = true then d.get? k else none := by
  induction d with
  | nil => simp [Dict.get?]
  | cons e d ih =>
    obtain ⟨k', v⟩ := e
    by_cases hp : p k' = true
    · rw [List.filter_cons_of_pos (by simpa using hp)]
      simp only [Dict.get?]
      by_cases hk : k' = k
      · subst hk; simp [hp]
      · simp only [hk, if_false]; exact ih
    · rw [List.filter_cons_of_neg (by simpa using hp), ih]
      simp only [Dict.get?]
      by_cases hk : k' = k
      · subst hk; simp [hp]
      · simp only [hk, if_false]

theorem get?_map_pairs {β γ : Type} (f : β → γ) (d : Dict β) (k : Str) :
    Dict.get? (d.map (fun p => (p.1, f p.2))) k = (d.get? k).map f := by
  induction d with
  | nil => rfl
  | cons e d ih =>
    obtain ⟨k', v⟩ := e
    simp only [List.map_cons, Dict.get?]
    split
    · rfl
    · exact ih

theorem entry_filter (m : Mapping) (p : Str → Bool) (s k : Str) :
    entry (m.map (fun q => (q.1, q.2.filter (fun e => p e.1)))) s k = if p k = true then entry m s k else none := by
  unfold entry
  rw [get?_map_pairs (fun d : Dict Str => List.filter (fun e : Str × Str => p e.1) d)]
  cases m.get? s with
  | none => simp
  | some d =>
    simp only [Option.map_some, Option.bind_some]
    exact get?_filter_keys d p k

theorem get?_foldl_override {β : Type} (ov d : Dict β) (hov : ov.Pairwise (fun p q => p.1 ≠ q.1)) (k : Str) :
    Dict.get? (ov.foldl (fun d e => d.set e.1 e.2) d) k = (ov.get? k).or (d.get? k) := by
  induction ov generalizing d with
  | nil => simp [Dict.get?]
  | cons e ov ih =>
    obtain ⟨k', v⟩ := e
    rw [List.foldl_cons, ih _ (List.pairwise_cons.1 hov).2]
    simp only [Dict.get?]
    by_cases hk : k' = k
    · subst hk
      have hn : Dict.get? ov k' = none := by
        have h1 := (List.pairwise_cons.1 hov).1
        clear ih hov
        induction ov with
        | nil => rfl
        | cons e ov ih2 =>
          simp only [Dict.get?]
          rw [if_neg]
          · exact ih2 (fun a ha => h1 a (by simp [ha]))
          · exact fun he => (h1 e (by simp)) he.symm
      rw [hn]
      simp
    · rw [Dict.get?_set_ne _ _ (Ne.symm hk)]
      simp only [hk, if_false]

end Verif
