/-
Lemmas about sorting and grouping.
-/
import Verif.Model.PyList
import Verif.Lemmas.Dict

namespace Verif

theorem insertSorted_perm {α : Type} (le : α → α → Bool) (a : α) (l : List α) :
    (insertSorted le a l).Perm (a :: l) := by
  induction l with
  | nil => exact .refl _
  | cons b l ih =>
    unfold insertSorted
    split
    · exact .refl _
    · exact (ih.cons b).trans (List.Perm.swap a b l)

theorem sortBy_perm {α : Type} (le : α → α → Bool) (l : List α) : (sortBy le l).Perm l := by
  induction l with
  | nil => exact .refl _
  | cons a l ih =>
    unfold sortBy
    exact (insertSorted_perm le a _).trans (ih.cons a)

theorem insertSorted_pairwise {α : Type} (le : α → α → Bool) (htot : ∀ a b, le a b = true ∨ le b a = true)
    (htrans : ∀ a b c, le a b = true → le b c = true → le a c = true) (a : α) (l : List α)
    (hl : l.Pairwise (fun a b => le a b = true)) :
    (insertSorted le a l).Pairwise (fun a b => le a b = true) := by
  induction l with
  | nil => simp [insertSorted]
  | cons b l ih =>
    rw [List.pairwise_cons] at hl
    unfold insertSorted
    split
    · next h =>
      refine List.pairwise_cons.2 ⟨?_, List.pairwise_cons.2 hl⟩
      intro c hc
      rcases List.mem_cons.1 hc with rfl | hc
      · exact h
      · exact htrans _ _ _ h (hl.1 c hc)
    · next h =>
      refine List.pairwise_cons.2 ⟨?_, ih hl.2⟩
      intro c hc
      rcases List.mem_cons.1 ((insertSorted_perm le a l).mem_iff.1 hc) with rfl | hc
      · exact (htot _ _).resolve_left h
      · exact hl.1 c hc

theorem sortBy_pairwise {α : Type} (le : α → α → Bool) (htot : ∀ a b, le a b = true ∨ le b a = true)
    (htrans : ∀ a b c, le a b = true → le b c = true → le a c = true) (l : List α) :
    (sortBy le l).Pairwise (fun a b => le a b = true) := by
  induction l with
  | nil => exact .nil
  | cons a l ih => exact insertSorted_pairwise le htot htrans a _ ih

/-- Elements that are mutually equivalent keep their order. -/
theorem sortBy_filter {α : Type} (le : α → α → Bool) (p : α → Bool)
    (hp : ∀ a b, p a = true → p b = true → le a b = true) (l : List α) :
    (sortBy le l).filter p = l.filter p := by
  have hins : ∀ a l, (insertSorted le a l).filter p = (a :: l).filter p := by
    intro a l
    induction l with
    | nil => rfl
    | cons b l ih =>
      unfold insertSorted
      split
      · rfl
      · next h =>
        rw [List.filter_cons, ih]
        simp only [List.filter_cons]
        by_cases ha : p a = true
        · have hb : ¬ p b = true := fun hb => h (hp _ _ ha hb)
          simp [ha, hb]
        · simp [ha]
  induction l with
  | nil => rfl
  | cons a l ih =>
    show (insertSorted le a (sortBy le l)).filter p = _
    rw [hins, List.filter_cons, ih, List.filter_cons]

/-- Sorting a sorted list does nothing. -/
theorem sortBy_of_pairwise {α : Type} (le : α → α → Bool) (l : List α)
    (hl : l.Pairwise (fun a b => le a b = true)) : sortBy le l = l := by
  induction l with
  | nil => rfl
  | cons a l ih =>
    rw [List.pairwise_cons] at hl
    show insertSorted le a (sortBy le l) = _
    rw [ih hl.2]
    cases l with
    | nil => rfl
    | cons b l => unfold insertSorted; rw [if_pos (hl.1 b (by simp))]

theorem sortBy_eq_nil {α : Type} (le : α → α → Bool) (l : List α) : sortBy le l = [] ↔ l = [] := by
  constructor
  · intro h
    have := (sortBy_perm le l).length_eq
    rw [h] at this
    exact List.length_eq_zero_iff.1 this.symm
  · rintro rfl; rfl

theorem strLe_refl (s : Str) : strLe s s = true := by
  induction s with
  | nil => rfl
  | cons a s ih => simp [strLe, ih]

theorem strLe_total (s t : Str) : strLe s t = true ∨ strLe t s = true := by
  induction s generalizing t with
  | nil => left; rfl
  | cons a s ih =>
    cases t with
    | nil => right; rfl
    | cons b t =>
      unfold strLe
      by_cases h : a = b
      · subst h; simpa using ih t
      · have h' : b ≠ a := fun x => h x.symm
        simp only [h, h', if_false, decide_eq_true_eq]
        have : a.toNat ≠ b.toNat := fun x => h (Char.toNat_inj.1 x)
        omega

theorem strLe_trans (s t u : Str) : strLe s t = true → strLe t u = true → strLe s u = true := by
  induction s generalizing t u with
  | nil => intros; rfl
  | cons a s ih =>
    cases t with
    | nil => intro h; cases h
    | cons b t =>
      cases u with
      | nil => intro _ h; cases h
      | cons c u =>
        unfold strLe
        by_cases h1 : a = b
        · subst h1
          by_cases h2 : a = c
          · subst h2; simpa using ih t u
          · simp [h2]
        · by_cases h2 : b = c
          · subst h2; simp only [h1, if_false, if_true]; intro h _; exact h
          · simp only [h1, h2, if_false, decide_eq_true_eq]
            intro x y
            have : a ≠ c := by rintro rfl; omega
            simp only [this, if_false, decide_eq_true_eq]
            omega

theorem strLe_antisymm (s t : Str) : strLe s t = true → strLe t s = true → s = t := by
  induction s generalizing t with
  | nil => cases t with
    | nil => intros; rfl
    | cons => intro _ h; cases h
  | cons a s ih =>
    cases t with
    | nil => intro h; cases h
    | cons b t =>
      unfold strLe
      by_cases h : a = b
      · subst h
        simp only [if_true, List.cons.injEq, true_and]
        exact ih t
      · have h' : b ≠ a := fun x => h x.symm
        simp only [h, h', if_false, decide_eq_true_eq]
        intro x y; omega

theorem groupBy_head {α κ : Type} [DecidableEq κ] (key : α → κ) (a : α) (l : List α) :
    ∃ g gs, groupBy key (a :: l) = (key a, g) :: gs := by
  unfold groupBy
  split
  · exact ⟨_, _, rfl⟩
  · next k g gs h =>
    split
    · next hk => exact ⟨_, _, by rw [hk]⟩
    · exact ⟨_, _, rfl⟩

theorem groupBy_eq_nil {α κ : Type} [DecidableEq κ] (key : α → κ) (l : List α) :
    groupBy key l = [] ↔ l = [] := by
  cases l with
  | nil => simp [groupBy]
  | cons a l =>
    obtain ⟨g, gs, h⟩ := groupBy_head key a l
    rw [h]; simp

/-- For a list sorted by the key, the groups are the elements with each key, in order, each key
occurring once. -/
theorem groupBy_sorted {α : Type} (key : α → Str) (l : List α)
    (hl : l.Pairwise (fun a b => strLe (key a) (key b) = true)) :
    (groupBy key l).Pairwise (fun p q => strLe p.1 q.1 = true ∧ p.1 ≠ q.1) ∧
    (∀ k g, (k, g) ∈ groupBy key l ↔ (g ≠ [] ∧ g = l.filter (fun a => decide (key a = k)))) := by
  induction l with
  | nil =>
    refine ⟨.nil, ?_⟩
    intro k g
    simp [groupBy]
  | cons a l ih =>
    rw [List.pairwise_cons] at hl
    obtain ⟨ih1, ih2⟩ := ih hl.2
    cases l with
    | nil =>
      refine ⟨by simp [groupBy], ?_⟩
      intro k g
      simp only [groupBy, List.mem_singleton, Prod.mk.injEq]
      by_cases h : key a = k
      · subst h
        simp only [List.filter_cons, decide_true, if_true, List.filter_nil]
        exact ⟨fun h => ⟨by rw [h.2]; simp, h.2⟩, fun h => ⟨trivial, h.2⟩⟩
      · have h' : k ≠ key a := fun x => h x.symm
        simp [h, h']
    | cons b l =>
      obtain ⟨g0, gs, hg⟩ := groupBy_head key b l
      have hab : strLe (key a) (key b) = true := hl.1 b (by simp)
      rw [hg] at ih1 ih2
      have e : groupBy key (a :: b :: l) =
          if key a = key b then (key b, a :: g0) :: gs else (key a, [a]) :: (key b, g0) :: gs := by
        rw [groupBy.eq_2, hg]
      have hkeys : ∀ p ∈ gs, p.1 ≠ key b := by
        intro p hp
        exact fun h => ((List.pairwise_cons.1 ih1).1 p hp).2 h.symm
      by_cases h : key a = key b
      · rw [e, if_pos h]
        constructor
        · rw [List.pairwise_cons] at ih1 ⊢
          exact ih1
        · intro k g
          by_cases hk : k = key b
          · subst hk
            have hgb : ∀ g, (key b, g) ∈ (key b, g0) :: gs → g = g0 := by
              intro g hm
              rcases List.mem_cons.1 hm with hm | hm
              · exact (Prod.mk.injEq _ _ _ _ ▸ hm).2
              · exact absurd rfl (hkeys _ hm)
            have h0 := (ih2 (key b) g0).1 (by simp)
            have hf : (a :: b :: l).filter (fun x => decide (key x = key b)) =
                a :: (b :: l).filter (fun x => decide (key x = key b)) := by
              rw [List.filter_cons_of_pos (by simp [h])]
            rw [hf, ← h0.2]
            constructor
            · intro hm
              rcases List.mem_cons.1 hm with hm | hm
              · have := (Prod.mk.injEq _ _ _ _ ▸ hm).2
                exact ⟨by rw [this]; simp, this⟩
              · exact absurd rfl (hkeys _ hm)
            · rintro ⟨_, rfl⟩; simp
          · have hka : key a ≠ k := fun x => hk (x ▸ h)
            have hf : (a :: b :: l).filter (fun x => decide (key x = k)) =
                (b :: l).filter (fun x => decide (key x = k)) := by
              rw [List.filter_cons_of_neg (by simp [hka])]
            rw [hf, ← ih2 k g]
            simp [hk]
      · rw [e, if_neg h]
        have hlt : ∀ p ∈ (key b, g0) :: gs, strLe (key a) p.1 = true ∧ key a ≠ p.1 := by
          intro p hp
          have hbp : strLe (key b) p.1 = true := by
            rcases List.mem_cons.1 hp with rfl | hp
            · exact strLe_refl _
            · exact ((List.pairwise_cons.1 ih1).1 p hp).1
          refine ⟨strLe_trans _ _ _ hab hbp, ?_⟩
          intro hx
          rw [← hx] at hbp
          exact h (strLe_antisymm _ _ hab hbp)
        constructor
        · rw [List.pairwise_cons]
          exact ⟨hlt, ih1⟩
        · intro k g
          by_cases hk : k = key a
          · subst hk
            have hnil : (b :: l).filter (fun x => decide (key x = key a)) = [] := by
              rw [List.filter_eq_nil_iff]
              intro x hx hxa
              have hxa : key x = key a := by simpa using hxa
              have := (ih2 (key x) ((b :: l).filter (fun y => decide (key y = key x)))).2
                ⟨List.ne_nil_of_mem (List.mem_filter.2 ⟨hx, by simp⟩), rfl⟩
              exact (hlt _ this).2 hxa.symm
            rw [List.filter_cons_of_pos (by simp), hnil]
            constructor
            · intro hm
              rcases List.mem_cons.1 hm with hm | hm
              · have := (Prod.mk.injEq _ _ _ _ ▸ hm).2
                exact ⟨by rw [this]; simp, this⟩
              · exact absurd rfl (hlt _ hm).2
            · rintro ⟨_, rfl⟩; simp
          · have hka : key a ≠ k := fun x => hk x.symm
            rw [List.filter_cons_of_neg (by simp [hka]), ← ih2 k g]
            simp [hk]

theorem get?_ofPairs_nodup {β : Type} (ps : List (Str × β)) (hnd : ps.Pairwise (fun p q => p.1 ≠ q.1)) (k : Str)
    (v : β) : (Dict.ofPairs ps).get? k = some v ↔ (k, v) ∈ ps := by
  have key : ∀ (d : Dict β), (∀ p ∈ ps, d.get? p.1 = none) → ∀ k v,
      ((ps.foldl (fun d p => Dict.set d p.1 p.2) d).get? k = some v ↔ d.get? k = some v ∨ (k, v) ∈ ps) := by
    induction ps with
    | nil => intro d _ k v; simp
    | cons p ps ih =>
      intro d hd k v
      rw [List.pairwise_cons] at hnd
      rw [List.foldl_cons, ih hnd.2]
      · by_cases hk : k = p.1
        · subst hk
          rw [Dict.get?_set_self, hd p (by simp)]
          have : (p.1, v) ∉ ps := fun h => hnd.1 _ h rfl
          simp only [this, or_false, List.mem_cons, Option.some.injEq, reduceCtorEq, false_or]
          constructor
          · rintro rfl; rfl
          · intro h; exact (congrArg Prod.snd h).symm
        · rw [Dict.get?_set_ne _ _ hk]
          have : ¬ ((k, v) = p) := fun h => hk (congrArg Prod.fst h)
          simp [this]
      · intro q hq
        rw [Dict.get?_set_ne _ _ (fun h => hnd.1 q hq h.symm)]
        exact hd q (by simp [hq])
  unfold Dict.ofPairs
  rw [key [] (by simp)]
  simp

/-- The dictionary of a list grouped by name after sorting by name. -/
theorem get?_sorted_groupBy {α : Type} (key : α → Str) (l : List α) (k : Str) :
    (Dict.ofPairs (groupBy key (sortBy (fun a b => strLe (key a) (key b)) l))).get? k =
      if l.filter (fun a => decide (key a = k)) = [] then none
      else some (l.filter (fun a => decide (key a = k))) := by
  have hs := sortBy_pairwise (fun a b => strLe (key a) (key b)) (fun a b => strLe_total _ _)
    (fun a b c => strLe_trans _ _ _) l
  have hf : (sortBy (fun a b => strLe (key a) (key b)) l).filter (fun a => decide (key a = k)) =
      l.filter (fun a => decide (key a = k)) := by
    apply sortBy_filter
    intro a b ha hb
    have ha : key a = k := by simpa using ha
    have hb : key b = k := by simpa using hb
    rw [ha, hb]; exact strLe_refl k
  obtain ⟨h1, h2⟩ := groupBy_sorted key _ hs
  have hget := get?_ofPairs_nodup _ (h1.imp (fun h => h.2)) k
  split
  · next hn =>
    cases hx : (Dict.ofPairs (groupBy key (sortBy (fun a b => strLe (key a) (key b)) l))).get? k with
    | none => rfl
    | some g =>
      have := (h2 k g).1 ((hget g).1 hx)
      rw [hf] at this
      exact absurd (this.2.trans hn) this.1
  · next hn =>
    rw [hget, h2, hf]
    exact ⟨hn, rfl⟩

end Verif
