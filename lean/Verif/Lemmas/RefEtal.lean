/-
Lemmas about mapping "et al" sub tags, and general ones about the groups of tags of a reference.
-/
import Verif.Lemmas.RefJoined
import Verif.Lemmas.ExtendTags

namespace Verif

theorem toInsideTag_eq {t : Option Str} (h : Spec.ProperTag t) : toInsideTag t = Spec.insideTag t := by
  rcases splitTagPrefix_cases t with ⟨v, rfl, h'⟩ | ⟨v, rfl, h'⟩ | ⟨h1, h2, h'⟩
  · have hv : v ≠ [] := properTag_value_ne h (stripTagPrefix_b v)
    unfold toInsideTag
    rw [h']
    simp only [if_pos]
    rw [addTagPrefix_of_truthy hv (by decide)]
    rfl
  · unfold toInsideTag
    rw [h']
    simp only []
    rw [if_neg (by decide)]
    rfl
  · unfold toInsideTag
    rw [h']
    simp only []
    rw [if_neg (by simp)]
    unfold Spec.insideTag
    split
    · next v => exact absurd rfl (h1 v)
    · rfl

theorem truthy_iff_ne_none {t : Option Str} (h : Spec.ProperTag t) : truthy t = true ↔ t ≠ none := by
  rw [truthy_properTag h, ne_eq, properTag_value_none]

theorem truthy_eq_false_iff {t : Option Str} (h : Spec.ProperTag t) : truthy t = false ↔ t = none := by
  have := truthy_iff_ne_none h
  cases ht : truthy t <;> simp_all

theorem tagValue_none_iff {t : Option Str} : Spec.tagValue t = none ↔ t = none := by
  rw [← stripTagPrefix_eq_tagValue]; exact properTag_value_none

/-- Two lists of the same length whose elements are related one by one. -/
def Pw {α β : Type} (P : α → β → Prop) (l : List α) (l' : List β) : Prop :=
  l'.length = l.length ∧ ∀ (i : Nat) a b, l[i]? = some a → l'[i]? = some b → P a b

theorem Pw.nil {α β : Type} (P : α → β → Prop) : Pw P [] [] := ⟨rfl, by simp⟩

theorem Pw.append {α β : Type} {P : α → β → Prop} {a b : List α} {a' b' : List β} (h : Pw P a a') (h' : Pw P b b') :
    Pw P (a ++ b) (a' ++ b') := by
  refine ⟨by simp [h.1, h'.1], ?_⟩
  intro i x y hx hy
  rw [List.getElem?_append] at hx hy
  rw [h.1] at hy
  split at hx
  · next hi => rw [if_pos hi] at hy; exact h.2 i x y hx hy
  · next hi => rw [if_neg hi] at hy; exact h'.2 _ x y hx hy

theorem Pw.cons {α β : Type} {P : α → β → Prop} {a : α} {a' : β} {b : List α} {b' : List β} (h : P a a') (h' : Pw P b b') :
    Pw P (a :: b) (a' :: b') := by
  have : Pw P [a] [a'] := ⟨rfl, by
    intro i x y hx hy
    cases i with
    | zero => cases hx; cases hy; exact h
    | succ i => simp at hx⟩
  exact this.append h'

theorem Pw.refl {α : Type} {P : α → α → Prop} (l : List α) (h : ∀ a ∈ l, P a a) : Pw P l l := by
  refine ⟨rfl, ?_⟩
  intro i a b ha hb
  rw [ha] at hb
  cases hb
  exact h a (List.mem_of_getElem? ha)

theorem Pw.get {α β : Type} {P : α → β → Prop} {l : List α} {l' : List β} (h : Pw P l l') {i : Nat} {a : α} (ha : l[i]? = some a) :
    ∃ b, l'[i]? = some b ∧ P a b := by
  have hi := (List.getElem?_eq_some_iff.1 ha).1
  have : l'[i]? = some (l'[i]'(by rw [h.1]; exact hi)) := List.getElem?_eq_getElem _
  exact ⟨_, this, h.2 i a _ ha this⟩

theorem Pw.mono {α β : Type} {P Q : α → β → Prop} {l : List α} {l' : List β} (h : Pw P l l')
    (hq : ∀ a ∈ l, ∀ b ∈ l', P a b → Q a b) : Pw Q l l' :=
  ⟨h.1, fun i a b ha hb => hq a (List.mem_of_getElem? ha) b (List.mem_of_getElem? hb) (h.2 i a b ha hb)⟩

theorem pw_replicate {α β : Type} {P : α → β → Prop} (l : List α) (n : Nat) (hn : n = l.length) (b : β) (h : ∀ a ∈ l, P a b) :
    Pw P l (List.replicate n b) := by
  refine ⟨by simp [hn], ?_⟩
  intro i a b' ha hb
  rw [List.getElem?_replicate] at hb
  split at hb
  · cases hb; exact h a (List.mem_of_getElem? ha)
  · cases hb

theorem Pw.comp {α β γ : Type} {P : α → β → Prop} {Q : β → γ → Prop} {R : α → γ → Prop} {a : List α} {b : List β} {c : List γ}
    (h : Pw P a b) (h' : Pw Q b c) (hr : ∀ x y z, P x y → Q y z → R x z) : Pw R a c := by
  refine ⟨by rw [h'.1, h.1], ?_⟩
  intro i x z hx hz
  obtain ⟨y, hy, hp⟩ := h.get hx
  exact hr x y z hp (h'.2 i y z hy hz)

theorem part_append_mid {α : Type} (a b c : List α) (n m : Nat) (hn : n = a.length) (hm : m = b.length) :
    Spec.part (a ++ b ++ c) n m = b := by
  subst hn; subst hm
  unfold Spec.part
  rw [List.append_assoc, List.drop_left, List.take_left]

/-! ### Et al -/

/-- The tag remembered behind a group. -/
def etalNext (etal : Str) (merge : List Str) (prev : Option Str) (g : List (Option Str)) : Option Str :=
  if stripTagPrefix g.head?.join ≠ some etal ∨ truthy prev = false then
    (if stripTagPrefix g.head?.join ∈ merge.map some then g.head?.join else if truthy g.head?.join then none else prev)
  else prev

theorem etalNext_cons (etal : Str) (merge : List Str) (prev t : Option Str) (ts : List (Option Str)) :
    etalNext etal merge prev (t :: ts) =
      if Spec.tagValue t ≠ some etal ∨ truthy prev = false then
        (if Spec.tagValue t ∈ merge.map some then t else if truthy t then none else prev)
      else prev := by
  rw [← stripTagPrefix_eq_tagValue]; rfl

theorem etalLoop_group (etal : Str) (merge : List Str) (prev : Option Str) (g : List (Option Str)) (gs : List (List (Option Str))) :
    etalLoop etal merge prev (g :: gs) =
      (if stripTagPrefix g.head?.join ≠ some etal ∨ truthy prev = false then g
        else prev :: List.replicate (g.length - 1) (toInsideTag prev)) ++
      etalLoop etal merge (etalNext etal merge prev g) gs := by
  unfold etalNext
  have e : etalLoop etal merge prev (g :: gs) =
      if stripTagPrefix g.head?.join ≠ some etal ∨ truthy prev = false then
        g ++ etalLoop etal merge (if stripTagPrefix g.head?.join ∈ merge.map some then g.head?.join
          else if truthy g.head?.join then none else prev) gs
      else prev :: List.replicate (g.length - 1) (toInsideTag prev) ++ etalLoop etal merge prev gs := rfl
  rw [e]
  split <;> rfl

theorem etalLoop_cons (etal : Str) (merge : List Str) (prev t : Option Str) (ts : List (Option Str)) (gs : List (List (Option Str))) :
    etalLoop etal merge prev ((t :: ts) :: gs) =
      (if Spec.tagValue t ≠ some etal ∨ truthy prev = false then t :: ts
        else prev :: List.replicate ts.length (toInsideTag prev)) ++
      etalLoop etal merge (etalNext etal merge prev (t :: ts)) gs := by
  rw [etalLoop_group, ← stripTagPrefix_eq_tagValue]
  rfl

theorem etalLoop_append (etal : Str) (merge : List Str) (a b : List (List (Option Str))) (prev : Option Str) :
    etalLoop etal merge prev (a ++ b) = etalLoop etal merge prev a ++ etalLoop etal merge (a.foldl (etalNext etal merge) prev) b := by
  induction a generalizing prev with
  | nil => rfl
  | cons g gs ih =>
    rw [List.cons_append, etalLoop_group, etalLoop_group, List.foldl_cons, ih, List.append_assoc]

/-- One by one: another tag than "et al" is kept; "et al" is kept, or replaced by a tag to be merged
(begin or inside). -/
def EtalRel (etal : Str) (merge : List Str) (t t' : Option Str) : Prop :=
  t' = t ∨ (Spec.tagValue t = some etal ∧ ∃ v, v ∈ merge ∧ Spec.tagValue t' = some v ∧ Spec.ProperTag t')

/-- Groups of proper tags of one value each. -/
def TagGroups (gs : List (List (Option Str))) : Prop :=
  ∀ g ∈ gs, g ≠ [] ∧ ∃ v, ∀ t ∈ g, Spec.tagValue t = v ∧ Spec.ProperTag t

theorem TagGroups.cons {g : List (Option Str)} {gs : List (List (Option Str))} (h : TagGroups (g :: gs)) :
    (∃ t ts v, g = t :: ts ∧ ∀ x ∈ g, Spec.tagValue x = v ∧ Spec.ProperTag x) ∧ TagGroups gs := by
  refine ⟨?_, fun x hx => h x (List.mem_cons_of_mem _ hx)⟩
  obtain ⟨h1, v, h2⟩ := h g (by simp)
  cases g with
  | nil => exact absurd rfl h1
  | cons t ts => exact ⟨t, ts, v, rfl, h2⟩

theorem tagGroups_groupBy (tags : List (Option Str)) (hp : ∀ t ∈ tags, Spec.ProperTag t) :
    TagGroups ((groupBy stripTagPrefix tags).map (·.2)) := by
  intro g hg
  obtain ⟨kg, hkg, rfl⟩ := List.mem_map.1 hg
  have := groupBy_uniform stripTagPrefix tags kg hkg
  refine ⟨this.1, kg.1, fun t ht => ?_⟩
  have h2 := this.2 t ht
  rw [stripTagPrefix_eq_tagValue] at h2
  exact ⟨h2.1, hp t h2.2⟩

theorem etalLoop_rel (etal : Str) (merge : List Str) (gs : List (List (Option Str))) (hg : TagGroups gs) (prev : Option Str)
    (hprev : truthy prev = true → (∃ v, v ∈ merge ∧ Spec.tagValue prev = some v) ∧ Spec.ProperTag prev) :
    Pw (EtalRel etal merge) gs.flatten (etalLoop etal merge prev gs) := by
  induction gs generalizing prev with
  | nil => exact Pw.nil _
  | cons g gs ih =>
    obtain ⟨⟨t, ts, v, rfl, hv⟩, hgs⟩ := hg.cons
    have htv := hv t (by simp)
    rw [List.flatten_cons, etalLoop_cons, etalNext_cons]
    by_cases h : Spec.tagValue t ≠ some etal ∨ truthy prev = false
    · rw [if_pos h, if_pos h]
      refine Pw.append (Pw.refl _ fun a _ => .inl rfl) (ih hgs _ ?_)
      intro htr
      split at htr
      · next hm =>
        rw [if_pos hm]
        obtain ⟨v', hv', e⟩ := List.mem_map.1 hm
        exact ⟨⟨v', hv', e.symm⟩, htv.2⟩
      · next hm =>
        rw [if_neg hm]
        split at htr
        · cases htr
        · next ht => rw [if_neg ht]; exact hprev htr
    · rw [if_neg h, if_neg h]
      have h1 : Spec.tagValue t = some etal := Classical.byContradiction fun hc => h (.inl hc)
      have h2 : truthy prev = true := by
        cases hp : truthy prev with
        | true => rfl
        | false => exact absurd (.inr hp) h
      obtain ⟨⟨w, hw, hwv⟩, hpp⟩ := hprev h2
      refine Pw.append ?_ (ih hgs _ hprev)
      refine Pw.cons (.inr ⟨h1, w, hw, hwv, hpp⟩) ?_
      refine pw_replicate _ _ rfl _ ?_
      intro a ha
      have hav := hv a (List.mem_cons_of_mem _ ha)
      refine .inr ⟨by rw [hav.1, ← htv.1, h1], w, hw, ?_, ?_⟩
      · have := toInsideTag_spec hpp
        rw [← stripTagPrefix_eq_tagValue, this.1, stripTagPrefix_eq_tagValue, hwv]
      · exact (toInsideTag_spec hpp).2

theorem etalMapped_rel (etal : Str) (merge : List Str) (tags : List (Option Str)) (hp : ∀ t ∈ tags, Spec.ProperTag t) :
    Pw (EtalRel etal merge) tags (etalMapped etal merge tags) := by
  have := etalLoop_rel etal merge _ (tagGroups_groupBy tags hp) none (by simp [truthy])
  rw [groupBy_flatten] at this
  exact this

/-- Groups which do not change what is remembered: untagged ones and "et al". -/
def Passive (etal : Str) (t : Option Str) : Prop := t = none ∨ Spec.tagValue t = some etal

theorem etalNext_passive (etal : Str) (merge : List Str) (gs : List (List (Option Str))) (hg : TagGroups gs)
    (hpas : ∀ g ∈ gs, ∀ t ∈ g, Passive etal t) (prev : Option Str) (hprev : truthy prev = true) :
    gs.foldl (etalNext etal merge) prev = prev := by
  induction gs with
  | nil => rfl
  | cons g gs ih =>
    obtain ⟨⟨t, ts, v, rfl, hv⟩, hgs⟩ := hg.cons
    have hn : etalNext etal merge prev (t :: ts) = prev := by
      rw [etalNext_cons]
      rcases hpas (t :: ts) (by simp) t (by simp) with h | h
      · subst h
        split
        · rw [if_neg (by simp [Spec.tagValue]), if_neg (by simp [truthy])]
        · rfl
      · rw [if_neg (by simp [h, hprev])]
    rw [List.foldl_cons, hn]
    exact ih hgs (fun g hg => hpas g (List.mem_cons_of_mem _ hg))

/-- What is remembered: a tag from before, with passive groups only since, or the first tag of a group to be
merged, with passive groups only since. -/
theorem etalNext_cases (etal : Str) (merge : List Str) (gs : List (List (Option Str))) (hg : TagGroups gs) (prev : Option Str)
    (h : truthy (gs.foldl (etalNext etal merge) prev) = true) :
    (∀ g ∈ gs, ∀ t ∈ g, Passive etal t) ∧ truthy prev = true ∨
    ∃ gs1 g gs2 v, gs = gs1 ++ g :: gs2 ∧ (∀ t ∈ g, Spec.tagValue t = some v) ∧ g ≠ [] ∧ v ∈ merge ∧
      (∀ g ∈ gs2, ∀ t ∈ g, Passive etal t) := by
  induction gs generalizing prev with
  | nil => exact .inl ⟨by simp, h⟩
  | cons g gs ih =>
    obtain ⟨⟨t, ts, v, rfl, hv⟩, hgs⟩ := hg.cons
    have htv := hv t (by simp)
    rw [List.foldl_cons] at h
    rcases ih hgs _ h with ⟨hpas, htr⟩ | ⟨gs1, g', gs2, w, he, h1, h2, h3, h4⟩
    · rw [etalNext_cons] at htr
      split at htr
      · split at htr
        · next hm =>
          obtain ⟨w, hw, e⟩ := List.mem_map.1 hm
          refine .inr ⟨[], t :: ts, gs, w, rfl, ?_, by simp, hw, hpas⟩
          intro x hx
          rw [(hv x hx).1, ← htv.1, e]
        · split at htr
          · cases htr
          · next ht =>
            refine .inl ⟨?_, htr⟩
            intro g hg x hx
            rcases List.mem_cons.1 hg with rfl | hg
            · left
              have e : t = none := (truthy_eq_false_iff htv.2).1 (by simpa using ht)
              subst e
              have := (hv x hx).1
              rw [← htv.1] at this
              exact tagValue_none_iff.1 this
            · exact hpas g hg x hx
      · next hc =>
        rw [not_or] at hc
        refine .inl ⟨?_, htr⟩
        intro g hg x hx
        rcases List.mem_cons.1 hg with rfl | hg
        · right
          rw [(hv x hx).1, ← htv.1]
          exact Classical.byContradiction hc.1
        · exact hpas g hg x hx
    · exact .inr ⟨(t :: ts) :: gs1, g', gs2, w, by rw [he]; rfl, h1, h2, h3, h4⟩

theorem groupBy_maximal {v : Option Str} {a r b : List (Option Str)} (h : Spec.MaximalRun v a r b) :
    (groupBy stripTagPrefix (a ++ r ++ b)).map (·.2) =
      (groupBy stripTagPrefix a).map (·.2) ++ r :: (groupBy stripTagPrefix b).map (·.2) := by
  rw [groupBy_append, groupBy_append, List.map_append, List.map_append, groupBy_single _ v r h.nonempty]
  · simp
  · intro x hx; rw [stripTagPrefix_eq_tagValue]; exact h.value x hx
  · intro x y hx hy
    rw [stripTagPrefix_eq_tagValue, stripTagPrefix_eq_tagValue, h.value y (List.mem_of_mem_head? hy)]
    exact h.left x hx
  · intro x y hx hy
    rw [List.getLast?_append] at hx
    rw [List.getLast?_eq_some_getLast h.nonempty, Option.some_or] at hx
    cases hx
    rw [stripTagPrefix_eq_tagValue, stripTagPrefix_eq_tagValue, h.value _ (List.getLast_mem h.nonempty)]
    exact fun e => h.right y hy e.symm

/-- What is remembered behind a run of tags to be merged. -/
theorem etalNext_accepted {etal : Str} {merge : List Str} {r : List (Option Str)} {v : Str} {t : Option Str} (ht : r.head? = some t)
    (hv : Spec.tagValue t = some v) (hm : v ∈ merge) (hne : v ≠ etal) (prev : Option Str) : etalNext etal merge prev r = t := by
  unfold etalNext
  rw [ht, Option.join_some, stripTagPrefix_eq_tagValue, hv]
  rw [if_pos (.inl (by simpa using hne)), if_pos (List.mem_map.2 ⟨v, hm, rfl⟩)]

end Verif
