/-
Lemmas about runs of text with a sub label which are read back.
-/
import Verif.Spec.SubReadBack
import Verif.Lemmas.TokenCover

namespace Verif
open Spec

/-- What is read back from the first part does not depend on what follows. -/
theorem subsReadBack_append (cc : CharClass) (mapping : Dict Str) (xs : List (Option Tok)) :
    ∀ (prev : List Str) (sub : Option Str) (begun : List (Option Str)),
    ∃ out prev' sub' begun', ∀ zs, subsReadBack cc mapping prev sub begun (xs ++ zs) =
      out ++ subsReadBack cc mapping prev' sub' begun' zs := by
  induction xs with
  | nil => intro prev sub begun; exact ⟨[], prev, sub, begun, fun _ => rfl⟩
  | cons x xs ih =>
    intro prev sub begun
    cases x with
    | none =>
      obtain ⟨o, p, s, b, h⟩ := ih prev none begun
      exact ⟨o, p, s, b, fun zs => by rw [List.cons_append, subsReadBack, h]⟩
    | some t =>
      cases hb : blank cc t with
      | true =>
        obtain ⟨o, p, s, b, h⟩ := ih prev sub (if beginsEntity t then tagValue (fullTag t) :: begun else begun)
        exact ⟨o, p, s, b, fun zs => by rw [List.cons_append, subsReadBack, if_pos hb, h]⟩
      | false =>
        obtain ⟨o, p, s, b, h⟩ := ih (tokenPath mapping t)
          (if (tokenPath mapping t).length ≤ (mainPath mapping t).length then none
            else if startsElement mapping prev begun t then some (joinWith c!"/" (tokenPath mapping t))
            else if tokenPath mapping t = prev then sub
            else none) []
        refine ⟨(t.text.filter (fun c => !cc.isSpace c)).map (fun c => (c,
          if (tokenPath mapping t).length ≤ (mainPath mapping t).length then none
            else if startsElement mapping prev begun t then some (joinWith c!"/" (tokenPath mapping t))
            else if tokenPath mapping t = prev then sub
            else none)) ++ o, p, s, b, fun zs => ?_⟩
        rw [List.cons_append, subsReadBack, if_neg (by rw [hb]; decide)]
        simp only []
        rw [h, ← List.append_assoc]

/-- Text with the same path, which is below the main path, and which begins with the begin prefix: all of it is read back
with the path. -/
theorem subsReadBack_run (cc : CharClass) (mapping : Dict Str) (path : List Str) (zs : List (Option Tok)) (mid : List Tok) :
    ∀ (prev : List Str) (sub : Option Str) (begun : List (Option Str)),
    (∀ t ∈ mid, blank cc t = false → tokenPath mapping t = path ∧ (mainPath mapping t).length < path.length) →
    ((prev = path ∧ sub = some (joinWith c!"/" path)) ∨
      ∀ t, (mid.filter (fun t => !blank cc t)).head? = some t → beginsSub t = true) →
    ∃ prev' sub' begun', subsReadBack cc mapping prev sub begun (mid.map some ++ zs) =
      mid.flatMap (fun t => (t.text.filter (fun c => !cc.isSpace c)).map (fun c => (c, some (joinWith c!"/" path)))) ++
        subsReadBack cc mapping prev' sub' begun' zs := by
  induction mid with
  | nil => intro prev sub begun _ _; exact ⟨prev, sub, begun, rfl⟩
  | cons t mid ih =>
    intro prev sub begun hp hs
    have hp' : ∀ u ∈ mid, blank cc u = false → tokenPath mapping u = path ∧ (mainPath mapping u).length < path.length :=
      fun u hu => hp u (List.mem_cons_of_mem _ hu)
    cases hb : blank cc t with
    | true =>
      obtain ⟨p, s, b, h⟩ := ih prev sub (if beginsEntity t then tagValue (fullTag t) :: begun else begun) hp' (by
        rcases hs with hs | hs
        · exact .inl hs
        · refine .inr fun u hu => hs u ?_
          rw [List.filter_cons, hb]
          exact hu)
      refine ⟨p, s, b, ?_⟩
      have h0 : t.text.filter (fun c => !cc.isSpace c) = [] := by
        rw [List.filter_eq_nil_iff]
        intro c hc
        rw [List.all_eq_true.1 hb c hc]
        simp
      rw [List.map_cons, List.cons_append, subsReadBack, if_pos hb, h, List.flatMap_cons, h0]
      rfl
    | false =>
      obtain ⟨h1, h2⟩ := hp t List.mem_cons_self hb
      obtain ⟨p, s, b, h⟩ := ih path (some (joinWith c!"/" path)) [] hp' (.inl ⟨rfl, rfl⟩)
      refine ⟨p, s, b, ?_⟩
      rw [List.map_cons, List.cons_append, subsReadBack, if_neg (by rw [hb]; decide), List.flatMap_cons]
      simp only []
      have hsub : (if (tokenPath mapping t).length ≤ (mainPath mapping t).length then none
            else if startsElement mapping prev begun t then some (joinWith c!"/" (tokenPath mapping t))
            else if tokenPath mapping t = prev then sub
            else none) = some (joinWith c!"/" path) := by
        rw [if_neg (by rw [h1]; omega), h1]
        rcases hs with ⟨rfl, rfl⟩ | hs
        · split
          · rfl
          · rw [if_pos rfl]
        · rw [if_pos]
          refine .inr (.inl (hs t ?_))
          rw [List.filter_cons, hb]
          rfl
      rw [hsub, h1, h, List.append_assoc]

theorem withBreaks_split {ls : List (List Tok)} {l : List Tok} (h : l ∈ ls) :
    ∃ xs ys, withBreaks ls = xs ++ (l.map some ++ ys) := by
  induction ls with
  | nil => cases h
  | cons m ls ih =>
    rcases List.mem_cons.1 h with rfl | h
    · cases ls with
      | nil => exact ⟨[], [], by simp [withBreaks]⟩
      | cons k ls => exact ⟨[], none :: withBreaks (k :: ls), by simp [withBreaks]⟩
    · obtain ⟨xs, ys, e⟩ := ih h
      cases ls with
      | nil => cases h
      | cons k ls => exact ⟨m.map some ++ none :: xs, ys, by rw [withBreaks, e]; simp⟩

/-- A run of text on one line, which has the path and begins with the begin prefix, is read back with the path. -/
theorem subsReadBack_infix (cc : CharClass) (mapping : Dict Str) (path : List Str) (ls : List (List Tok)) (a mid b : List Tok)
    (hl : a ++ mid ++ b ∈ ls)
    (hp : ∀ t ∈ mid, blank cc t = false → tokenPath mapping t = path ∧ (mainPath mapping t).length < path.length)
    (hs : ∀ t, (mid.filter (fun t => !blank cc t)).head? = some t → beginsSub t = true) :
    mid.flatMap (fun t => (t.text.filter (fun c => !cc.isSpace c)).map (fun c => (c, some (joinWith c!"/" path)))) <:+:
      subsReadBack cc mapping [] none [] (withBreaks ls) := by
  obtain ⟨xs, ys, e⟩ := withBreaks_split hl
  have e2 : withBreaks ls = (xs ++ a.map some) ++ (mid.map some ++ (b.map some ++ ys)) := by
    rw [e]; simp
  obtain ⟨o, p, s, g, h⟩ := subsReadBack_append cc mapping (xs ++ a.map some) [] none []
  obtain ⟨p', s', g', h'⟩ := subsReadBack_run cc mapping path (b.map some ++ ys) mid p s g hp (.inr hs)
  rw [e2, h, h']
  exact ⟨o, _, by rw [List.append_assoc]⟩

/-! ### Neighbouring tokens -/

theorem filter_prefix {α : Type} (p : α → Bool) (l : List α) (h : l.Pairwise (fun x y => p y = true → p x = true)) :
    l.filter p <+: l := by
  induction l with
  | nil => exact List.prefix_refl _
  | cons x l ih =>
    obtain ⟨h1, h2⟩ := List.pairwise_cons.1 h
    cases hx : p x with
    | true =>
      rw [List.filter_cons, if_pos hx]
      exact List.cons_prefix_cons.2 ⟨rfl, ih h2⟩
    | false =>
      have : (x :: l).filter p = [] := by
        rw [List.filter_eq_nil_iff]
        intro y hy hpy
        rcases List.mem_cons.1 hy with rfl | hy
        · rw [hx] at hpy; cases hpy
        · rw [h1 y hy hpy] at hx; cases hx
      rw [this]
      exact List.nil_prefix

theorem filter_suffix {α : Type} (p : α → Bool) (l : List α) (h : l.Pairwise (fun x y => p x = true → p y = true)) :
    l.filter p <:+ l := by
  induction l with
  | nil => exact List.suffix_refl _
  | cons x l ih =>
    obtain ⟨h1, h2⟩ := List.pairwise_cons.1 h
    cases hx : p x with
    | true =>
      have : (x :: l).filter p = x :: l := by
        rw [List.filter_eq_self]
        intro y hy
        rcases List.mem_cons.1 hy with rfl | hy
        · exact hx
        · exact h1 y hy hx
      rw [this]
      exact List.suffix_refl _
    | false =>
      rw [List.filter_cons, if_neg (by rw [hx]; decide)]
      exact (ih h2).trans (List.suffix_cons _ _)

theorem laidOut_mono {text : Str} {items gaps : List Str} {ranges : List (Nat × Nat)} (h : LaidOut text items gaps ranges) :
    ∀ (n i : Nat) r r', ranges[i]? = some r → ranges[i + n]? = some r' → r.1 ≤ r'.1 ∧ r.2 ≤ r'.2 := by
  intro n
  induction n with
  | zero =>
    intro i r r' h1 h2
    rw [Nat.add_zero, h1] at h2
    cases h2
    exact ⟨Nat.le_refl _, Nat.le_refl _⟩
  | succ n ih =>
    intro i r r' h1 h2
    have hi := (List.getElem?_eq_some_iff.1 h2).1
    obtain ⟨q, hq⟩ : ∃ q, ranges[i + n]? = some q := ⟨_, List.getElem?_eq_getElem (by omega)⟩
    obtain ⟨a, b⟩ := ih i r q h1 hq
    obtain ⟨g, _, hg, _⟩ := h.gap (i + n) q r' hq h2
    have hlen := h.length
    obtain ⟨s, hs⟩ : ∃ s, items[i + n]? = some s := ⟨_, List.getElem?_eq_getElem (by omega)⟩
    obtain ⟨s', hs'⟩ : ∃ s, items[i + (n + 1)]? = some s := ⟨_, List.getElem?_eq_getElem (by omega)⟩
    have := (h.item _ _ _ hs hq).1
    have := (h.item _ _ _ hs' h2).1
    omega

/-- The tokens which overlap a part of the text are neighbours. -/
theorem overlapping_infix {α : Type} {text : Str} {items gaps : List Str} {ranges : List (Nat × Nat)} (h : LaidOut text items gaps ranges)
    (ts : List α) (a b : Int) :
    (ts.zip ranges).filter (fun x => overlaps a b x.2) <:+: ts.zip ranges := by
  have hm : (ts.zip ranges).Pairwise (fun x y => x.2.1 ≤ y.2.1 ∧ x.2.2 ≤ y.2.2) := by
    rw [List.pairwise_iff_getElem]
    intro i j hi hj hij
    obtain ⟨n, rfl⟩ : ∃ n, j = i + n := ⟨j - i, by omega⟩
    rw [List.length_zip] at hi hj
    refine laidOut_mono h n i _ _ ?_ ?_
    · rw [List.getElem_zip]
      exact List.getElem?_eq_getElem (by omega)
    · rw [List.getElem_zip]
      exact List.getElem?_eq_getElem (by omega)
  have e : (ts.zip ranges).filter (fun x => overlaps a b x.2) =
      ((ts.zip ranges).filter (fun x => decide (a < (x.2.2 : Int)))).filter (fun x => decide ((x.2.1 : Int) < b)) := by
    rw [List.filter_filter]
    rfl
  rw [e]
  have h2 := filter_suffix (fun x : α × (Nat × Nat) => decide (a < (x.2.2 : Int))) (ts.zip ranges) (by
    refine hm.imp ?_
    intro x y hxy hx
    rw [decide_eq_true_eq] at hx ⊢
    omega)
  refine (filter_prefix _ _ ?_).isInfix.trans h2.isInfix
  refine (hm.sublist List.filter_sublist).imp ?_
  intro x y hxy hx
  rw [decide_eq_true_eq] at hx ⊢
  omega

theorem infix_filter_zip {α β : Type} {l : List α} {m : List β} (hlen : m.length = l.length) {p : α × β → Bool}
    (h : (l.zip m).filter p <:+: l.zip m) : ((l.zip m).filter p).map Prod.fst <:+: l := by
  have := h.map Prod.fst
  rwa [List.map_fst_zip (by omega)] at this

/-- Neighbours which are in one part of a list without duplicates are neighbours there. -/
theorem infix_of_part {α : Type} [DecidableEq α] {x l y s : List α} (hnd : (x ++ l ++ y).Nodup) (h : s <:+: x ++ l ++ y)
    (hs : ∀ i ∈ s, i ∈ l) : s <:+: l := by
  have h1 := h.filter (fun i => decide (i ∈ l))
  have e1 : s.filter (fun i => decide (i ∈ l)) = s := by
    rw [List.filter_eq_self]
    intro i hi
    rw [decide_eq_true_eq]
    exact hs i hi
  obtain ⟨hxl, hy, hd⟩ := List.nodup_append.1 hnd
  obtain ⟨hx, hl, hd'⟩ := List.nodup_append.1 hxl
  have e2 : (x ++ l ++ y).filter (fun i => decide (i ∈ l)) = l := by
    rw [List.filter_append, List.filter_append]
    have a1 : x.filter (fun i => decide (i ∈ l)) = [] := by
      rw [List.filter_eq_nil_iff]
      intro i hi hil
      rw [decide_eq_true_eq] at hil
      exact hd' i hi i hil rfl
    have a2 : l.filter (fun i => decide (i ∈ l)) = l := by
      rw [List.filter_eq_self]
      intro i hi
      rw [decide_eq_true_eq]
      exact hi
    have a3 : y.filter (fun i => decide (i ∈ l)) = [] := by
      rw [List.filter_eq_nil_iff]
      intro i hi hil
      rw [decide_eq_true_eq] at hil
      exact hd i (List.mem_append_right _ hil) i hi rfl
    rw [a1, a2, a3, List.nil_append, List.append_nil]
  rw [e1, e2] at h1
  exact h1

theorem infix_of_filter {α : Type} {p : α → Bool} {l s : List α} (h : s <:+: l.filter p) :
    ∃ a m b, l = a ++ m ++ b ∧ m.filter p = s := by
  obtain ⟨u, v, e⟩ := h
  obtain ⟨l1, b, rfl, h1, h2⟩ := List.filter_eq_append_iff.1 e.symm
  obtain ⟨a, m, rfl, h3, h4⟩ := List.filter_eq_append_iff.1 h1
  exact ⟨a, m, b, rfl, h4⟩

/-! ### Characters of lower case letters -/

theorem laidOut_map {text : Str} {items gaps : List Str} {ranges : List (Nat × Nat)} (f : Char → Char)
    (h : LaidOut text items gaps ranges) :
    LaidOut (text.map f) (items.map (List.map f)) (gaps.map (List.map f)) ranges := by
  have hsl : ∀ i n, slice (text.map f) i n = (slice text i n).map f := by
    intro i n
    unfold slice
    rw [List.map_take, List.map_drop]
  refine ⟨by rw [h.length, List.length_map], ?_, h.first, ?_, by rw [h.last, List.length_map]⟩
  · intro i s r hi hr
    rw [List.getElem?_map, Option.map_eq_some_iff] at hi
    obtain ⟨s, hs, rfl⟩ := hi
    obtain ⟨h1, h2⟩ := h.item i s r hs hr
    rw [List.length_map, hsl, h2]
    exact ⟨h1, rfl⟩
  · intro i r r' hi hr
    obtain ⟨g, h1, h2, h3⟩ := h.gap i r r' hi hr
    exact ⟨g.map f, by rw [List.getElem?_map, h1]; rfl, by rw [List.length_map]; exact h2, by rw [List.length_map, hsl, h3]⟩

end Verif
