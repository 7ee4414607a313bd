/-
Lemmas about extending tags to whole lines.
-/
import Verif.Spec.SimpleMatching
import Verif.Lemmas.PyList
import Verif.Lemmas.MatchingUtils

namespace Verif

theorem stripTagPrefix_eq_tagValue (t : Option Str) : stripTagPrefix t = Spec.tagValue t := by
  rcases splitTagPrefix_cases t with ⟨v, rfl, h⟩ | ⟨v, rfl, h⟩ | ⟨h1, h2, h⟩
  · rw [stripTagPrefix, h]; rfl
  · rw [stripTagPrefix, h]; rfl
  · rw [stripTagPrefix, h]
    unfold Spec.tagValue
    split
    · next v => exact absurd rfl (h1 v)
    · next v => exact absurd rfl (h2 v)
    · rfl

theorem properTag_none : Spec.ProperTag none := by intro s h; cases h

theorem properTag_b {v : Str} (hv : v ≠ []) : Spec.ProperTag (some (bPrefix ++ v)) := by
  intro s h
  cases h
  exact ⟨by simp [bPrefix], by rw [← stripTagPrefix_eq_tagValue, stripTagPrefix_b]; simpa using hv⟩

theorem properTag_i {v : Str} (hv : v ≠ []) : Spec.ProperTag (some (iPrefix ++ v)) := by
  intro s h
  cases h
  exact ⟨by simp [iPrefix], by rw [← stripTagPrefix_eq_tagValue, stripTagPrefix_i]; simpa using hv⟩

theorem properTag_value_none {t : Option Str} : stripTagPrefix t = none ↔ t = none := by
  constructor
  · intro h
    rcases splitTagPrefix_cases t with ⟨v, rfl, h'⟩ | ⟨v, rfl, h'⟩ | ⟨_, _, h'⟩
    · rw [stripTagPrefix, h'] at h; cases h
    · rw [stripTagPrefix, h'] at h; cases h
    · rw [stripTagPrefix, h'] at h; exact h
  · rintro rfl; rfl

theorem properTag_value_ne {t : Option Str} (h : Spec.ProperTag t) {v : Str} (hv : stripTagPrefix t = some v) : v ≠ [] := by
  rintro rfl
  cases t with
  | none => cases hv
  | some s => exact (h s rfl).2 (by rw [← stripTagPrefix_eq_tagValue]; exact hv)

theorem truthy_properTag {t : Option Str} (h : Spec.ProperTag t) : truthy t = true ↔ stripTagPrefix t ≠ none := by
  rw [ne_eq, properTag_value_none]
  cases t with
  | none => simp
  | some s => simp [truthy_some, (h s rfl).1]

theorem toInsideTag_spec {t : Option Str} (h : Spec.ProperTag t) :
    stripTagPrefix (toInsideTag t) = stripTagPrefix t ∧ Spec.ProperTag (toInsideTag t) := by
  rcases splitTagPrefix_cases t with ⟨v, rfl, h'⟩ | ⟨v, rfl, h'⟩ | ⟨_, _, h'⟩
  · have hv : v ≠ [] := properTag_value_ne h (stripTagPrefix_b v)
    unfold toInsideTag
    rw [h']
    simp only [if_pos]
    rw [addTagPrefix_of_truthy hv (by decide), stripTagPrefix_i, stripTagPrefix_b]
    exact ⟨rfl, properTag_i hv⟩
  · unfold toInsideTag
    rw [h']
    simp only []
    rw [if_neg (by decide)]
    exact ⟨rfl, h⟩
  · unfold toInsideTag
    rw [h']
    simp only []
    rw [if_neg (by simp)]
    exact ⟨rfl, h⟩

theorem toBeginInsideTags_spec {t : Option Str} (h : Spec.ProperTag t) (n : Nat) :
    (toBeginInsideTags t n).map stripTagPrefix = List.replicate n (stripTagPrefix t) := by
  cases n with
  | zero => rfl
  | succ n =>
    unfold toBeginInsideTags
    rcases splitTagPrefix_cases t with ⟨v, rfl, h'⟩ | ⟨v, rfl, h'⟩ | ⟨_, _, h'⟩
    · have hv : v ≠ [] := properTag_value_ne h (stripTagPrefix_b v)
      rw [h']
      simp only []
      rw [if_neg (by decide), addTagPrefix_of_truthy hv (by decide), addTagPrefix_of_truthy hv (by decide)]
      simp [List.replicate_succ]
    · have hv : v ≠ [] := properTag_value_ne h (stripTagPrefix_i v)
      rw [h']
      simp only []
      rw [if_neg (by decide), addTagPrefix_of_truthy hv (by decide), addTagPrefix_of_truthy hv (by decide)]
      simp [List.replicate_succ]
    · rw [h']
      simp

/-- A nonempty group of tags with the same value. -/
structure Uni (v : Option Str) (g : List (Option Str)) : Prop where
  ne : g ≠ []
  all : ∀ t ∈ g, stripTagPrefix t = v ∧ Spec.ProperTag t

theorem Uni.map {v : Option Str} {g : List (Option Str)} (h : Uni v g) : g.map stripTagPrefix = List.replicate g.length v := by
  rw [List.eq_replicate_iff]
  refine ⟨by simp, ?_⟩
  intro x hx
  obtain ⟨t, ht, rfl⟩ := List.mem_map.1 hx
  exact (h.all t ht).1

theorem uni_mergedTags {v : Option Str} {g : List (Option Str)} (h : Uni v g) :
    Uni v (mergedTags g) ∧ (mergedTags g).length = g.length := by
  cases g with
  | nil => exact absurd rfl h.ne
  | cons t ts =>
    have ht := h.all t (by simp)
    unfold mergedTags
    simp only []
    have hi (w : Str) (hw : stripTagPrefix t = some w) :
        Uni v (t :: List.replicate ts.length (addTagPrefix (some w) (some iPrefix))) ∧
        (t :: List.replicate ts.length (addTagPrefix (some w) (some iPrefix))).length = (t :: ts).length := by
      have hwn := properTag_value_ne ht.2 hw
      refine ⟨⟨by simp, ?_⟩, by simp⟩
      intro x hx
      rcases List.mem_cons.1 hx with rfl | hx
      · exact ht
      · rw [(List.mem_replicate.1 hx).2, addTagPrefix_of_truthy hwn (by decide), stripTagPrefix_i, ← hw]
        exact ⟨ht.1, properTag_i hwn⟩
    rcases splitTagPrefix_cases t with ⟨w, rfl, h'⟩ | ⟨w, rfl, h'⟩ | ⟨_, _, h'⟩
    · rw [h']
      simp only []
      rw [if_neg (by decide)]
      exact hi w (stripTagPrefix_b w)
    · rw [h']
      simp only []
      rw [if_neg (by decide)]
      exact hi w (stripTagPrefix_i w)
    · rw [h']
      simp only []
      rw [if_pos (by decide)]
      exact ⟨h, rfl⟩

theorem uni_insideHead {v : Option Str} {g : List (Option Str)} (h : Uni v g) :
    Uni v (insideHead g) ∧ (insideHead g).length = g.length := by
  cases g with
  | nil => exact absurd rfl h.ne
  | cons t ts =>
    have ht := h.all t (by simp)
    have := toInsideTag_spec ht.2
    refine ⟨⟨by simp [insideHead], ?_⟩, by simp [insideHead]⟩
    intro x hx
    rcases List.mem_cons.1 hx with rfl | hx
    · exact ⟨this.1.trans ht.1, this.2⟩
    · exact h.all x (List.mem_cons_of_mem _ hx)

theorem Uni.head {v : Option Str} {g : List (Option Str)} (h : Uni v g) :
    stripTagPrefix g.head?.join = v ∧ Spec.ProperTag g.head?.join := by
  cases g with
  | nil => exact absurd rfl h.ne
  | cons t ts => exact h.all t (by simp)

theorem Uni.last {v : Option Str} {g : List (Option Str)} (h : Uni v g) :
    stripTagPrefix g.getLast?.join = v ∧ Spec.ProperTag g.getLast?.join := by
  rw [List.getLast?_eq_some_getLast h.ne]
  exact h.all _ (List.getLast_mem h.ne)

/-- The value given to a gap of `n` untagged tokens. -/
def fillV (cfg : ExtendCfg) (prev next : Option (Option Str × Nat)) (n : Nat) : Option Str :=
  match prev, next with
  | some (l, _), some (r, _) => if l = r ∧ enabledFor cfg.mergeMap cfg.defaultMerge l = true then l else none
  | some (l, a), none => if enabledFor cfg.extendMap cfg.defaultExtend l = true ∧ n < a then l else none
  | none, some (r, b) => if enabledFor cfg.extendMap cfg.defaultExtend r = true ∧ n < b then r else none
  | none, none => none

/-- The values given to groups of tokens with the same value. -/
def valLoop (cfg : ExtendCfg) (prev : Option (Option Str × Nat)) : List (Option Str × Nat) → List (Option Str)
  | [] => []
  | (v, n) :: gs =>
    List.replicate n (if v = none then fillV cfg prev gs.head? n else v) ++ valLoop cfg (some (v, n)) gs

/-- Value and length of a group. -/
def summary (g : List (Option Str)) : Option Str × Nat := (stripTagPrefix g.head?.join, g.length)

theorem Uni.summary {v : Option Str} {g : List (Option Str)} (h : Uni v g) : summary g = (v, g.length) := by
  rw [Verif.summary, h.head.1]

theorem extendLoop_values (cfg : ExtendCfg) (groups : List (List (Option Str))) (prev : Option (List (Option Str)))
    (ch : Bool) (hp : ∀ p, prev = some p → ∃ v, Uni v p) (hg : ∀ g ∈ groups, ∃ v, Uni v g) :
    (extendLoop cfg prev ch groups).map stripTagPrefix = valLoop cfg (prev.map summary) (groups.map summary) := by
  induction groups generalizing prev ch with
  | nil => rfl
  | cons g0 gs ih =>
    obtain ⟨v, hv0⟩ := hg g0 (by simp)
    have hgs : ∀ g ∈ gs, ∃ v, Uni v g := fun g h => hg g (List.mem_cons_of_mem _ h)
    generalize hgdef : (if ch = true then insideHead g0 else g0) = g
    have hv : Uni v g ∧ g.length = g0.length := by
      rw [← hgdef]
      split
      · exact uni_insideHead hv0
      · exact ⟨hv0, rfl⟩
    have ih' (b : Bool) : (extendLoop cfg (some g) b gs).map stripTagPrefix =
        valLoop cfg (some (v, g0.length)) (gs.map summary) := by
      rw [ih (some g) b (by rintro p h; cases h; exact ⟨v, hv.1⟩) hgs, Option.map_some, hv.1.summary, hv.2]
    unfold extendLoop
    simp only []
    rw [hgdef, List.map_cons, hv0.summary, valLoop, List.head?_map]
    have hkeep : (g ++ extendLoop cfg (some g) false gs).map stripTagPrefix =
        List.replicate g0.length v ++ valLoop cfg (some (v, g0.length)) (gs.map summary) := by
      rw [List.map_append, hv.1.map, ih', hv.2]
    by_cases htr : truthy g.head?.join = true
    · rw [if_pos htr, hkeep, if_neg]
      have := (truthy_properTag hv.1.head.2).1 htr
      rwa [hv.1.head.1] at this
    · rw [if_neg htr]
      have hvn : v = none := by
        have := mt (truthy_properTag hv.1.head.2).2 htr
        rw [hv.1.head.1] at this
        exact Classical.byContradiction this
      rw [if_pos hvn]
      rw [hvn] at hkeep ih'
      have hinside (p : List (Option Str)) (w : Option Str) (hw : Uni w p) (b : Bool) :
          (List.replicate g.length (toInsideTag p.getLast?.join) ++ extendLoop cfg (some g) b gs).map stripTagPrefix =
          List.replicate g0.length w ++ valLoop cfg (some (none, g0.length)) (gs.map summary) := by
        rw [List.map_append, List.map_replicate, ih', (toInsideTag_spec hw.last.2).1, hw.last.1, hv.2]
      rw [hvn]
      cases hprev : prev with
      | none =>
        cases hnext : gs.head? with
        | none => simp only [Option.map_none, fillV]; exact hkeep
        | some n =>
          obtain ⟨w, hw⟩ := hgs n (List.mem_of_head? hnext)
          have hfn : ((some n).bind List.head?).join = n.head?.join := rfl
          simp only [Option.map_none, Option.map_some, fillV, hw.summary, hfn, hw.head.1, hv.2]
          cases enabledFor cfg.extendMap cfg.defaultExtend w with
          | false => simp only [Bool.not_false, if_true, Bool.false_eq_true, false_and, if_false]; exact hkeep
          | true =>
            simp only [Bool.not_true, Bool.false_eq_true, if_false, true_and]
            split
            · rw [List.map_append, toBeginInsideTags_spec hw.head.2, hw.head.1, ih']
            · exact hkeep
      | some p =>
        obtain ⟨u, hu⟩ := hp p hprev
        have hlp : ((some p).bind List.getLast?).join = p.getLast?.join := rfl
        cases hnext : gs.head? with
        | none =>
          simp only [Option.map_none, Option.map_some, fillV, hu.summary, hlp, hu.last.1, hv.2]
          cases enabledFor cfg.extendMap cfg.defaultExtend u with
          | false => simp only [Bool.not_false, if_true, Bool.false_eq_true, false_and, if_false]; exact hkeep
          | true =>
            simp only [Bool.not_true, Bool.false_eq_true, if_false, true_and]
            split
            · have := hinside p u hu false
              rw [hv.2] at this
              exact this
            · exact hkeep
        | some n =>
          obtain ⟨w, hw⟩ := hgs n (List.mem_of_head? hnext)
          have hfn : ((some n).bind List.head?).join = n.head?.join := rfl
          simp only [Option.map_some, fillV, hu.summary, hw.summary, hlp, hu.last.1, hfn, hw.head.1, hv.2]
          split
          · have := hinside p u hu true
            rw [hv.2] at this
            exact this
          · exact hkeep

theorem groupBy_uniform {α κ : Type} [DecidableEq κ] (key : α → κ) (l : List α) :
    ∀ kg ∈ groupBy key l, kg.2 ≠ [] ∧ ∀ x ∈ kg.2, key x = kg.1 ∧ x ∈ l := by
  induction l with
  | nil => intro kg h; cases h
  | cons a l ih =>
    intro kg h
    rw [groupBy] at h
    cases hg : groupBy key l with
    | nil =>
      rw [hg] at h
      simp only [List.mem_singleton] at h
      subst h
      exact ⟨by simp, by simp⟩
    | cons x gs =>
      obtain ⟨k, g⟩ := x
      rw [hg] at h ih
      simp only [] at h
      have up : ∀ kg ∈ (k, g) :: gs, kg.2 ≠ [] ∧ ∀ x ∈ kg.2, key x = kg.1 ∧ x ∈ a :: l := fun kg h =>
        ⟨(ih kg h).1, fun x hx => ⟨((ih kg h).2 x hx).1, List.mem_cons_of_mem _ ((ih kg h).2 x hx).2⟩⟩
      split at h
      · next hk =>
        rcases List.mem_cons.1 h with rfl | h
        · refine ⟨by simp, ?_⟩
          intro x hx
          rcases List.mem_cons.1 hx with rfl | hx
          · exact ⟨hk, by simp⟩
          · exact (up (k, g) (by simp)).2 x hx
        · exact up kg (List.mem_cons_of_mem _ h)
      · rcases List.mem_cons.1 h with rfl | h
        · exact ⟨by simp, by simp⟩
        · exact up kg h

theorem groupBy_flatten {α κ : Type} [DecidableEq κ] (key : α → κ) (l : List α) :
    ((groupBy key l).map Prod.snd).flatten = l := by
  induction l with
  | nil => rfl
  | cons a l ih =>
    rw [groupBy]
    cases hg : groupBy key l with
    | nil =>
      have := (groupBy_eq_nil key l).1 hg
      subst this
      rfl
    | cons x gs =>
      obtain ⟨k, g⟩ := x
      rw [hg] at ih
      simp only []
      split
      · simpa using ih
      · simpa using ih

/-- The runs of equal values of a list. -/
def runs (vs : List (Option Str)) : List (Option Str × Nat) := (groupBy id vs).map (fun kg => (kg.1, kg.2.length))

theorem groupBy_map {α κ : Type} [DecidableEq κ] (key : α → κ) (l : List α) :
    (groupBy key l).map (fun kg => (kg.1, kg.2.length)) = (groupBy id (l.map key)).map (fun kg => (kg.1, kg.2.length)) := by
  induction l with
  | nil => rfl
  | cons a l ih =>
    rw [List.map_cons, groupBy, groupBy]
    cases hg : groupBy key l with
    | nil =>
      have := (groupBy_eq_nil key l).1 hg
      subst this
      rfl
    | cons x gs =>
      obtain ⟨k, g⟩ := x
      rw [hg] at ih
      cases hg' : groupBy id (l.map key) with
      | nil => rw [hg'] at ih; cases ih
      | cons y gs' =>
        obtain ⟨k', g'⟩ := y
        rw [hg'] at ih
        simp only [List.map_cons, List.cons.injEq, Prod.mk.injEq] at ih
        obtain ⟨⟨rfl, h2⟩, h3⟩ := ih
        simp only [id]
        split
        · simp [h2, h3]
        · simp [h2, h3]

theorem extended_values (cfg : ExtendCfg) (tags : List (Option Str)) (hp : ∀ t ∈ tags, Spec.ProperTag t) :
    (extendedLineTags cfg tags).map stripTagPrefix = valLoop cfg none (runs (tags.map stripTagPrefix)) := by
  unfold extendedLineTags
  simp only []
  have hu : ∀ kg ∈ groupBy stripTagPrefix tags, Uni kg.1 kg.2 := by
    intro kg h
    have := groupBy_uniform stripTagPrefix tags kg h
    exact ⟨this.1, fun t ht => ⟨(this.2 t ht).1, hp t (this.2 t ht).2⟩⟩
  rw [extendLoop_values cfg _ none false (by simp) ?_]
  · rw [List.map_map, Option.map_none, runs, ← groupBy_map]
    congr 1
    apply List.map_congr_left
    intro kg h
    have hk := hu kg h
    simp only [Function.comp]
    split
    · have := uni_mergedTags hk
      rw [this.1.summary, this.2]
    · rw [hk.summary]
  · intro g hg
    obtain ⟨kg, hkg, rfl⟩ := List.mem_map.1 hg
    have hk := hu kg hkg
    split
    · exact ⟨_, (uni_mergedTags hk).1⟩
    · exact ⟨_, hk⟩

theorem valLoop_append (cfg : ExtendCfg) (a b : List (Option Str × Nat)) (prev : Option (Option Str × Nat)) :
    ∃ x, valLoop cfg prev (a ++ b) = x ++ valLoop cfg (if a = [] then prev else a.getLast?) b ∧
      x.length = (a.map Prod.snd).sum := by
  induction a generalizing prev with
  | nil => exact ⟨[], rfl, rfl⟩
  | cons g a ih =>
    obtain ⟨v, n⟩ := g
    obtain ⟨x, h1, h2⟩ := ih (some (v, n))
    refine ⟨List.replicate n (if v = none then fillV cfg prev (a ++ b).head? n else v) ++ x, ?_, ?_⟩
    · rw [List.cons_append, valLoop, h1]
      cases a with
      | nil => simp
      | cons y a => simp
    · rw [List.length_append, h2]
      simp

theorem valLoop_length (cfg : ExtendCfg) (gs : List (Option Str × Nat)) (prev : Option (Option Str × Nat)) :
    (valLoop cfg prev gs).length = (gs.map Prod.snd).sum := by
  induction gs generalizing prev with
  | nil => rfl
  | cons g gs ih => obtain ⟨v, n⟩ := g; simp [valLoop, ih]

theorem runs_length (vs : List (Option Str)) : ((runs vs).map Prod.snd).sum = vs.length := by
  have h := congrArg List.length (groupBy_flatten id vs)
  rw [List.length_flatten, List.map_map] at h
  rw [runs, List.map_map]
  exact h

theorem runs_flatten (vs : List (Option Str)) : (runs vs).flatMap (fun g => List.replicate g.2 g.1) = vs := by
  have h := groupBy_flatten id vs
  rw [runs, List.flatMap_map]
  conv => rhs; rw [← h]
  rw [← List.flatMap_def]
  have : ∀ kg ∈ groupBy id vs, List.replicate kg.2.length kg.1 = kg.2 := by
    intro kg hkg
    have := (groupBy_uniform id vs kg hkg).2
    symm
    rw [List.eq_replicate_iff]
    exact ⟨rfl, fun x hx => (this x hx).1⟩
  generalize groupBy id vs = gs at this
  induction gs with
  | nil => rfl
  | cons g gs ih =>
    rw [List.flatMap_cons, List.flatMap_cons, this g (by simp), ih (fun kg h => this kg (by simp [h]))]

/-- Tagged tokens keep their values. -/
theorem valLoop_keeps (cfg : ExtendCfg) (gs : List (Option Str × Nat)) (prev : Option (Option Str × Nat)) (i : Nat) (v : Str)
    (h : (gs.flatMap (fun g => List.replicate g.2 g.1))[i]? = some (some v)) : (valLoop cfg prev gs)[i]? = some (some v) := by
  induction gs generalizing prev i with
  | nil => simp at h
  | cons g gs ih =>
    obtain ⟨w, n⟩ := g
    rw [valLoop]
    rw [List.flatMap_cons] at h
    rw [List.getElem?_append] at h ⊢
    simp only [List.length_replicate] at h ⊢
    split at h
    · next hi =>
      rw [if_pos hi, List.getElem?_replicate, if_pos hi]
      rw [List.getElem?_replicate, if_pos hi] at h
      cases h
      simp
    · next hi =>
      rw [if_neg hi]
      exact ih _ _ h

theorem valLoop_mem (cfg : ExtendCfg) (gs : List (Option Str × Nat)) (prev : Option (Option Str × Nat)) (v : Str)
    (h : some v ∈ valLoop cfg prev gs) : (∃ n, prev = some (some v, n)) ∨ ∃ n, (some v, n) ∈ gs := by
  induction gs generalizing prev with
  | nil => cases h
  | cons g gs ih =>
    obtain ⟨w, n⟩ := g
    rw [valLoop] at h
    rcases List.mem_append.1 h with h | h
    · have h := (List.mem_replicate.1 h).2
      split at h
      · next hw =>
        unfold fillV at h
        split at h
        · split at h
          · exact .inl ⟨_, by rw [h]⟩
          · cases h
        · split at h
          · exact .inl ⟨_, by rw [h]⟩
          · cases h
        · next hn _ _ =>
          split at h
          · exact .inr ⟨_, List.mem_cons_of_mem _ (h ▸ List.mem_of_head? hn)⟩
          · cases h
        · cases h
      · exact .inr ⟨n, by rw [h]; exact List.mem_cons_self⟩
    · rcases ih _ h with ⟨m, e⟩ | ⟨m, e⟩
      · cases e
        exact .inr ⟨n, List.mem_cons_self⟩
      · exact .inr ⟨m, List.mem_cons_of_mem _ e⟩

theorem groupBy_append {α κ : Type} [DecidableEq κ] (key : α → κ) (a b : List α)
    (h : ∀ x y, a.getLast? = some x → b.head? = some y → key x ≠ key y) :
    groupBy key (a ++ b) = groupBy key a ++ groupBy key b := by
  induction a with
  | nil => rfl
  | cons x a ih =>
    rw [List.cons_append, groupBy]
    cases a with
    | nil =>
      rw [List.nil_append]
      cases b with
      | nil => rfl
      | cons y b =>
        obtain ⟨g, gs, hg⟩ := groupBy_head key y b
        rw [hg]
        simp only []
        rw [if_neg (h x y rfl rfl)]
        rfl
    | cons z a =>
      rw [ih (fun x y hx hy => h x y (by rw [List.getLast?_cons_cons]; exact hx) hy)]
      conv => rhs; rw [groupBy]
      obtain ⟨g, gs, hg⟩ := groupBy_head key z a
      rw [hg]
      simp only [List.cons_append]
      split <;> rfl

theorem runs_append (a b : List (Option Str)) (h : ∀ x y, a.getLast? = some x → b.head? = some y → x ≠ y) :
    runs (a ++ b) = runs a ++ runs b := by
  unfold runs
  rw [groupBy_append id a b h, List.map_append]

theorem runs_replicate (v : Option Str) (n : Nat) (hn : 0 < n) : runs (List.replicate n v) = [(v, n)] := by
  unfold runs
  rw [groupBy_single id v _ (by intro h; have := congrArg List.length h; simp at this; omega)
    (fun x hx => (List.mem_replicate.1 hx).2)]
  simp

theorem runs_getLast (a : List (Option Str)) (v : Option Str) (h : a.getLast? = some v) :
    ∃ n, (runs a).getLast? = some (v, n) := by
  have hf := groupBy_flatten id a
  have hne : groupBy id a ≠ [] := by
    rw [ne_eq, groupBy_eq_nil]; rintro rfl; cases h
  have hl := List.getLast_mem hne
  have hu := groupBy_uniform id a _ hl
  refine ⟨((groupBy id a).getLast hne).2.length, ?_⟩
  rw [runs, List.getLast?_map, List.getLast?_eq_some_getLast hne]
  simp only [Option.map_some, Option.some.injEq, Prod.mk.injEq, and_true]
  rw [← List.dropLast_concat_getLast hne, List.map_append, List.flatten_append] at hf
  simp only [List.map_cons, List.map_nil, List.flatten_cons, List.flatten_nil, List.append_nil] at hf
  have h2 := List.getLast_mem hu.1
  have h3 := (hu.2 _ h2).1
  rw [← hf, List.getLast?_append, List.getLast?_eq_some_getLast hu.1] at h
  cases h
  exact h3.symm

theorem runs_head (a : List (Option Str)) (v : Option Str) (h : a.head? = some v) : ∃ n, (runs a).head? = some (v, n) := by
  cases a with
  | nil => cases h
  | cons x a =>
    cases h
    obtain ⟨g, gs, hg⟩ := groupBy_head id v a
    exact ⟨g.length, by rw [runs, hg]; rfl⟩

end Verif
