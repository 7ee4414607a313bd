/-
Lemmas about extending sub tags of a reference to the tokens before and behind them.
-/
import Verif.Lemmas.RefEtal

namespace Verif

/-- Groups of tokens with proper tags of one value each. -/
def RefGroups (gs : List (List RefTok)) : Prop :=
  ∀ g ∈ gs, g ≠ [] ∧ ∃ v, ∀ x ∈ g, Spec.tagValue x.1 = v ∧ Spec.ProperTag x.1

theorem RefGroups.cons {g : List RefTok} {gs : List (List RefTok)} (h : RefGroups (g :: gs)) :
    (∃ x xs v, g = x :: xs ∧ ∀ y ∈ g, Spec.tagValue y.1 = v ∧ Spec.ProperTag y.1) ∧ RefGroups gs := by
  refine ⟨?_, fun x hx => h x (List.mem_cons_of_mem _ hx)⟩
  obtain ⟨h1, v, h2⟩ := h g (by simp)
  cases g with
  | nil => exact absurd rfl h1
  | cons t ts => exact ⟨t, ts, v, rfl, h2⟩

theorem refGroups_groupBy (toks : List RefTok) (hp : ∀ x ∈ toks, Spec.ProperTag x.1) :
    RefGroups ((groupBy (fun t : RefTok => stripTagPrefix t.1) toks).map (·.2)) := by
  intro g hg
  obtain ⟨kg, hkg, rfl⟩ := List.mem_map.1 hg
  have := groupBy_uniform (fun t : RefTok => stripTagPrefix t.1) toks kg hkg
  refine ⟨this.1, kg.1, fun t ht => ?_⟩
  have h2 := this.2 t ht
  rw [stripTagPrefix_eq_tagValue] at h2
  exact ⟨h2.1, hp t h2.2⟩

theorem groupBy_maximal_toks {v : Option Str} {a r b : List RefTok} (h : Spec.MaximalRun v (a.map (·.1)) (r.map (·.1)) (b.map (·.1))) :
    (groupBy (fun t : RefTok => stripTagPrefix t.1) (a ++ r ++ b)).map (·.2) =
      (groupBy (fun t : RefTok => stripTagPrefix t.1) a).map (·.2) ++ r ::
        (groupBy (fun t : RefTok => stripTagPrefix t.1) b).map (·.2) := by
  have hne : r ≠ [] := fun e => h.nonempty (by rw [e]; rfl)
  have hval : ∀ x ∈ r, Spec.tagValue x.1 = v := fun x hx => h.value x.1 (List.mem_map_of_mem hx)
  rw [groupBy_append, groupBy_append, List.map_append, List.map_append, groupBy_single _ v r hne]
  · simp
  · intro x hx; rw [stripTagPrefix_eq_tagValue]; exact hval x hx
  · intro x y hx hy
    rw [stripTagPrefix_eq_tagValue, stripTagPrefix_eq_tagValue, hval y (List.mem_of_mem_head? hy)]
    exact h.left x.1 (by rw [List.getLast?_map, hx]; rfl)
  · intro x y hx hy
    rw [List.getLast?_append] at hx
    rw [List.getLast?_eq_some_getLast hne, Option.some_or] at hx
    cases hx
    rw [stripTagPrefix_eq_tagValue, stripTagPrefix_eq_tagValue, hval _ (List.getLast_mem hne)]
    exact fun e => h.right y.1 (by rw [List.head?_map, hy]; rfl) e.symm

/-! ### Suffix -/

/-- The new tags of a group, given the group before. -/
def suffixGroup (enabled : List Str) (prev : Option (List RefTok)) (g : List RefTok) : List (Option Str) :=
  let tags := g.map (·.1)
  if truthy tags.head?.join then tags
  else match stripTagPrefix (firstRefTag prev) with
    | none => tags
    | some v =>
      if v ∉ enabled then tags
      else if (refJoined g).1.head? ≠ some '.' then tags
      else if (itemsBetween 0 1 (refJoined g).2).length = 0 then tags
      else List.replicate (itemsBetween 0 1 (refJoined g).2).length (toInsideTag (firstRefTag prev)) ++
        List.replicate (tags.length - (itemsBetween 0 1 (refJoined g).2).length) none

theorem suffixLoop_cons (enabled : List Str) (prev : Option (List RefTok)) (g : List RefTok) (gs : List (List RefTok)) :
    suffixLoop enabled prev (g :: gs) = suffixGroup enabled prev g ++ suffixLoop enabled (some g) gs := by
  rw [suffixLoop, suffixGroup]
  simp only []
  split
  · rfl
  · cases stripTagPrefix (firstRefTag prev) with
    | none => rfl
    | some v =>
      simp only []
      split
      · rfl
      · split
        · rfl
        · split <;> rfl

theorem suffixLoop_append (enabled : List Str) (a b : List (List RefTok)) (prev : Option (List RefTok)) :
    suffixLoop enabled prev (a ++ b) = suffixLoop enabled prev a ++ suffixLoop enabled (a.getLast?.or prev) b := by
  induction a generalizing prev with
  | nil => rfl
  | cons g gs ih =>
    rw [List.cons_append, suffixLoop_cons, suffixLoop_cons, ih, List.append_assoc]
    congr 3
    cases gs with
    | nil => rfl
    | cons h gs => rw [List.getLast?_cons_cons, List.getLast?_eq_some_getLast (by simp)]; rfl

/-- The new tags of an untagged group behind a group with tag `t`. -/
theorem suffixGroup_gap (enabled : List Str) (prev : Option (List RefTok)) (u : RefTok) (us : List RefTok) (hu : u.1 = none)
    (hus : ∀ x ∈ us, x.1 = none) (ht : u.2.1 ≠ []) (hpp : Spec.ProperTag (firstRefTag prev)) :
    suffixGroup enabled prev (u :: us) =
      (if ∃ v ∈ enabled, Spec.tagValue (firstRefTag prev) = some v ∧ u.2.1.head? = some '.' then
        Spec.insideTag (firstRefTag prev) else none) :: List.replicate us.length none := by
  obtain ⟨h1, h2⟩ := refJoined_first (l := us) ht
  have hkeep : (u :: us).map (·.1) = none :: List.replicate us.length none := by
    rw [List.map_cons, hu]
    congr 1
    rw [List.eq_replicate_iff]
    refine ⟨by simp, ?_⟩
    intro t ht
    obtain ⟨x, hx, rfl⟩ := List.mem_map.1 ht
    exact hus x hx
  unfold suffixGroup
  simp only []
  rw [h1, h2, if_neg (by rw [hkeep]; simp [truthy])]
  cases hv : stripTagPrefix (firstRefTag prev) with
  | none =>
    simp only []
    rw [hkeep, if_neg]
    rintro ⟨v, _, h, _⟩
    rw [stripTagPrefix_eq_tagValue, h] at hv
    cases hv
  | some v =>
    simp only []
    rw [stripTagPrefix_eq_tagValue] at hv
    by_cases hm : v ∈ enabled
    · rw [if_neg (by simpa using hm)]
      by_cases hd : u.2.1.head? = some '.'
      · rw [if_neg (by simpa using hd), if_neg (by simp), if_pos ⟨v, hm, hv, hd⟩, toInsideTag_eq hpp]
        simp
      · rw [if_pos hd, hkeep, if_neg]
        rintro ⟨_, _, _, h⟩
        exact hd h
    · rw [if_pos hm, hkeep, if_neg]
      rintro ⟨w, hw, h, _⟩
      rw [hv] at h
      cases h
      exact hm hw

/-- A tagged group is kept. -/
theorem suffixGroup_tagged (enabled : List Str) (prev : Option (List RefTok)) (x : RefTok) (xs : List RefTok)
    (hx : truthy x.1 = true) : suffixGroup enabled prev (x :: xs) = (x :: xs).map (·.1) := by
  unfold suffixGroup
  simp only []
  rw [if_pos (by simpa using hx)]

/-- One by one: the tag is kept, or the token was untagged and gets one of the enabled values. -/
def ExtRel (enabled : List Str) (x : RefTok) (t : Option Str) : Prop :=
  t = x.1 ∨ (x.1 = none ∧ ∃ v, v ∈ enabled ∧ Spec.tagValue t = some v ∧ Spec.ProperTag t)

theorem insideTag_spec {t : Option Str} (h : Spec.ProperTag t) :
    Spec.tagValue (Spec.insideTag t) = Spec.tagValue t ∧ Spec.ProperTag (Spec.insideTag t) := by
  rw [← toInsideTag_eq h, ← stripTagPrefix_eq_tagValue, ← stripTagPrefix_eq_tagValue]
  exact toInsideTag_spec h

theorem suffixGroup_rel (enabled : List Str) (prev : Option (List RefTok)) (g : List RefTok) (hne : g ≠ []) (v : Option Str)
    (hv : ∀ y ∈ g, Spec.tagValue y.1 = v ∧ Spec.ProperTag y.1) (ht : ∀ y ∈ g, y.2.1 ≠ [])
    (hpp : Spec.ProperTag (firstRefTag prev)) : Pw (ExtRel enabled) g (suffixGroup enabled prev g) := by
  cases g with
  | nil => exact absurd rfl hne
  | cons x xs =>
    by_cases hx : truthy x.1 = true
    · rw [suffixGroup_tagged _ _ _ _ hx]
      refine ⟨by simp, ?_⟩
      intro i a b ha hb
      rw [List.getElem?_map, ha] at hb
      cases hb
      exact .inl rfl
    · have hx0 := hv x (by simp)
      have hxn : x.1 = none := (truthy_eq_false_iff hx0.2).1 (by simpa using hx)
      have hn : ∀ y ∈ x :: xs, y.1 = none := by
        intro y hy
        have := (hv y hy).1
        rw [← hx0.1, hxn] at this
        exact tagValue_none_iff.1 this
      rw [suffixGroup_gap enabled prev x xs hxn (fun y hy => hn y (List.mem_cons_of_mem _ hy)) (ht x (by simp)) hpp]
      refine Pw.cons ?_ (pw_replicate _ _ rfl _ (fun y hy => .inl (hn y (List.mem_cons_of_mem _ hy)).symm))
      split
      · next h =>
        obtain ⟨w, hw, h1, _⟩ := h
        have := insideTag_spec hpp
        exact .inr ⟨hxn, w, hw, by rw [this.1, h1], this.2⟩
      · exact .inl hxn.symm

theorem properTag_firstRefTag {g : List RefTok} (h : ∀ x ∈ g, Spec.ProperTag x.1) : Spec.ProperTag (firstRefTag (some g)) := by
  cases g with
  | nil => exact properTag_none
  | cons x xs => exact h x (by simp)

theorem suffixLoop_rel (enabled : List Str) (gs : List (List RefTok)) (hg : RefGroups gs) (ht : ∀ g ∈ gs, ∀ y ∈ g, y.2.1 ≠ [])
    (prev : Option (List RefTok)) (hpp : Spec.ProperTag (firstRefTag prev)) :
    Pw (ExtRel enabled) gs.flatten (suffixLoop enabled prev gs) := by
  induction gs generalizing prev with
  | nil => exact Pw.nil _
  | cons g gs ih =>
    obtain ⟨⟨x, xs, v, he, hv⟩, hgs⟩ := hg.cons
    rw [List.flatten_cons, suffixLoop_cons]
    refine Pw.append (suffixGroup_rel enabled prev g (by rw [he]; simp) v hv (ht g (by simp)) hpp) ?_
    exact ih hgs (fun g hg => ht g (List.mem_cons_of_mem _ hg)) _ (properTag_firstRefTag (fun y hy => (hv y hy).2))

theorem mem_groups {toks : List RefTok} {g : List RefTok} (hg : g ∈ (groupBy (fun t : RefTok => stripTagPrefix t.1) toks).map (·.2))
    {y : RefTok} (hy : y ∈ g) : y ∈ toks := by
  have := List.mem_flatten.2 ⟨g, hg, hy⟩
  rwa [groupBy_flatten] at this

theorem suffixExtended_rel (enabled : List Str) (toks : List RefTok) (hp : ∀ x ∈ toks, Spec.ProperTag x.1) (ht : ∀ x ∈ toks, x.2.1 ≠ []) :
    Pw (ExtRel enabled) toks (suffixExtended enabled toks) := by
  have := suffixLoop_rel enabled _ (refGroups_groupBy toks hp) (fun g hg y hy => ht y (mem_groups hg hy)) none properTag_none
  rw [groupBy_flatten] at this
  exact this

/-! ### Prefix -/

/-- The number of tokens found in a group before a run with the tag `next`; an error if there is no
pattern. -/
def prefixCount (env : RefEnv) (regex : Dict Str) (enabled : List Str) (g : List RefTok) (next : Option Str) : Except Err Nat :=
  if truthy (g.map (·.1)).head?.join then .ok 0
  else match stripTagPrefix next with
    | none => .ok 0
    | some v =>
      if v ∉ enabled then .ok 0
      else match regex.get? v with
        | none => .error .keyError
        | some pattern =>
          match env.search pattern (refJoined g).1 with
          | none => .ok 0
          | some start => .ok (itemsBetween start (refJoined g).1.length (refJoined g).2).length

/-- The new tags of a group. -/
def prefixGroup (changed : Bool) (g : List RefTok) (next : Option Str) (n : Nat) : List (Option Str) :=
  let tags := if changed then insideHead (g.map (·.1)) else g.map (·.1)
  if n = 0 then tags else List.replicate (tags.length - n) none ++ next :: List.replicate (n - 1) (toInsideTag next)

theorem insideHead_head (l : List (Option Str)) (hp : ∀ t ∈ l, Spec.ProperTag t) :
    truthy (insideHead l).head?.join = truthy l.head?.join := by
  cases l with
  | nil => rfl
  | cons t l =>
    have ht := hp t (by simp)
    have h := toInsideTag_spec ht
    have h1 := truthy_properTag h.2
    rw [h.1, ← truthy_properTag ht] at h1
    show truthy (toInsideTag t) = truthy t
    cases h2 : truthy t <;> cases h3 : truthy (toInsideTag t) <;> simp_all

theorem insideHead_length (l : List (Option Str)) : (insideHead l).length = l.length := by
  cases l <;> rfl

theorem prefixLoop_cons (env : RefEnv) (regex : Dict Str) (enabled : List Str) (changed : Bool) (g : List RefTok) (gs : List (List RefTok))
    (hp : ∀ x ∈ g, Spec.ProperTag x.1) :
    prefixLoop env regex enabled changed (g :: gs) =
      match prefixCount env regex enabled g (firstRefTag gs.head?) with
      | .error e => .error e
      | .ok n => (prefixLoop env regex enabled (decide (n ≠ 0)) gs).map
          (prefixGroup changed g (firstRefTag gs.head?) n ++ ·) := by
  rw [prefixLoop, prefixCount]
  have ht : truthy (if changed = true then insideHead (g.map (·.1)) else g.map (·.1)).head?.join = truthy (g.map (·.1)).head?.join := by
    split
    · apply insideHead_head
      intro t ht
      obtain ⟨x, hx, rfl⟩ := List.mem_map.1 ht
      exact hp x hx
    · rfl
  simp only [ht]
  split
  · simp [prefixGroup]
  · cases stripTagPrefix (firstRefTag gs.head?) with
    | none => simp [prefixGroup]
    | some v =>
      simp only []
      split
      · simp [prefixGroup]
      · cases regex.get? v with
        | none => simp
        | some pattern =>
          simp only []
          cases env.search pattern (refJoined g).1 with
          | none => simp [prefixGroup]
          | some start =>
            simp only []
            split
            · next h => simp [prefixGroup, h]
            · next h =>
              have hd : decide ((itemsBetween start (refJoined g).1.length (refJoined g).2).length ≠ 0) = true := decide_eq_true h
              simp only [hd]
              unfold prefixGroup
              simp only [if_neg h]

/-- One by one, before the group behind is known to be changed. -/
def PreRel (enabled : List Str) (x : RefTok) (t : Option Str) : Prop :=
  t = x.1 ∨ t = Spec.insideTag x.1 ∨ (x.1 = none ∧ ∃ v, v ∈ enabled ∧ Spec.tagValue t = some v ∧ Spec.ProperTag t)

theorem prefixCount_le {env : RefEnv} {regex : Dict Str} {enabled : List Str} {g : List RefTok} (hg : g ≠ []) {next : Option Str} {n : Nat}
    (h : prefixCount env regex enabled g next = .ok n) :
    n ≤ g.length ∧ (n ≠ 0 → truthy (g.map (·.1)).head?.join = false ∧ ∃ v, stripTagPrefix next = some v ∧ v ∈ enabled) := by
  unfold prefixCount at h
  split at h
  · cases h; exact ⟨by omega, fun h => absurd rfl h⟩
  · next h1 =>
    split at h
    · cases h; exact ⟨by omega, fun h => absurd rfl h⟩
    · next v hv =>
      split at h
      · cases h; exact ⟨by omega, fun h => absurd rfl h⟩
      · next hm =>
        split at h
        · cases h
        · split at h
          · cases h; exact ⟨by omega, fun h => absurd rfl h⟩
          · cases h
            refine ⟨refJoined_count_le _ hg _ _, fun _ => ⟨by simpa using h1, v, hv, Classical.byContradiction fun hc => hm hc⟩⟩

theorem insideHead_rel (g : List RefTok) (hp : ∀ x ∈ g, Spec.ProperTag x.1) (enabled : List Str) :
    Pw (PreRel enabled) g (insideHead (g.map (·.1))) := by
  cases g with
  | nil => exact Pw.nil _
  | cons x xs =>
    refine Pw.cons (.inr (.inl (toInsideTag_eq (hp x (by simp))))) ?_
    refine ⟨by simp, ?_⟩
    intro i a b ha hb
    rw [List.getElem?_map, ha] at hb
    cases hb
    exact .inl rfl

theorem properTag_next {gs : List (List RefTok)} (hg : RefGroups gs) : Spec.ProperTag (firstRefTag gs.head?) := by
  cases gs with
  | nil => exact properTag_none
  | cons g gs =>
    obtain ⟨⟨_, _, _, _, hv⟩, _⟩ := hg.cons
    exact properTag_firstRefTag (fun y hy => (hv y hy).2)

theorem prefixGroup_rel (env : RefEnv) (regex : Dict Str) (enabled : List Str) (changed : Bool) (g : List RefTok) (hne : g ≠ [])
    (v : Option Str) (hv : ∀ y ∈ g, Spec.tagValue y.1 = v ∧ Spec.ProperTag y.1) (next : Option Str) (hnext : Spec.ProperTag next)
    (n : Nat) (hn : prefixCount env regex enabled g next = .ok n) :
    Pw (PreRel enabled) g (prefixGroup changed g next n) := by
  unfold prefixGroup
  simp only []
  obtain ⟨hle, hpos⟩ := prefixCount_le hne hn
  by_cases h0 : n = 0
  · rw [if_pos h0]
    split
    · exact insideHead_rel g (fun y hy => (hv y hy).2) enabled
    · refine ⟨by simp, ?_⟩
      intro i a b ha hb
      rw [List.getElem?_map, ha] at hb
      cases hb
      exact .inl rfl
  · rw [if_neg h0]
    obtain ⟨hf, w, hw, hm⟩ := hpos h0
    rw [stripTagPrefix_eq_tagValue] at hw
    have hun : ∀ y ∈ g, y.1 = none := by
      cases g with
      | nil => exact absurd rfl hne
      | cons x xs =>
        have hx0 := hv x (by simp)
        have hxn : x.1 = none := (truthy_eq_false_iff hx0.2).1 (by simpa using hf)
        intro y hy
        have := (hv y hy).1
        rw [← hx0.1, hxn] at this
        exact tagValue_none_iff.1 this
    have hlen : (if changed = true then insideHead (g.map (·.1)) else g.map (·.1)).length = g.length := by
      split
      · rw [insideHead_length, List.length_map]
      · rw [List.length_map]
    rw [hlen]
    have hin := toInsideTag_spec hnext
    refine ⟨by simp; omega, ?_⟩
    intro i a b ha hb
    have ha0 := hun a (List.mem_of_getElem? ha)
    have hmem := List.mem_of_getElem? hb
    rw [List.mem_append, List.mem_cons] at hmem
    rcases hmem with hm' | rfl | hm'
    · rw [(List.mem_replicate.1 hm').2]; exact .inl ha0.symm
    · exact .inr (.inr ⟨ha0, w, hm, hw, hnext⟩)
    · rw [(List.mem_replicate.1 hm').2]
      refine .inr (.inr ⟨ha0, w, hm, ?_, hin.2⟩)
      rw [← stripTagPrefix_eq_tagValue, hin.1, stripTagPrefix_eq_tagValue, hw]

theorem prefixLoop_rel (env : RefEnv) (regex : Dict Str) (enabled : List Str) (gs : List (List RefTok)) (hg : RefGroups gs)
    (changed : Bool) (out : List (Option Str)) (h : prefixLoop env regex enabled changed gs = .ok out) :
    Pw (PreRel enabled) gs.flatten out := by
  induction gs generalizing changed out with
  | nil => cases h; exact Pw.nil _
  | cons g gs ih =>
    obtain ⟨⟨x, xs, v, he, hv⟩, hgs⟩ := hg.cons
    rw [prefixLoop_cons _ _ _ _ _ _ (fun y hy => (hv y hy).2)] at h
    cases hn : prefixCount env regex enabled g (firstRefTag gs.head?) with
    | error e => rw [hn] at h; cases h
    | ok n =>
      rw [hn] at h
      simp only [] at h
      cases hr : prefixLoop env regex enabled (decide (n ≠ 0)) gs with
      | error e => rw [hr] at h; cases h
      | ok o =>
        rw [hr] at h
        cases h
        rw [List.flatten_cons]
        refine Pw.append ?_ (ih hgs _ _ hr)
        exact prefixGroup_rel env regex enabled changed g (by rw [he]; simp) v hv _ (properTag_next hgs) n hn

/-- The loop over the groups in two parts; only behind an untagged group the first tag is changed. -/
theorem prefixLoop_append (env : RefEnv) (regex : Dict Str) (enabled : List Str) (a b : List (List RefTok)) (hg : RefGroups (a ++ b))
    (changed : Bool) (out : List (Option Str)) (h : prefixLoop env regex enabled changed (a ++ b) = .ok out) :
    ∃ o1 o2 c, out = o1 ++ o2 ∧ o1.length = a.flatten.length ∧ prefixLoop env regex enabled c b = .ok o2 ∧
      (a = [] → c = changed) ∧ (∀ g, a.getLast? = some g → c = true → ∀ x ∈ g, x.1 = none) := by
  induction a generalizing changed out with
  | nil => exact ⟨[], out, changed, rfl, rfl, h, fun _ => rfl, by simp⟩
  | cons g gs ih =>
    rw [List.cons_append] at h hg
    obtain ⟨⟨x, xs, v, he, hv⟩, hgs⟩ := hg.cons
    have hne : g ≠ [] := by rw [he]; simp
    rw [prefixLoop_cons _ _ _ _ _ _ (fun y hy => (hv y hy).2)] at h
    cases hn : prefixCount env regex enabled g (firstRefTag (gs ++ b).head?) with
    | error e => rw [hn] at h; cases h
    | ok n =>
      rw [hn] at h
      simp only [] at h
      cases hr : prefixLoop env regex enabled (decide (n ≠ 0)) (gs ++ b) with
      | error e => rw [hr] at h; cases h
      | ok o =>
        rw [hr] at h
        cases h
        obtain ⟨o1, o2, c, h1, h2, h3, h4, h5⟩ := ih hgs _ _ hr
        have hrel := prefixGroup_rel env regex enabled changed g hne v hv _ (properTag_next hgs) n hn
        refine ⟨prefixGroup changed g (firstRefTag (gs ++ b).head?) n ++ o1, o2, c, ?_, ?_, h3, by simp, ?_⟩
        · rw [h1, List.append_assoc]
        · rw [List.length_append, List.flatten_cons, List.length_append, h2, hrel.1]
        · intro g' hg' hc
          cases gs with
          | nil =>
            rw [List.getLast?_singleton] at hg'
            cases hg'
            have hc' := h4 rfl
            rw [hc] at hc'
            have := (prefixCount_le hne hn).2 (of_decide_eq_true hc'.symm)
            subst he
            have hx0 := hv x (by simp)
            have hxn : x.1 = none := (truthy_eq_false_iff hx0.2).1 (by simpa using this.1)
            intro y hy
            have := (hv y hy).1
            rw [← hx0.1, hxn] at this
            exact tagValue_none_iff.1 this
          | cons g2 gs =>
            rw [List.getLast?_cons_cons] at hg'
            exact h5 g' hg' hc

/-- No error if there is a pattern for each enabled value. -/
theorem prefixLoop_ok (env : RefEnv) (regex : Dict Str) (enabled : List Str) (hr : ∀ v ∈ enabled, regex.get? v ≠ none)
    (gs : List (List RefTok)) (hg : RefGroups gs) (changed : Bool) : ∃ out, prefixLoop env regex enabled changed gs = .ok out := by
  induction gs generalizing changed with
  | nil => exact ⟨[], rfl⟩
  | cons g gs ih =>
    obtain ⟨⟨x, xs, v, he, hv⟩, hgs⟩ := hg.cons
    rw [prefixLoop_cons _ _ _ _ _ _ (fun y hy => (hv y hy).2)]
    have : ∃ n, prefixCount env regex enabled g (firstRefTag gs.head?) = .ok n := by
      unfold prefixCount
      split
      · exact ⟨_, rfl⟩
      · split
        · exact ⟨_, rfl⟩
        · split
          · exact ⟨_, rfl⟩
          · next v _ hm =>
            cases h : regex.get? v with
            | none => exact absurd h (hr v (Classical.byContradiction fun hc => hm hc))
            | some p =>
              simp only []
              split <;> exact ⟨_, rfl⟩
    obtain ⟨n, hn⟩ := this
    obtain ⟨o, ho⟩ := ih hgs (decide (n ≠ 0))
    rw [hn]
    simp only [ho]
    exact ⟨_, rfl⟩

end Verif
