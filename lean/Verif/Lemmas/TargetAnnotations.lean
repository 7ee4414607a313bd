import Verif.Spec.TargetAnnotations
import Verif.Lemmas.PyList
import Verif.Lemmas.ExtractRegex
import Verif.Lemmas.Dict

namespace Verif

open Spec

theorem stablySorted_sortBy {α : Type} (le : α → α → Bool) (htot : ∀ a b, le a b = true ∨ le b a = true)
    (htrans : ∀ a b c, le a b = true → le b c = true → le a c = true) (l : List α) :
    StablySorted le l (sortBy le l) where
  perm := sortBy_perm le l
  sorted := sortBy_pairwise le htot htrans l
  stable := by
    intro a
    apply sortBy_filter
    intro b c hb hc
    simp only [Bool.and_eq_true] at hb hc
    exact htrans b a c hb.2 hc.1

theorem valueOf_annotationValue (texts : List Str) : ValueOf texts (annotationValue texts) := by
  have key : ∀ l : List Str, StablySorted (fun a b => decide (b.length ≤ a.length)) l
      (sortBy (fun a b => decide (b.length ≤ a.length)) l) := by
    intro l
    apply stablySorted_sortBy
    · intro a b; simp only [decide_eq_true_eq]; omega
    · intro a b c; simp only [decide_eq_true_eq]; omega
  match texts with
  | [] => exact .many (by simp) (key [])
  | [s] => exact .one s
  | a :: b :: l => exact .many (by simp) (key _)

/-- A key with annotation as place and annotation. -/
def toFound (p : TargetKey × TargetItem) : Found := ⟨-p.1.negPriority, p.1.pos, p.1.index, p.2⟩

theorem before_toFound (a b : TargetKey × TargetItem) : (toFound a).before (toFound b) = TargetKey.le a.1 b.1 := by
  unfold Found.before TargetKey.le toFound
  simp only []
  by_cases h1 : a.1.negPriority = b.1.negPriority
  · rw [if_pos h1]
    have : ¬ (-b.1.negPriority < -a.1.negPriority) := by omega
    have h2 : -a.1.negPriority = -b.1.negPriority := by omega
    rw [decide_eq_false this, decide_eq_true h2, Bool.false_or, Bool.true_and]
    by_cases h3 : a.1.pos = b.1.pos
    · rw [if_pos h3]
      have : ¬ (a.1.pos < b.1.pos) := by omega
      rw [decide_eq_false this, decide_eq_true h3, Bool.false_or, Bool.true_and]
      cases a.1.index <;> cases b.1.index <;> rfl
    · rw [if_neg h3]
      simp [h3]
  · rw [if_neg h1]
    have h2 : ¬ (-a.1.negPriority = -b.1.negPriority) := by omega
    simp only [h2, decide_false, Bool.false_and, Bool.or_false]
    congr 1
    apply propext
    omega

theorem before_total (a b : Found) : a.before b = true ∨ b.before a = true := by
  unfold Found.before
  simp only [Bool.or_eq_true, Bool.and_eq_true, decide_eq_true_eq]
  have h : (match a.index, b.index with
      | none, _ => true
      | some _, none => false
      | some i, some j => decide (i ≤ j)) = true ∨ (match b.index, a.index with
      | none, _ => true
      | some _, none => false
      | some i, some j => decide (i ≤ j)) = true := by
    cases a.index <;> cases b.index <;> simp <;> omega
  rcases Int.lt_trichotomy a.priority b.priority with hp | hp | hp
  · exact .inr (.inl hp)
  · rcases Nat.lt_trichotomy a.pos b.pos with hq | hq | hq
    · exact .inl (.inr ⟨hp, .inl hq⟩)
    · rcases h with h | h
      · exact .inl (.inr ⟨hp, .inr ⟨hq, h⟩⟩)
      · exact .inr (.inr ⟨hp.symm, .inr ⟨hq.symm, h⟩⟩)
    · exact .inr (.inr ⟨hp.symm, .inl hq⟩)
  · exact .inl (.inl hp)

theorem before_trans (a b c : Found) (h1 : a.before b = true) (h2 : b.before c = true) : a.before c = true := by
  unfold Found.before at *
  simp only [Bool.or_eq_true, Bool.and_eq_true, decide_eq_true_eq] at *
  have h : ∀ x y z : Option Nat, (match x, y with
      | none, _ => true
      | some _, none => false
      | some i, some j => decide (i ≤ j)) = true → (match y, z with
      | none, _ => true
      | some _, none => false
      | some i, some j => decide (i ≤ j)) = true → (match x, z with
      | none, _ => true
      | some _, none => false
      | some i, some j => decide (i ≤ j)) = true := by
    intro x y z
    cases x <;> cases y <;> cases z <;> simp <;> omega
  rcases h1 with h1 | ⟨h1, h1'⟩
  · rcases h2 with h2 | ⟨h2, _⟩ <;> left <;> omega
  · rcases h2 with h2 | ⟨h2, h2'⟩
    · left; omega
    · right
      refine ⟨by omega, ?_⟩
      rcases h1' with h1' | ⟨h1', h1''⟩
      · rcases h2' with h2' | ⟨h2', _⟩ <;> left <;> omega
      · rcases h2' with h2' | ⟨h2', h2''⟩
        · left; omega
        · exact .inr ⟨by omega, h _ _ _ h1'' h2''⟩

theorem map_sortBy {α β : Type} (f : α → β) (le : α → α → Bool) (le' : β → β → Bool)
    (h : ∀ a b, le' (f a) (f b) = le a b) (l : List α) : (sortBy le l).map f = sortBy le' (l.map f) := by
  have hins : ∀ a l, (insertSorted le a l).map f = insertSorted le' (f a) (l.map f) := by
    intro a l
    induction l with
    | nil => rfl
    | cons b l ih =>
      simp only [insertSorted, List.map_cons, h]
      split
      · rfl
      · simp [ih]
  induction l with
  | nil => rfl
  | cons a l ih =>
    show (insertSorted le a (sortBy le l)).map f = insertSorted le' (f a) (sortBy le' (l.map f))
    rw [hins, ih]

theorem elementAnnotations_group {env : TargetEnv} {mapping : Dict Str} {k : Str} {cfg : FieldCfg} {pos : Nat} {e : XNode}
    {as : List (TargetKey × TargetItem)} (h : elementAnnotations env mapping k cfg pos e = .ok as) :
    ∃ texts standalone, elementTexts env cfg e = .ok (texts, standalone) ∧
      GroupOf k cfg pos (extractSubAnnotations env e cfg.subXpaths mapping k) (applyPatterns env cfg texts) standalone (as.map toFound) := by
  unfold elementAnnotations at h
  cases ht : elementTexts env cfg e with
  | error x => simp [ht] at h
  | ok p =>
    obtain ⟨texts, standalone⟩ := p
    simp only [ht] at h
    cases h
    refine ⟨texts, standalone, rfl, ?_, ?_, ?_⟩
    · intro f hf
      obtain ⟨p, hp, rfl⟩ := List.mem_map.mp hf
      rcases List.mem_append.mp hp with hp | hp
      · split at hp
        · exact absurd hp List.not_mem_nil
        · rw [List.mem_singleton] at hp; subst hp
          exact ⟨rfl, by simp [toFound], rfl⟩
      · obtain ⟨q, _, rfl⟩ := List.mem_map.mp hp
        exact ⟨rfl, by simp [toFound], rfl⟩
    · intro f hf
      obtain ⟨p, hp, rfl⟩ := List.mem_map.mp hf
      rcases List.mem_append.mp hp with hp | hp
      · split at hp
        · exact absurd hp List.not_mem_nil
        · rw [List.mem_singleton] at hp; subst hp
          exact ⟨rfl, rfl, by simp [toFound], rfl⟩
      · obtain ⟨q, _, rfl⟩ := List.mem_map.mp hp
        exact ⟨rfl, rfl, by simp [toFound], rfl⟩
    · refine ⟨_, _, List.map_append, ?_, ?_⟩
      · cases hl : applyPatterns env cfg texts with
        | nil => exact .inl ⟨rfl, rfl⟩
        | cons t l =>
          refine .inr ⟨by simp, _, rfl, rfl, ?_⟩
          exact valueOf_annotationValue _
      · rw [List.map_map, List.map_map]
        rfl

/-- What is found for the elements matched by a field. -/
theorem fieldAnnotationsLoop_groups {env : TargetEnv} {mapping : Dict Str} {k : Str} {cfg : FieldCfg} {pos : XNode → Nat}
    {es : List XNode} {as : List (TargetKey × TargetItem)} (h : fieldAnnotationsLoop env mapping k cfg pos es = .ok as) :
    ∃ groups : List (List Found), as.map toFound = groups.flatten ∧ groups.length = es.length ∧
      ∀ i (h1 : i < es.length) (h2 : i < groups.length), ∃ texts standalone,
        elementTexts env cfg es[i] = .ok (texts, standalone) ∧
        GroupOf k cfg (pos es[i]) (extractSubAnnotations env es[i] cfg.subXpaths mapping k) (applyPatterns env cfg texts) standalone groups[i] := by
  induction es generalizing as with
  | nil => cases h; exact ⟨[], rfl, rfl, by intro i h1; exact absurd h1 (Nat.not_lt_zero _)⟩
  | cons e es ih =>
    unfold fieldAnnotationsLoop at h
    cases he : elementAnnotations env mapping k cfg (pos e) e with
    | error x => simp [he] at h
    | ok as1 =>
      cases hr : fieldAnnotationsLoop env mapping k cfg pos es with
      | error x => simp [he, hr] at h
      | ok rest =>
        simp only [he, hr] at h
        cases h
        obtain ⟨gs, hg, hl, hgs⟩ := ih hr
        obtain ⟨texts, standalone, ht, hgrp⟩ := elementAnnotations_group he
        refine ⟨as1.map toFound :: gs, by simp [hg], by simp [hl], ?_⟩
        intro i h1 h2
        cases i with
        | zero => exact ⟨texts, standalone, ht, hgrp⟩
        | succ i => exact hgs i (by simpa using h1) (by simpa using h2)

theorem fieldsAnnotations_found {env : TargetEnv} {mapping : Dict Str} {root : XNode} {ks : List Str}
    {as : List (TargetKey × TargetItem)}
    (h : fieldsAnnotations env mapping root (fun n => (nodeIds root).idxOf n.id) ks = .ok as) :
    FoundIn env mapping root ks (as.map toFound) := by
  induction ks generalizing as with
  | nil => cases h; exact .nil
  | cons k ks ih =>
    unfold fieldsAnnotations at h
    cases hc : fieldCfg env mapping k with
    | error x => simp [hc] at h
    | ok cfg =>
      simp only [hc] at h
      cases hl : fieldAnnotationsLoop env mapping k cfg (fun n => (nodeIds root).idxOf n.id)
          (matchXpaths env root cfg.xpaths) with
      | error x => simp [hl] at h
      | ok as1 =>
        simp only [hl] at h
        cases hr : fieldsAnnotations env mapping root (fun n => (nodeIds root).idxOf n.id) ks with
        | error x => simp [hr] at h
        | ok rest =>
          simp only [hr] at h
          cases h
          obtain ⟨gs, hg, hlen, hgs⟩ := fieldAnnotationsLoop_groups hl
          rw [List.map_append, hg]
          exact .cons hc hlen hgs (ih hr)

/-! ### Options of sub fields -/

theorem mem_of_get? {β : Type} {d : Dict β} {k : Str} {v : β} (h : d.get? k = some v) : (k, v) ∈ d := by
  induction d with
  | nil => exact absurd h (by simp)
  | cons p d ih =>
    obtain ⟨k', v'⟩ := p
    simp only [Dict.get?] at h
    split at h
    · next hk => cases h; subst hk; exact List.mem_cons_self
    · exact List.mem_cons_of_mem _ (ih h)

theorem get?_of_mem {β : Type} {d : Dict β} (hnd : d.Pairwise (fun p q => p.1 ≠ q.1)) {k : Str} {v : β}
    (h : (k, v) ∈ d) : d.get? k = some v := by
  induction d with
  | nil => exact absurd h List.not_mem_nil
  | cons p d ih =>
    obtain ⟨k', v'⟩ := p
    rw [List.pairwise_cons] at hnd
    simp only [Dict.get?]
    rcases List.mem_cons.mp h with h | h
    · cases h; rw [if_pos rfl]
    · rw [if_neg (hnd.1 _ h)]
      exact ih hnd.2 h

theorem get?_filter_key {β : Type} (d : Dict β) (q : Str → Bool) (k : Str) :
    Dict.get? (List.filter (fun p => q p.1) d) k = if q k then d.get? k else none := by
  induction d with
  | nil => simp
  | cons p d ih =>
    obtain ⟨k', v'⟩ := p
    rw [List.filter_cons]
    by_cases hk : k' = k
    · subst hk
      cases hq : q k' with
      | true => simp [Dict.get?]
      | false => simp [ih, hq]
    · cases hq : q k' with
      | true => simp [Dict.get?, hk, ih]
      | false => simp [Dict.get?, hk, ih]

theorem startsWith_append (p s : Str) : startsWith p (p ++ s) = true := by
  simp [startsWith]

theorem startsWith_drop {p s : Str} (h : startsWith p s = true) : s = p ++ s.drop p.length := by
  unfold startsWith at h
  rw [List.isPrefixOf_iff_prefix] at h
  obtain ⟨t, rfl⟩ := h
  simp

theorem getSubMapping_get? (mapping : Dict Str) (hnd : mapping.Pairwise (fun p q => p.1 ≠ q.1)) (tag k : Str) :
    (getSubMapping mapping tag).get? k =
      if '.' ∈ k then none else mapping.get? (tag ++ c!".sub." ++ k) := by
  have hpre : tag ++ c!".sub" ++ c!"." = tag ++ c!".sub." := by simp
  unfold getSubMapping
  simp only []
  rw [hpre]
  generalize tag ++ c!".sub." = pre
  have h1 := get?_filter_key (Dict.ofPairs ((mapping.filter (fun p => startsWith pre p.1)).map
    (fun p => (p.1.drop pre.length, p.2)))) (fun k => decide ('.' ∉ k)) k
  rw [h1]
  by_cases hk : '.' ∈ k
  · rw [if_pos hk, if_neg (by simpa using hk)]
  · rw [if_neg hk, if_pos (by simpa using hk)]
    apply Option.ext
    intro v
    rw [get?_ofPairs_nodup]
    · constructor
      · intro h
        obtain ⟨p, hp, he⟩ := List.mem_map.mp h
        obtain ⟨hp, hs⟩ := List.mem_filter.mp hp
        have := startsWith_drop hs
        cases he
        rw [← this]
        exact get?_of_mem hnd hp
      · intro h
        refine List.mem_map.mpr ⟨(pre ++ k, v), List.mem_filter.mpr ⟨mem_of_get? h, startsWith_append _ _⟩, ?_⟩
        simp
    · rw [List.pairwise_map]
      refine List.Pairwise.imp_of_mem ?_ (List.Pairwise.filter _ hnd)
      intro p q hp hq hne he
      apply hne
      rw [startsWith_drop (List.mem_filter.mp hp).2, startsWith_drop (List.mem_filter.mp hq).2]; exact congrArg (pre ++ ·) he

/-! ### Document order -/

theorem nodeIdsList_append (l1 l2 : List XNode) : nodeIdsList (l1 ++ l2) = nodeIdsList l1 ++ nodeIdsList l2 := by
  induction l1 with
  | nil => rfl
  | cons n l1 ih => simp only [List.cons_append, nodeIdsList, ih, List.append_assoc]

theorem nodeIds_eq (n : XNode) : nodeIds n = n.id :: nodeIdsList n.children := by cases n; rfl

theorem nodeIds_within {root n : XNode} (h : Within root n) : ∃ l r, nodeIds root = l ++ nodeIds n ++ r := by
  induction h with
  | self n => exact ⟨[], [], by simp⟩
  | @child root c n hc _ ih =>
    obtain ⟨l, r, ih⟩ := ih
    obtain ⟨l1, l2, hl⟩ := List.append_of_mem hc
    refine ⟨root.id :: nodeIdsList l1 ++ l, r ++ nodeIdsList l2, ?_⟩
    rw [nodeIds_eq root, hl, nodeIdsList_append]
    simp only [nodeIdsList, ih, List.cons_append, List.append_assoc]

theorem idxOf_lt_of_nodup {l : List Nat} (h : l.Nodup) {p q r : List Nat} {a b : Nat}
    (hl : l = p ++ a :: q ++ b :: r) : l.idxOf a < l.idxOf b := by
  subst hl
  have hp : a ∉ p ∧ b ∉ p ∧ a ≠ b := by
    rw [List.append_assoc, List.nodup_append] at h
    refine ⟨fun ha => h.2.2 a ha a (by simp) rfl, fun hb => h.2.2 b hb b (by simp) rfl, ?_⟩
    rintro rfl
    have := h.2.1
    simp at this
  rw [List.append_assoc, List.idxOf_append (l₁ := p) (a := a), List.idxOf_append (l₁ := p) (a := b), if_neg hp.1,
    if_neg hp.2.1, List.cons_append, List.idxOf_cons, List.idxOf_cons, beq_false_of_ne hp.2.2]
  simp

theorem idxOf_startsBefore {root a b : XNode} (hnd : (nodeIds root).Nodup) (h : StartsBefore root a b) :
    (nodeIds root).idxOf a.id < (nodeIds root).idxOf b.id := by
  cases h with
  | @inside a c b ha hc hb =>
    obtain ⟨l, r, h1⟩ := nodeIds_within ha
    obtain ⟨l', r', h2⟩ := nodeIds_within hb
    obtain ⟨l1, l2, hl⟩ := List.append_of_mem hc
    rw [nodeIds_eq a, hl, nodeIdsList_append] at h1
    simp only [nodeIdsList] at h1
    rw [h2, nodeIds_eq b] at h1
    refine idxOf_lt_of_nodup hnd (p := l) (q := nodeIdsList l1 ++ l')
      (r := nodeIdsList b.children ++ r' ++ nodeIdsList l2 ++ r) ?_
    rw [h1]; simp
  | @siblings p x y a b l1 l2 l3 hp hc ha hb =>
    obtain ⟨l, r, h1⟩ := nodeIds_within hp
    obtain ⟨l', r', h2⟩ := nodeIds_within ha
    obtain ⟨l'', r'', h3⟩ := nodeIds_within hb
    rw [nodeIds_eq p, hc, nodeIdsList_append] at h1
    simp only [nodeIdsList] at h1
    rw [nodeIdsList_append] at h1
    simp only [nodeIdsList] at h1
    rw [h2, h3, nodeIds_eq a, nodeIds_eq b] at h1
    refine idxOf_lt_of_nodup hnd (p := l ++ p.id :: nodeIdsList l1 ++ l')
      (q := nodeIdsList a.children ++ r' ++ nodeIdsList l2 ++ l'')
      (r := nodeIdsList b.children ++ r'' ++ nodeIdsList l3 ++ r) ?_
    rw [h1]; simp

/-! ### Ranges and children -/

/-- The text of a source and the used nodes. -/
def sourceText (env : TargetEnv) (parent : XNode) (src : ChildSource) : Option (Str × List Nat) :=
  if truthy src.xpath then
    let ns := excludeParents env (env.xpath parent (orEmpty src.xpath))
    if ns.isEmpty then none
    else some (joinStr [' '] (ns.map (fun n => strippedTextContent env n [])), ns.map (·.id))
  else some (orEmpty src.value, [])

theorem childrenSourceList_cons (env : TargetEnv) (parent : XNode) (src : ChildSource) (srcs : List ChildSource) :
    childrenSourceList env parent (src :: srcs) =
      match sourceText env parent src with
      | none => none
      | some (v, used) =>
        match childrenSourceList env parent srcs with
        | none => none
        | some (vs, useds) => some (v :: vs, used ++ useds) := rfl

theorem sourceText_iff (env : TargetEnv) (parent : XNode) (src : ChildSource) (v : Str) :
    SourceText env parent src v ↔ ∃ used, sourceText env parent src = some (v, used) := by
  unfold sourceText
  constructor
  · intro h
    cases h with
    | @xpath x hx hne hs =>
      rw [hx, if_pos (by cases x with | nil => exact absurd rfl hne | cons _ _ => rfl)]
      refine ⟨(excludeParents env (env.xpath parent x)).map (·.id), ?_⟩
      rw [show orEmpty (some x) = x from rfl]
      simp only []
      rw [if_neg (by simpa using hs)]
    | value hx =>
      refine ⟨[], ?_⟩
      rw [if_neg (by rcases hx with hx | hx <;> rw [hx] <;> simp [truthy])]
      cases src.value <;> rfl
  · rintro ⟨used, h⟩
    cases hx : src.xpath with
    | none =>
      rw [hx, if_neg (by simp [truthy])] at h
      have : v = src.value.getD [] := by
        cases hv : src.value <;> rw [hv] at h <;> cases h <;> rfl
      rw [this]; exact .value (.inl hx)
    | some x =>
      cases x with
      | nil =>
        rw [hx, if_neg (by simp [truthy])] at h
        have : v = src.value.getD [] := by
          cases hv : src.value <;> rw [hv] at h <;> cases h <;> rfl
        rw [this]; exact .value (.inr hx)
      | cons c x =>
        rw [hx, if_pos (by rfl)] at h
        rw [show orEmpty (some (c :: x)) = c :: x from rfl] at h
        simp only [] at h
        by_cases hne : (excludeParents env (env.xpath parent (c :: x))).isEmpty = true
        · rw [if_pos hne] at h; cases h
        · rw [if_neg hne] at h
          cases h
          exact .xpath hx (by simp) (by simpa using hne)

theorem strIsDigit_iff (cc : CharClass) (s : Str) :
    strIsDigit cc s = true ↔ s ≠ [] ∧ ∀ c ∈ s, cc.isDigit c = true := by
  unfold strIsDigit; cases s <;> simp

/-- The values of one item. -/
def RangeItem.bounds (env : TargetEnv) (parent : XNode) (item : RangeItem) : Option (Str × Str) :=
  match sourceText env parent item.min, sourceText env parent item.max with
  | some (v, _), some (w, _) =>
    if strIsDigit env.cc (strip env.cc v) && strIsDigit env.cc (strip env.cc w) then some (strip env.cc v, strip env.cc w)
    else none
  | _, _ => none

theorem rangeOf_iff (env : TargetEnv) (parent : XNode) (item : RangeItem) (a b : Nat) :
    RangeOf env parent item a b ↔ ∃ s t i j, item.bounds env parent = some (s, t) ∧
      env.parseInt s = .ok i ∧ env.parseInt t = .ok j ∧ i.toNat = a ∧ j.toNat = b := by
  constructor
  · rintro ⟨v, w, hv, hw, dv, dw, ⟨i, hi, ha⟩, j, hj, hb⟩
    obtain ⟨u1, h1⟩ := (sourceText_iff ..).mp hv
    obtain ⟨u2, h2⟩ := (sourceText_iff ..).mp hw
    refine ⟨_, _, i, j, ?_, hi, hj, ha, hb⟩
    unfold RangeItem.bounds
    rw [h1, h2]
    simp only []
    rw [if_pos (by rw [(strIsDigit_iff ..).mpr dv, (strIsDigit_iff ..).mpr dw]; rfl)]
  · rintro ⟨s, t, i, j, h, hi, hj, ha, hb⟩
    unfold RangeItem.bounds at h
    cases h1 : sourceText env parent item.min with
    | none => simp [h1] at h
    | some p =>
      cases h2 : sourceText env parent item.max with
      | none => simp [h1, h2] at h
      | some q =>
        simp only [h1, h2] at h
        split at h
        · next hd =>
          rw [Bool.and_eq_true] at hd
          cases h
          exact ⟨p.1, q.1, (sourceText_iff ..).mpr ⟨_, h1⟩, (sourceText_iff ..).mpr ⟨_, h2⟩,
            (strIsDigit_iff ..).mp hd.1, (strIsDigit_iff ..).mp hd.2, ⟨i, hi, ha⟩, j, hj, hb⟩
        · cases h

theorem extractChildrenRange_cons (env : TargetEnv) (parent : XNode) (item : RangeItem) (items : List RangeItem)
    {r : RangeResult} (h : extractChildrenRange env parent (item :: items) = .ok r) :
    ∃ r', extractChildrenRange env parent items = .ok r' ∧
      ((item.bounds env parent = none ∧ r = r') ∨
        ∃ s t i j, item.bounds env parent = some (s, t) ∧ env.parseInt s = .ok i ∧ env.parseInt t = .ok j ∧
          r.values = (if item.standalone then [] else rangeStrs i.toNat j.toNat) ++ r'.values ∧
          r.standalone = (if item.standalone then rangeStrs i.toNat j.toNat else []) ++ r'.standalone) := by
  unfold extractChildrenRange extractChildrenSourceList at h
  rw [childrenSourceList_cons, childrenSourceList_cons] at h
  unfold RangeItem.bounds
  cases h1 : sourceText env parent item.min with
  | none => simp only [h1] at h; exact ⟨r, h, .inl ⟨rfl, rfl⟩⟩
  | some p =>
    cases h2 : sourceText env parent item.max with
    | none => simp only [h1, h2] at h; exact ⟨r, h, .inl ⟨rfl, rfl⟩⟩
    | some q =>
      simp only [h1, h2, childrenSourceList, Option.getD_some] at h
      cases hd : strIsDigit env.cc (strip env.cc p.1) && strIsDigit env.cc (strip env.cc q.1) with
      | false =>
        rw [hd, if_neg (by simp)] at h
        exact ⟨r, h, .inl ⟨by simp [hd], rfl⟩⟩
      | true =>
        rw [hd, if_pos rfl] at h
        cases hi : env.parseInt (strip env.cc p.1) with
        | error e => simp [hi] at h
        | ok i =>
          cases hj : env.parseInt (strip env.cc q.1) with
          | error e => simp [hi, hj] at h
          | ok j =>
            simp only [hi, hj] at h
            cases hr : extractChildrenRange env parent items with
            | error e => simp [hr] at h
            | ok r' =>
              simp only [hr] at h
              cases h
              exact ⟨r', rfl, .inr ⟨_, _, i, j, by simp [hd], hi, hj, rfl, rfl⟩⟩

theorem mem_rangeStrs (a b : Nat) (s : Str) : s ∈ rangeStrs a b ↔ ∃ n, a ≤ n ∧ n ≤ b ∧ s = Nat.toDigits 10 n := by
  unfold rangeStrs
  rw [List.mem_map]
  constructor
  · rintro ⟨i, hi, rfl⟩
    rw [List.mem_range] at hi
    exact ⟨a + i, by omega, by omega, rfl⟩
  · rintro ⟨n, h1, h2, rfl⟩
    exact ⟨n - a, List.mem_range.mpr (by omega), by congr 1; omega⟩

/-- Membership of values and standalone values. -/
theorem mem_range_values {env : TargetEnv} {parent : XNode} {items : List RangeItem} {r : RangeResult}
    (h : extractChildrenRange env parent items = .ok r) (s : Str) :
    (s ∈ r.values ↔ ∃ item ∈ items, item.standalone = false ∧ ∃ a b n, RangeOf env parent item a b ∧ a ≤ n ∧ n ≤ b ∧
      s = Nat.toDigits 10 n) ∧
    (s ∈ r.standalone ↔ ∃ item ∈ items, item.standalone = true ∧ ∃ a b n, RangeOf env parent item a b ∧ a ≤ n ∧ n ≤ b ∧
      s = Nat.toDigits 10 n) := by
  induction items generalizing r with
  | nil => cases h; simp
  | cons item items ih =>
    obtain ⟨r', hr, hc⟩ := extractChildrenRange_cons env parent item items h
    obtain ⟨ih1, ih2⟩ := ih hr
    clear h
    rcases hc with ⟨hn, rfl⟩ | ⟨s1, s2, i, j, hb, hi, hj, hv, hs⟩
    · have hno : ¬ ∃ a b n, RangeOf env parent item a b ∧ a ≤ n ∧ n ≤ b ∧ s = Nat.toDigits 10 n := by
        rintro ⟨a, b, n, hr, -⟩
        obtain ⟨_, _, _, _, hb, -⟩ := (rangeOf_iff ..).mp hr
        rw [hn] at hb; cases hb
      rw [ih1, ih2]
      constructor
      · constructor
        · rintro ⟨it, hm, h⟩; exact ⟨it, List.mem_cons_of_mem _ hm, h⟩
        · rintro ⟨it, hm, h1, h⟩
          rcases List.mem_cons.mp hm with rfl | hm
          · exact absurd h hno
          · exact ⟨it, hm, h1, h⟩
      · constructor
        · rintro ⟨it, hm, h⟩; exact ⟨it, List.mem_cons_of_mem _ hm, h⟩
        · rintro ⟨it, hm, h1, h⟩
          rcases List.mem_cons.mp hm with rfl | hm
          · exact absurd h hno
          · exact ⟨it, hm, h1, h⟩
    · have hiff : s ∈ rangeStrs i.toNat j.toNat ↔
          ∃ a b n, RangeOf env parent item a b ∧ a ≤ n ∧ n ≤ b ∧ s = Nat.toDigits 10 n := by
        rw [mem_rangeStrs]
        constructor
        · rintro ⟨n, h⟩
          exact ⟨_, _, n, (rangeOf_iff ..).mpr ⟨_, _, i, j, hb, hi, hj, rfl, rfl⟩, h⟩
        · rintro ⟨a, b, n, hr, h⟩
          obtain ⟨_, _, i', j', hb', hi', hj', rfl, rfl⟩ := (rangeOf_iff ..).mp hr
          rw [hb] at hb'; cases hb'
          rw [hi] at hi'; cases hi'
          rw [hj] at hj'; cases hj'
          exact ⟨n, h⟩
      rw [hv, hs, List.mem_append, List.mem_append, ih1, ih2]
      cases hst : item.standalone with
      | false =>
        simp only [Bool.false_eq_true, if_false, List.not_mem_nil, false_or]
        rw [hiff]
        constructor
        · constructor
          · rintro (h | ⟨it, hm, h⟩)
            · exact ⟨item, List.mem_cons_self, hst, h⟩
            · exact ⟨it, List.mem_cons_of_mem _ hm, h⟩
          · rintro ⟨it, hm, h1, h⟩
            rcases List.mem_cons.mp hm with rfl | hm
            · exact .inl h
            · exact .inr ⟨it, hm, h1, h⟩
        · constructor
          · rintro ⟨it, hm, h⟩; exact ⟨it, List.mem_cons_of_mem _ hm, h⟩
          · rintro ⟨it, hm, h1, h⟩
            rcases List.mem_cons.mp hm with rfl | hm
            · rw [hst] at h1; cases h1
            · exact ⟨it, hm, h1, h⟩
      | true =>
        simp only [if_true, List.not_mem_nil, false_or]
        rw [hiff]
        constructor
        · constructor
          · rintro ⟨it, hm, h⟩; exact ⟨it, List.mem_cons_of_mem _ hm, h⟩
          · rintro ⟨it, hm, h1, h⟩
            rcases List.mem_cons.mp hm with rfl | hm
            · rw [hst] at h1; cases h1
            · exact ⟨it, hm, h1, h⟩
        · constructor
          · rintro (h | ⟨it, hm, h⟩)
            · exact ⟨item, List.mem_cons_self, hst, h⟩
            · exact ⟨it, List.mem_cons_of_mem _ hm, h⟩
          · rintro ⟨it, hm, h1, h⟩
            rcases List.mem_cons.mp hm with rfl | hm
            · exact .inl h
            · exact .inr ⟨it, hm, h1, h⟩

/-! ### Raw text -/

theorem isStartsWithWord_spec {cc : CharClass} {s : Str} (h : isStartsWithWord cc s = true) :
    ∃ d, s.head? = some d ∧ cc.isWord d = true := by
  unfold isStartsWithWord at h
  cases hs : s.head? with
  | none => simp [hs] at h
  | some d => simp [hs] at h; exact ⟨d, rfl, h⟩

theorem isEndsWithWord_spec {cc : CharClass} {s : Str} (h : isEndsWithWord cc s = true) :
    ∃ c, cc.isWord c = true ∧ (s.getLast? = some c ∨ ∃ t, s = t ++ [c, '\n']) := by
  unfold isEndsWithWord at h
  simp only [Bool.and_eq_true] at h
  obtain ⟨_, h⟩ := h
  by_cases hn : s.getLast? = some '\n'
  · rw [if_pos hn] at h
    cases hl : s.dropLast.getLast? with
    | none => simp [hl] at h
    | some c =>
      simp [hl] at h
      refine ⟨c, h, .inr ⟨s.dropLast.dropLast, ?_⟩⟩
      obtain ⟨u, hu⟩ := List.getLast?_eq_some_iff.mp hn
      obtain ⟨v, hv⟩ := List.getLast?_eq_some_iff.mp hl
      rw [hv]
      simp only [List.dropLast_concat]
      rw [hu] at hv
      simp only [List.dropLast_concat] at hv
      rw [hu, hv]
      simp
  · rw [if_neg hn] at h
    cases hl : s.getLast? with
    | none => simp [hl] at h
    | some c => simp [hl] at h; exact ⟨c, h, .inl rfl⟩

theorem joinedWords_cons (cc : CharClass) (t : Str) (ts : List Str) :
    JoinedWords cc (t :: ts) (t ++ rawTextLoop cc (some t) ts) := by
  induction ts generalizing t with
  | nil => simp only [rawTextLoop, List.append_nil]; exact .one t
  | cons u ts ih =>
    simp only [rawTextLoop]
    by_cases h : (isEndsWithWord cc t && isStartsWithWord cc u) = true
    · rw [if_pos h]
      simp only [Bool.and_eq_true] at h
      obtain ⟨c, hc, hc'⟩ := isEndsWithWord_spec h.1
      obtain ⟨d, hd, hd'⟩ := isStartsWithWord_spec h.2
      exact .space hc hd' hc' hd (ih u)
    · rw [if_neg h]
      exact .plain (ih u)

theorem joinedWords_raw (cc : CharClass) (ts : List Str) : JoinedWords cc ts (rawTextLoop cc none ts) := by
  cases ts with
  | nil => exact .nil
  | cons t ts => simp only [rawTextLoop, List.nil_append]; exact joinedWords_cons cc t ts

theorem joinedWords_nonSpace {cc : CharClass} (hsp : cc.isSpace ' ' = true) {ts : List Str} {r : Str}
    (h : JoinedWords cc ts r) : nonSpace cc r = nonSpace cc ts.flatten := by
  induction h with
  | nil => rfl
  | one t => simp
  | @plain t u ts r h ih => rw [nonSpace_append, ih, ← nonSpace_append]; rfl
  | @space t u ts r c d hc hd ht hu h ih =>
    rw [nonSpace_append, List.flatten_cons, nonSpace_append, ← ih]
    congr 1
    show nonSpace cc ([' '] ++ r) = _
    rw [nonSpace_append, nonSpace_spaces cc [' '] (by simp [hsp])]
    rfl

theorem wordsApart_cons (cc : CharClass) (t : Str) (ts : List Str) (hw : ∀ x ∈ t :: ts, '\n' ∉ x) :
    WordsApart cc (t :: ts) (t ++ rawTextLoop cc (some t) ts) := by
  induction ts generalizing t with
  | nil => simp only [rawTextLoop, List.append_nil]; exact .one t
  | cons u ts ih =>
    have ih := ih u (fun x hx => hw x (List.mem_cons_of_mem _ hx))
    simp only [rawTextLoop]
    by_cases h : (isEndsWithWord cc t && isStartsWithWord cc u) = true
    · rw [if_pos h]
      exact .space ih
    · rw [if_neg h]
      refine .plain ?_ ih
      rintro ⟨c, d, hc, hd, hcw, hdw⟩
      apply h
      have hnl : '\n' ∉ t := hw t List.mem_cons_self
      have hne : ¬ t.getLast? = some '\n' := fun he => hnl (List.mem_of_getLast? he)
      have h1 : isEndsWithWord cc t = true := by
        unfold isEndsWithWord
        simp only [if_neg hne]
        simp [hnl, hc, hcw]
      have h2 : isStartsWithWord cc u = true := by
        unfold isStartsWithWord
        simp [hd, hdw]
      rw [h1, h2]; rfl

mutual
theorem textsExcluding_prune (ex : List Nat) (n : XNode) :
    (textsExcluding ex n).flatten = (nodeTexts (prune ex n)).flatten := by
  match n with
  | .mk i t cs tl =>
    simp only [textsExcluding, prune, nodeTexts, List.flatten_append]
    rw [childrenTextsExcluding_prune ex cs]
theorem childrenTextsExcluding_prune (ex : List Nat) (ns : List XNode) :
    (childrenTextsExcluding ex ns).flatten = (childrenTexts (pruneList ex ns)).flatten := by
  match ns with
  | [] => rfl
  | .mk i t cs tl :: ns =>
    simp only [childrenTextsExcluding, pruneList, List.flatten_append]
    rw [childrenTextsExcluding_prune ex ns]
    have htl : (if truthy tl then someText tl else []).flatten = (someText tl).flatten := by
      rcases tl with _ | _ | _ <;> rfl
    rw [htl]
    by_cases hi : i ∈ ex
    · rw [if_neg (by simpa using hi), if_pos hi]
      simp [childrenTexts, nodeTexts, someText]
    · rw [if_pos hi, if_neg hi]
      rw [textsExcluding_prune ex (.mk i t cs tl)]
      simp [prune, childrenTexts]
end

mutual
/-- Without empty texts the texts themselves are those of the element without the content of excluded elements. -/
theorem textsExcluding_eq (ex : List Nat) (n : XNode) (h : ∀ t ∈ nodeTexts n, t ≠ []) :
    textsExcluding ex n = nodeTexts (prune ex n) := by
  match n with
  | .mk i t cs tl =>
    simp only [textsExcluding, prune, nodeTexts] at h ⊢
    rw [childrenTextsExcluding_eq ex cs (fun x hx => h x (List.mem_append_right _ hx))]
theorem childrenTextsExcluding_eq (ex : List Nat) (ns : List XNode) (h : ∀ t ∈ childrenTexts ns, t ≠ []) :
    childrenTextsExcluding ex ns = childrenTexts (pruneList ex ns) := by
  match ns with
  | [] => rfl
  | .mk i t cs tl :: ns =>
    simp only [childrenTexts] at h
    simp only [childrenTextsExcluding, pruneList]
    rw [childrenTextsExcluding_eq ex ns (fun x hx => h x (by simp [hx]))]
    have htl : (if truthy tl then someText tl else []) = someText tl := by
      rcases tl with _ | _ | _
      · rfl
      · exact absurd rfl (h [] (by simp [someText]))
      · rfl
    rw [htl]
    by_cases hi : i ∈ ex
    · rw [if_neg (by simpa using hi), if_pos hi]
      simp [childrenTexts, nodeTexts, someText]
    · rw [if_pos hi, if_neg hi]
      rw [textsExcluding_eq ex (.mk i t cs tl) (fun x hx => h x (by simp [hx]))]
      simp [prune, childrenTexts]
end

end Verif
