/-
Lemmas about the first labels of the lines, the threshold for the front and preserved page numbers.
-/
import Verif.Spec.Segmentation
import Verif.Lemmas.Segmentation
import Verif.Lemmas.SegMerge
import Verif.Lemmas.SegHeaders

namespace Verif

/-! ### The most frequent value -/

theorem maxItem_none {α : Type} {l : List (α × Nat)} (h : maxItem l = none) : l = [] := by
  cases l with
  | nil => rfl
  | cons a l =>
    unfold maxItem at h
    split at h
    · cases h
    · split at h <;> cases h

theorem maxItem_split {α : Type} {l : List (α × Nat)} {p : α × Nat} (h : maxItem l = some p) :
    ∃ a b, l = a ++ p :: b ∧ (∀ q ∈ a, q.2 < p.2) ∧ ∀ q ∈ b, q.2 ≤ p.2 := by
  induction l generalizing p with
  | nil => cases h
  | cons x l ih =>
    unfold maxItem at h
    split at h
    · next hn =>
      obtain rfl := Option.some.inj h
      rw [maxItem_none hn]
      exact ⟨[], [], rfl, by simp, by simp⟩
    · next y hy =>
      obtain ⟨a, b, rfl, ha, hb⟩ := ih hy
      split at h
      · next hlt =>
        obtain rfl := Option.some.inj h
        refine ⟨x :: a, b, rfl, ?_, hb⟩
        intro q hq
        rcases List.mem_cons.1 hq with rfl | hq
        · exact hlt
        · exact ha q hq
      · next hlt =>
        obtain rfl := Option.some.inj h
        refine ⟨[], _, rfl, by simp, ?_⟩
        intro q hq
        rcases List.mem_append.1 hq with hq | hq
        · have := ha q hq; omega
        · rcases List.mem_cons.1 hq with rfl | hq
          · omega
          · have := hb q hq; omega

/-- The values before the first occurrence of one come before it in the counter. -/
theorem uniqueKeys_split {α : Type} [DecidableEq α] (l : List α) (A B : List α) (m : α) (h : uniqueKeys l = A ++ m :: B) :
    ∃ a b, l = a ++ m :: b ∧ ∀ x ∈ a, x ∈ A := by
  induction l generalizing A B with
  | nil => simp [uniqueKeys] at h
  | cons x l ih =>
    rw [uniqueKeys] at h
    cases A with
    | nil =>
      obtain ⟨rfl, _⟩ := List.cons.inj h
      exact ⟨[], l, rfl, by simp⟩
    | cons y A =>
      obtain ⟨rfl, h'⟩ := List.cons.inj h
      replace h' : (uniqueKeys l).filter (fun b => !decide (b = x)) = A ++ m :: B := h'
      rw [List.filter_eq_append_iff] at h'
      obtain ⟨l1, l2, e, e1, e2⟩ := h'
      rw [List.filter_eq_cons_iff] at e2
      obtain ⟨l3, l4, e3, e4, e5, e6⟩ := e2
      rw [e3, ← List.append_assoc] at e
      obtain ⟨a, b, rfl, ha⟩ := ih _ _ e
      refine ⟨x :: a, b, rfl, ?_⟩
      intro z hz
      rcases List.mem_cons.1 hz with rfl | hz
      · exact List.mem_cons_self
      · by_cases hzx : z = x
        · rw [hzx]; exact List.mem_cons_self
        · have := ha z hz
          apply List.mem_cons_of_mem
          rw [← e1]
          rcases List.mem_append.1 this with h1 | h1
          · exact List.mem_filter.2 ⟨h1, by simp [hzx]⟩
          · exact absurd (by simp [hzx]) (e4 z h1)

theorem majority_of_maxItem {α : Type} [DecidableEq α] {l : List α} {p : α × Nat} (h : maxItem (counterOf l) = some p) :
    Spec.IsMajority l p.1 := by
  obtain ⟨A, B, hAB, hA, hB⟩ := maxItem_split h
  unfold counterOf at hAB
  rw [List.map_eq_append_iff] at hAB
  obtain ⟨k1, k2, hk, h1, h2⟩ := hAB
  rw [List.map_eq_cons_iff] at h2
  obtain ⟨m, k3, rfl, h3, h4⟩ := h2
  subst h3
  obtain ⟨a, b, hl, ha⟩ := uniqueKeys_split l k1 k3 m hk
  have hkA : ∀ x ∈ k1, l.count x < l.count m := by
    intro x hx
    have := hA (x, l.count x) (by rw [← h1]; exact List.mem_map_of_mem hx)
    exact this
  refine ⟨a, b, hl, ?_, fun x hx => hkA x (ha x hx)⟩
  intro x
  by_cases hx : x ∈ l
  · have := (mem_uniqueKeys l x).2 hx
    rw [hk] at this
    rcases List.mem_append.1 this with h5 | h5
    · exact Nat.le_of_lt (hkA x h5)
    · rcases List.mem_cons.1 h5 with rfl | h5
      · exact Nat.le_refl _
      · have := hB (x, l.count x) (by rw [← h4]; exact List.mem_map_of_mem h5)
        exact this
  · rw [List.count_eq_zero.2 hx]; exact Nat.zero_le _

theorem majority_unique {α : Type} [DecidableEq α] {l : List α} {m m' : α} (h : Spec.IsMajority l m) (h' : Spec.IsMajority l m') : m = m' := by
  obtain ⟨a, b, e, h1, h2⟩ := h
  obtain ⟨a', b', e', h1', h2'⟩ := h'
  have e2 := e.symm.trans e'
  rcases List.append_eq_append_iff.1 e2 with ⟨c, rfl, hc⟩ | ⟨c, rfl, hc⟩
  · cases c with
    | nil => exact (List.cons.inj hc).1
    | cons x c =>
      obtain ⟨rfl, _⟩ := List.cons.inj hc
      have := h2' m (by simp)
      have := h1 m'
      omega
  · cases c with
    | nil => exact (List.cons.inj hc).1.symm
    | cons x c =>
      obtain ⟨rfl, _⟩ := List.cons.inj hc
      have := h2 m' (by simp)
      have := h1' m
      omega

theorem counterOf_nil {α : Type} [DecidableEq α] {l : List α} (h : counterOf l = []) : l = [] := by
  cases l with
  | nil => rfl
  | cons a l => simp [counterOf, uniqueKeys] at h

/-! ### The configured labels -/

theorem getLast?_flatMap_names (n : Str) (m : Dict (List Str)) :
    (((m.flatMap (fun p => p.2.map (fun x => (x, p.1)))).filter (fun p => decide (p.1 = n))).getLast?).map (·.2) =
      ((m.filter (fun p => decide (n ∈ p.2))).getLast?).map (·.1) := by
  induction m with
  | nil => rfl
  | cons p m ih =>
    rw [List.flatMap_cons, List.filter_append, List.getLast?_append, List.filter_cons]
    have hcase : (((p.2.map (fun x => (x, p.1))).filter (fun q => decide (q.1 = n))).getLast?).map (·.2) =
        if n ∈ p.2 then some p.1 else none := by
      rw [List.filter_map, List.getLast?_map, Option.map_map]
      have e : (p.2.filter ((fun q : Str × Str => decide (q.1 = n)) ∘ fun x => (x, p.1))) = p.2.filter (fun x => decide (x = n)) := rfl
      rw [e]
      split
      · next h =>
        cases hg : (p.2.filter (fun x => decide (x = n))).getLast? with
        | none =>
          rw [List.getLast?_eq_none_iff, List.filter_eq_nil_iff] at hg
          exact absurd (by simp) (hg n h)
        | some y => rfl
      · next h =>
        have : p.2.filter (fun x => decide (x = n)) = [] := by
          rw [List.filter_eq_nil_iff]
          intro x hx he
          rw [decide_eq_true_eq] at he
          exact h (he ▸ hx)
        rw [this]; rfl
    rw [Option.map_or, ih, hcase]
    by_cases hn : n ∈ p.2
    · rw [if_pos hn, if_pos (by simpa using hn), List.getLast?_cons]
      cases (m.filter (fun p => decide (n ∈ p.2))).getLast? <;> rfl
    · rw [if_neg hn, if_neg (by simpa using hn)]
      cases (m.filter (fun p => decide (n ∈ p.2))).getLast? <;> rfl

theorem segTagByName_get? (cfg : SegConfig) (n : Str) : (segTagByName cfg).get? n = Spec.labelOf cfg n := by
  unfold segTagByName Dict.ofPairs Spec.labelOf
  rw [get?_foldl_set, ← getLast?_flatMap_names]
  cases ((cfg.mapping.flatMap (fun p => p.2.map (fun x => (x, p.1)))).filter (fun p => decide (p.1 = n))).getLast? <;> rfl

/-! ### The first labels -/

/-- The values of the tags of the line. -/
def lineValues (d : Doc) (l : SegLine) : List (Option Str) := l.line.nonSpace.map (fun i => d.getTagValue i)

theorem lineValues_congr {st st' : SegState} {l : SegLine} (h : SameLine st st' l) (hn : ∀ i ∈ l.line.nonSpace, i ∈ l.line.tokens) :
    lineValues st'.doc l = lineValues st.doc l := by
  unfold lineValues Doc.getTagValue
  apply List.map_congr_left
  intro i hi
  rw [h.getTag (hn i hi)]

theorem put_only {ls : List SegLine} {l : SegLine} {st st' : SegState} (h : OnlyLine ls l st st') (t : Option Str) :
    OnlyLine ls l st (st'.put l t) := by
  refine ⟨h.same, h.sub, fun l' hl' hne => ⟨?_, (h.other l' hl' hne).2⟩⟩
  rw [put_tag, if_neg hne]
  exact (h.other l' hl' hne).1

theorem segInitStep_only {cfg : SegConfig} {ls : List SegLine} {st : SegState} (ho : OwnLines st.doc ls) {l : SegLine} (hl : l ∈ ls) :
    OnlyLine ls l st (segInitStep cfg st l) := by
  unfold segInitStep
  split
  · exact .refl _ _ _
  · next m n hm =>
    simp only []
    apply put_only
    repeat' split
    any_goals exact .refl _ _ _
    any_goals exact set_only ho hl _
    exact clear_only ho hl

/-- No label, or one of the labels. -/
def NoneOrLabel (cfg : SegConfig) (t : Option Str) : Prop := ∀ s, t = some s → Spec.IsLabel cfg s

theorem isLabel_of_labelOf {cfg : SegConfig} {n s : Str} (h : Spec.labelOf cfg n = some s) : Spec.IsLabel cfg s := by
  unfold Spec.labelOf at h
  cases hx : (cfg.mapping.filter (fun p => n ∈ p.2)).getLast? with
  | none => rw [hx] at h; cases h
  | some p =>
    rw [hx] at h
    exact .inr ⟨p, (List.mem_filter.1 (List.mem_of_getLast? hx)).1, Option.some.inj h⟩

/-- What the first step does to a line. -/
theorem segInitStep_effect (cfg : SegConfig) (st : SegState) (l : SegLine) (h0 : st.tag l.index = none) :
    Spec.InitialLabel cfg (lineValues st.doc l) ((segInitStep cfg st l).tag l.index) ∧
    ((Shown (segInitStep cfg st l).doc l ((segInitStep cfg st l).tag l.index) ∧ NoneOrLabel cfg ((segInitStep cfg st l).tag l.index)) ∨
      (Spec.KeepsTags cfg (lineValues st.doc l) ∧ (segInitStep cfg st l).doc = st.doc)) := by
  unfold segInitStep
  have ev : l.line.nonSpace.map (fun i => st.doc.getTagValue i) = lineValues st.doc l := rfl
  rw [ev]
  cases hm : maxItem (counterOf (lineValues st.doc l)) with
  | none =>
    have he := counterOf_nil (maxItem_none hm)
    refine ⟨?_, .inr ⟨.inl he, rfl⟩⟩
    show Spec.InitialLabel cfg _ (st.tag l.index)
    rw [h0]
    exact .empty he
  | some p =>
    obtain ⟨m, c⟩ := p
    have hmaj : Spec.IsMajority (lineValues st.doc l) m := majority_of_maxItem hm
    simp only []
    rw [put_tag, if_pos rfl]
    have hseg : m.bind (segTagByName cfg).get? = m.bind (Spec.labelOf cfg) := by
      cases m with
      | none => rfl
      | some n => exact segTagByName_get? cfg n
    rw [hseg]
    by_cases hs : truthy (m.bind (Spec.labelOf cfg)) = true
    · obtain ⟨s, hs1, hs2⟩ := truthy_iff.1 hs
      cases m with
      | none => cases hs1
      | some n =>
        have hs1' : Spec.labelOf cfg n = some s := hs1
        have epy : pyOr ((some n).bind (Spec.labelOf cfg)) (some n) = some s := by
          unfold pyOr; rw [if_pos hs, hs1]
        rw [epy]
        refine ⟨.mapped hmaj hs1' hs2, ?_⟩
        by_cases hself : s = n
        · by_cases hnm : cfg.noMergeReferences = true
          · right
            refine ⟨.inr ⟨n, hmaj, .inr ⟨by rw [hs1', hself], by rw [← hself]; exact hs2, hnm⟩⟩, ?_⟩
            rw [if_pos ⟨hs, by rw [hs1, hself]⟩, if_neg (by simp [hnm])]
            rfl
          · left
            rw [if_pos ⟨hs, by rw [hs1, hself]⟩, if_pos (by simpa using hnm), hs1]
            exact ⟨set_shown _ _ _, fun s' e => by obtain rfl := Option.some.inj e; exact isLabel_of_labelOf hs1'⟩
        · left
          rw [if_neg (by rintro ⟨_, h⟩; rw [hs1] at h; exact hself (Option.some.inj h)), if_pos hs, hs1]
          exact ⟨set_shown _ _ _, fun s' e => by obtain rfl := Option.some.inj e; exact isLabel_of_labelOf hs1'⟩
    · have epy : pyOr (m.bind (Spec.labelOf cfg)) m = m := by
        unfold pyOr; rw [if_neg hs]
      rw [epy]
      have hun : ∀ n s, m = some n → Spec.labelOf cfg n = some s → s = [] := by
        rintro n s rfl h2
        have h2' : (some n).bind (Spec.labelOf cfg) = some s := h2
        rw [h2'] at hs
        exact Classical.byContradiction fun h => hs (truthy_iff.2 ⟨s, rfl, h⟩)
      refine ⟨.tag hmaj hun, ?_⟩
      rw [if_neg (fun h => hs h.1), if_neg hs]
      cases m with
      | none =>
        left
        rw [if_pos rfl]
        exact ⟨clear_shown _ _, fun s e => by cases e⟩
      | some n =>
        right
        rw [if_neg (by simp)]
        exact ⟨.inr ⟨n, hmaj, .inl (fun s h => hun n s rfl h)⟩, rfl⟩

/-- The first loop. -/
theorem segInit_effect (cfg : SegConfig) {d : Doc} {ls : List SegLine} (ho : OwnLines d ls) :
    let st := ls.foldl (segInitStep cfg) ⟨d, fun _ => none⟩
    SameBut d st.doc ∧ (∀ j, st.doc.getSubTag j = d.getSubTag j) ∧
    ∀ l ∈ ls, Spec.InitialLabel cfg (lineValues d l) (st.tag l.index) ∧
      ((Shown st.doc l (st.tag l.index) ∧ NoneOrLabel cfg (st.tag l.index)) ∨
        (Spec.KeepsTags cfg (lineValues d l) ∧ ∀ i ∈ l.line.tokens, st.doc.getAttr i = d.getAttr i)) := by
  intro st
  obtain ⟨a, a', b⟩ := foldl_lines (ls := ls) (segInitStep cfg) (fun st l ho hl => segInitStep_only ho hl) ⟨d, fun _ => none⟩ ho
  refine ⟨a, a', fun l hl => ?_⟩
  obtain ⟨sa, h1, h2, h3⟩ := b l hl
  have h0 : sa.tag l.index = none := h2.1
  obtain ⟨e1, e2⟩ := segInitStep_effect cfg sa l h0
  have ev : lineValues sa.doc l = lineValues d l := lineValues_congr h2 (ho.nonSpace l hl)
  rw [ev] at e1 e2
  refine ⟨by rw [h3.1]; exact e1, ?_⟩
  rcases e2 with e | ⟨e, e'⟩
  · exact .inl ⟨Shown.congr h3 e.1, by rw [h3.1]; exact e.2⟩
  · refine .inr ⟨e, fun i hi => ?_⟩
    rw [h3.2 i hi, e', h2.2 i hi]

theorem clearTokens_untagged (is : List Nat) (d : Doc) (h : ∀ i ∈ is, truthy (d.getTag i) = false) :
    is.foldl (fun d i => if truthy (d.getTag i) then d.setTag i none else d) d = d := by
  induction is with
  | nil => rfl
  | cons i is ih =>
    rw [List.foldl_cons, if_neg (by rw [h i List.mem_cons_self]; simp)]
    exact ih (fun j hj => h j (List.mem_cons_of_mem _ hj))

/-- A line without any tags stays as it is. -/
theorem segInit_untagged (cfg : SegConfig) {d : Doc} {ls : List SegLine} (ho : OwnLines d ls) {l : SegLine} (hl : l ∈ ls)
    (h : ∀ i ∈ l.line.tokens, d.getTag i = none) :
    SameLine ⟨d, fun _ => none⟩ (ls.foldl (segInitStep cfg) ⟨d, fun _ => none⟩) l := by
  obtain ⟨_, _, b⟩ := foldl_lines (ls := ls) (segInitStep cfg) (fun st l ho hl => segInitStep_only ho hl) ⟨d, fun _ => none⟩ ho
  obtain ⟨sa, h1, h2, h3⟩ := b l hl
  refine h2.trans (SameLine.trans ?_ h3)
  have h0 : sa.tag l.index = none := h2.1
  have ht : ∀ i ∈ l.line.tokens, sa.doc.getTag i = none := fun i hi => (h2.getTag hi).trans (h i hi)
  unfold segInitStep
  cases hm : maxItem (counterOf (l.line.nonSpace.map (fun i => sa.doc.getTagValue i))) with
  | none => exact ⟨rfl, fun _ _ => rfl⟩
  | some p =>
    obtain ⟨m, c⟩ := p
    obtain ⟨a, b, e, _⟩ := majority_of_maxItem hm
    have hmn : m = none := by
      have hmem : m ∈ l.line.nonSpace.map (fun i => sa.doc.getTagValue i) := by rw [e]; simp
      obtain ⟨i, hi, e'⟩ := List.mem_map.1 hmem
      rw [← e']
      unfold Doc.getTagValue
      rw [ht i (ho.nonSpace l hl i hi)]
      rfl
    subst hmn
    constructor
    · simp only []
      rw [put_tag, if_pos rfl, h0]
      rfl
    · intro i hi
      have e2 : (sa.clear l).doc = sa.doc := clearTokens_untagged _ _ (fun i hi => by rw [ht i hi]; rfl)
      simp only [Option.bind_none]
      show Doc.getAttr (SegState.doc (ite _ _ _)) i = _
      rw [if_neg (by simp [truthy]), if_neg (by simp [truthy]), if_pos trivial, e2]

/-! ### The front -/

theorem run_unique {p : SegLine → Prop} {a1 a2 b1 b2 : List SegLine} {f g : SegLine} (h : a1 ++ f :: a2 = b1 ++ g :: b2)
    (ha : ∀ x ∈ f :: a2, p x) (ha' : ∀ y, a1.getLast? = some y → ¬ p y)
    (hb : ∀ x ∈ g :: b2, p x) (hb' : ∀ y, b1.getLast? = some y → ¬ p y) : f = g := by
  rcases List.append_eq_append_iff.1 h with ⟨c, rfl, hc⟩ | ⟨c, rfl, hc⟩
  · cases c with
    | nil => exact (List.cons.inj hc).1
    | cons x c =>
      have hne : x :: c ≠ [] := by simp
      have hlast : (a1 ++ x :: c).getLast? = some ((x :: c).getLast hne) := by
        rw [List.getLast?_append, List.getLast?_eq_some_getLast hne]; rfl
      exact absurd (ha _ (by rw [hc]; exact List.mem_append_left _ (List.getLast_mem hne))) (hb' _ hlast)
  · cases c with
    | nil => exact (List.cons.inj hc).1.symm
    | cons x c =>
      have hne : x :: c ≠ [] := by simp
      have hlast : (b1 ++ x :: c).getLast? = some ((x :: c).getLast hne) := by
        rw [List.getLast?_append, List.getLast?_eq_some_getLast hne]; rfl
      exact absurd (hb _ (by rw [hc]; exact List.mem_append_left _ (List.getLast_mem hne))) (ha' _ hlast)

/-- The state of the loop after the lines `pre`. -/
structure FrontInv (maxStart : Int) (ls : List SegLine) (st : SegState) (pre : List SegLine) (f : FrontState) : Prop where
  rel : Relabels ls st f.st
  rest : ∀ l ∈ ls, l ∉ pre → SameLine st f.st l
  done : ∀ a l b, pre = a ++ l :: b →
    (Spec.LateFront maxStart st.tag a l → f.st.tag l.index = none ∧ Shown f.st.doc l none) ∧
    (¬ Spec.LateFront maxStart st.tag a l → SameLine st f.st l)
  block : f.block = pre.getLast?.bind (fun l => st.tag l.index)
  start : f.block = some segFront → ∃ a1 first a2, pre = a1 ++ first :: a2 ∧ (∀ x ∈ first :: a2, st.tag x.index = some segFront) ∧
    (∀ y, a1.getLast? = some y → st.tag y.index ≠ some segFront) ∧ f.start = first.index

theorem clearFrontStep_inv {maxStart : Int} {ls : List SegLine} {st : SegState} (ho : OwnLines st.doc ls) {pre : List SegLine} {l : SegLine}
    {rest : List SegLine} (hls : ls = pre ++ l :: rest) {f : FrontState} (h : FrontInv maxStart ls st pre f) :
    FrontInv maxStart ls st (pre ++ [l]) (clearFrontStep maxStart f l) := by
  have hl : l ∈ ls := by rw [hls]; simp
  have hidx := ho.index
  rw [hls, List.pairwise_append] at hidx
  have hpre : ∀ x ∈ pre, x.index ≠ l.index := fun x hx => by
    have := hidx.2.2 x hx l List.mem_cons_self; omega
  have hlpre : l ∉ pre := fun hm => hpre l hm rfl
  have hsl := h.rest l hl hlpre
  have htag : f.st.tag l.index = st.tag l.index := hsl.1
  have hof := ho.congr h.rel.same
  -- the block after looking at the tag
  obtain ⟨f1, hf1⟩ : ∃ f1 : FrontState, f1 = if f.st.tag l.index ≠ f.block then (⟨f.st, f.st.tag l.index, l.index⟩ : FrontState) else f := ⟨_, rfl⟩
  have hst1 : f1.st = f.st := by rw [hf1]; split <;> rfl
  have hb1 : f1.block = st.tag l.index := by
    rw [hf1]
    split
    · exact htag
    · next hn => rw [← htag]; exact (Classical.not_not.1 hn).symm
  have hs1 : f1.block = some segFront → ∃ a1 first a2, pre ++ [l] = a1 ++ first :: a2 ∧ (∀ x ∈ first :: a2, st.tag x.index = some segFront) ∧
      (∀ y, a1.getLast? = some y → st.tag y.index ≠ some segFront) ∧ f1.start = first.index := by
    intro hfr
    rw [hb1] at hfr
    by_cases hne : f.st.tag l.index ≠ f.block
    · rw [if_pos hne] at hf1
      refine ⟨pre, l, [], rfl, ?_, ?_, by rw [hf1]⟩
      · intro x hx; rw [List.mem_singleton.1 hx]; exact hfr
      · intro y hy hy'
        apply hne
        rw [htag, hfr, h.block, hy]
        exact hy'.symm
    · rw [if_neg hne] at hf1
      have hbl : f.block = some segFront := by
        rw [← Classical.not_not.1 hne, htag, hfr]
      obtain ⟨a1, first, a2, e, e1, e2, e3⟩ := h.start hbl
      refine ⟨a1, first, a2 ++ [l], by rw [e]; simp, ?_, e2, by rw [hf1, e3]⟩
      intro x hx
      rw [← List.cons_append] at hx
      rcases List.mem_append.1 hx with hx | hx
      · exact e1 x hx
      · rw [List.mem_singleton.1 hx]; exact hfr
  have hlate : Spec.LateFront maxStart st.tag pre l ↔ f1.block = some segFront ∧ maxStart < f1.start := by
    constructor
    · rintro ⟨a1, first, a2, e, e1, e2, e3⟩
      have hfr : f1.block = some segFront := by
        rw [hb1]
        apply e1 l
        have hne : first :: a2 ≠ [] := by simp
        have : (pre ++ [l]).getLast? = (a1 ++ first :: a2).getLast? := by rw [e]
        rw [List.getLast?_concat, List.getLast?_append, List.getLast?_eq_some_getLast hne, Option.some_or] at this
        rw [Option.some.inj this]
        exact List.getLast_mem hne
      refine ⟨hfr, ?_⟩
      obtain ⟨b1, g, b2, e', e1', e2', e3'⟩ := hs1 hfr
      rw [e3', ← run_unique (p := fun x => st.tag x.index = some segFront) (e.symm.trans e') e1 e2 e1' e2']
      exact e3
    · rintro ⟨hfr, hlt⟩
      obtain ⟨a1, first, a2, e, e1, e2, e3⟩ := hs1 hfr
      exact ⟨a1, first, a2, e, e1, e2, by rw [← e3]; exact hlt⟩
  have hstep : clearFrontStep maxStart f l = if f1.block = some segFront ∧ maxStart < f1.start then { f1 with st := f1.st.clear l } else f1 := by
    rw [hf1]; rfl
  have hdone : ∀ st2 : SegState, (∀ x ∈ ls, x.index ≠ l.index → SameLine f.st st2 x) →
      ((Spec.LateFront maxStart st.tag pre l → st2.tag l.index = none ∧ Shown st2.doc l none) ∧
        (¬ Spec.LateFront maxStart st.tag pre l → SameLine st st2 l)) →
      ∀ a x b, pre ++ [l] = a ++ x :: b →
      (Spec.LateFront maxStart st.tag a x → st2.tag x.index = none ∧ Shown st2.doc x none) ∧
      (¬ Spec.LateFront maxStart st.tag a x → SameLine st st2 x) := by
    intro st2 hs2 hl2 a x b e
    rcases split_append_singleton e with ⟨e1, e2, e3⟩ | ⟨b', e1, e2⟩
    · rw [e2, e3]; exact hl2
    · have hxpre : x ∈ pre := by rw [e2]; simp
      have hxls : x ∈ ls := by rw [hls]; exact List.mem_append_left _ hxpre
      have hsx := hs2 x hxls (hpre x hxpre)
      obtain ⟨d1, d2⟩ := h.done a x b' e2
      refine ⟨fun hL => ?_, fun hL => (d2 hL).trans hsx⟩
      obtain ⟨d3, d4⟩ := d1 hL
      refine ⟨by rw [hsx.1, d3], ?_⟩
      have := Shown.congr hsx (by rw [d3]; exact d4)
      rw [hsx.1, d3] at this
      exact this
  rw [hstep]
  by_cases hc : f1.block = some segFront ∧ maxStart < f1.start
  · rw [if_pos hc]
    have honly := clear_only hof hl
    have hother : ∀ x ∈ ls, x.index ≠ l.index → SameLine f.st (f1.st.clear l) x := by
      rw [hst1]; exact honly.other
    refine ⟨?_, ?_, hdone _ hother ⟨fun _ => ?_, fun hn => absurd (hlate.2 hc) hn⟩, ?_, hs1⟩
    · rw [hst1]; exact h.rel.trans (clear_relabels hof hl)
    · intro x hx hxp
      have hx1 : x ∉ pre := fun hm => hxp (List.mem_append_left _ hm)
      have hx2 : x.index ≠ l.index := fun e => hxp (by rw [ho.inj hx hl e]; simp)
      exact (h.rest x hx hx1).trans (hother x hx hx2)
    · rw [clear_tag, if_pos rfl]; exact ⟨rfl, clear_shown _ _⟩
    · rw [List.getLast?_concat]; exact hb1
  · rw [if_neg hc]
    have hother : ∀ x ∈ ls, x.index ≠ l.index → SameLine f.st f1.st x := by
      rw [hst1]; intro _ _ _; exact ⟨rfl, fun _ _ => rfl⟩
    refine ⟨by rw [hst1]; exact h.rel, ?_, hdone _ hother ⟨fun hL => absurd (hlate.1 hL) hc, fun _ => by rw [hst1]; exact hsl⟩, ?_, hs1⟩
    · intro x hx hxp
      rw [hst1]
      exact h.rest x hx (fun hm => hxp (List.mem_append_left _ hm))
    · rw [List.getLast?_concat]; exact hb1

/-- The lines of the front in blocks which start behind the threshold are cleared. -/
theorem clearFront_effect {maxStart : Int} (hm : maxStart ≠ 0) {ls : List SegLine} {st : SegState} (ho : OwnLines st.doc ls) :
    Relabels ls st (clearFront maxStart ls st) ∧
    ∀ a l b, ls = a ++ l :: b →
      (Spec.LateFront maxStart st.tag a l → (clearFront maxStart ls st).tag l.index = none ∧ Shown (clearFront maxStart ls st).doc l none) ∧
      (¬ Spec.LateFront maxStart st.tag a l → SameLine st (clearFront maxStart ls st) l) := by
  have key : ∀ (rest pre : List SegLine) (f : FrontState), ls = pre ++ rest → FrontInv maxStart ls st pre f →
      FrontInv maxStart ls st ls (rest.foldl (clearFrontStep maxStart) f) := by
    intro rest
    induction rest with
    | nil => intro pre f e h; rw [List.append_nil] at e; rw [← e] at h; exact h
    | cons l rest ih =>
      intro pre f e h
      rw [List.foldl_cons]
      exact ih (pre ++ [l]) _ (by rw [e]; simp) (clearFrontStep_inv ho e h)
  have h0 : FrontInv maxStart ls st [] ⟨st, none, 0⟩ :=
    ⟨.refl _ _, fun _ _ _ => ⟨rfl, fun _ _ => rfl⟩, fun a l b e => by simp at e, rfl, by simp⟩
  have h := key ls [] _ rfl h0
  have e : clearFront maxStart ls st = (ls.foldl (clearFrontStep maxStart) ⟨st, none, 0⟩).st := by
    unfold clearFront; rw [if_neg hm]
  rw [e]
  exact ⟨h.rel, h.done⟩

/-! ### Preserved page numbers and remaining lines -/

/-- A loop that gives a label to the lines without tag which meet a condition on the line. -/
theorem tagUntagged_effect {ls : List SegLine} (c : Doc → SegLine → Bool) (t : Option Str)
    (hc : ∀ st st' : SegState, ∀ l ∈ ls, SameLine st st' l → c st'.doc l = c st.doc l) {st : SegState} (ho : OwnLines st.doc ls) :
    let st' := ls.foldl (fun st l => if truthy (st.tag l.index) then st else if c st.doc l then st.set l t else st) st
    Relabels ls st st' ∧ ∀ l ∈ ls,
      (truthy (st.tag l.index) = false ∧ c st.doc l = true → st'.tag l.index = t ∧ Shown st'.doc l t) ∧
      (¬ (truthy (st.tag l.index) = false ∧ c st.doc l = true) → SameLine st st' l) := by
  intro st'
  obtain ⟨a, a', b⟩ := foldl_lines (ls := ls) (fun st l => if truthy (st.tag l.index) then st else if c st.doc l then st.set l t else st)
    (by intro st l ho hl
        split
        · exact .refl _ _ _
        · split
          · exact set_only ho hl t
          · exact .refl _ _ _) st ho
  have hboth : ∀ l ∈ ls,
      (truthy (st.tag l.index) = false ∧ c st.doc l = true → st'.tag l.index = t ∧ Shown st'.doc l t) ∧
      (¬ (truthy (st.tag l.index) = false ∧ c st.doc l = true) → SameLine st st' l) := by
    intro l hl
    obtain ⟨sa, h1, h2, h3⟩ := b l hl
    have e1 : sa.tag l.index = st.tag l.index := h2.1
    have e2 : c sa.doc l = c st.doc l := hc st sa l hl h2
    simp only [e1, e2] at h3
    constructor
    · rintro ⟨x1, x2⟩
      rw [if_neg (by simp [x1]), if_pos x2] at h3
      have e : st'.tag l.index = t := by rw [h3.1, set_tag, if_pos rfl]
      refine ⟨e, ?_⟩
      have := Shown.congr h3 (by rw [set_tag, if_pos rfl]; exact set_shown sa l t)
      rw [e] at this
      exact this
    · intro hn
      have e : (if truthy (st.tag l.index) = true then sa else if c st.doc l = true then sa.set l t else sa) = sa := by
        split
        · rfl
        · next h => rw [if_neg]; intro h'; exact hn ⟨by simpa using h, h'⟩
      rw [e] at h3
      exact h2.trans h3
  refine ⟨⟨a, a', fun l hl => ?_⟩, hboth⟩
  by_cases h : truthy (st.tag l.index) = false ∧ c st.doc l = true
  · obtain ⟨e1, e2⟩ := (hboth l hl).1 h
    right; rw [e1]; exact e2
  · exact .inl ((hboth l hl).2 h)

end Verif
