/-
Lemmas about page headers and page numbers.
-/
import Verif.Spec.Segmentation
import Verif.Lemmas.Segmentation

namespace Verif

/-! ### Counting -/

theorem mem_uniqueKeys {α : Type} [DecidableEq α] (l : List α) (x : α) : x ∈ uniqueKeys l ↔ x ∈ l := by
  induction l with
  | nil => simp [uniqueKeys]
  | cons a l ih =>
    rw [uniqueKeys, List.mem_cons, List.mem_filter, ih, List.mem_cons]
    by_cases h : x = a
    · simp [h]
    · simp [h]

theorem mem_mostCommon {α : Type} [DecidableEq α] (l : List α) (p : α × Nat) : p ∈ mostCommon l ↔ p.1 ∈ l ∧ p.2 = l.count p.1 := by
  unfold mostCommon
  rw [(sortBy_perm _ _).mem_iff, counterOf, List.mem_map]
  constructor
  · rintro ⟨k, hk, rfl⟩
    exact ⟨(mem_uniqueKeys l k).1 hk, rfl⟩
  · rintro ⟨h1, h2⟩
    exact ⟨p.1, (mem_uniqueKeys l _).2 h1, by rw [← h2]⟩

theorem count_str (l : List Str) (s : Str) : @List.count Str instBEqOfDecidableEq s l = l.count s := by
  have e : (instBEqOfDecidableEq : BEq Str) = List.instBEq := by
    have h : ∀ a b : Str, (instBEqOfDecidableEq : BEq Str).beq a b = (List.instBEq : BEq Str).beq a b := by
      intro a b
      have h1 : (instBEqOfDecidableEq : BEq Str).beq a b = decide (a = b) := rfl
      have h2 : (List.instBEq : BEq Str).beq a b = decide (a = b) := by
        rw [Bool.eq_iff_iff]
        simp
      rw [h1, h2]
    have h' : (instBEqOfDecidableEq : BEq Str) = ⟨(List.instBEq : BEq Str).beq⟩ := by
      have : (instBEqOfDecidableEq : BEq Str) = ⟨(instBEqOfDecidableEq : BEq Str).beq⟩ := rfl
      rw [this]
      congr 1
      funext a b
      exact h a b
    exact h'
  rw [e]

theorem mem_mostCommon_str (l : List Str) (p : Str × Nat) : p ∈ mostCommon l ↔ p.1 ∈ l ∧ p.2 = l.count p.1 := by
  rw [mem_mostCommon, count_str]

theorem mostCommon_pairwise {α : Type} [DecidableEq α] (l : List α) : (mostCommon l).Pairwise (fun p q => q.2 ≤ p.2) := by
  have := sortBy_pairwise (fun (a b : α × Nat) => decide (b.2 ≤ a.2))
    (by intro a b; simp only [decide_eq_true_eq]; omega)
    (by intro a b c; simp only [decide_eq_true_eq]; omega) (counterOf l)
  exact this.imp (by intro a b h; simpa using h)

/-! ### Page headers -/

theorem tagText_effect {ls : List SegLine} (st : SegState) (ho : OwnLines st.doc ls) (s : Str) (t : Option Str) :
    let st' := ls.foldl (fun st l => if l.text = s then st.set l t else st) st
    Relabels ls st st' ∧ ∀ l ∈ ls, (l.text = s → st'.tag l.index = t ∧ Shown st'.doc l t) ∧ (l.text ≠ s → SameLine st st' l) := by
  intro st'
  obtain ⟨a, a', b⟩ := foldl_lines (ls := ls) (fun st l => if l.text = s then st.set l t else st)
    (by intro st l ho hl
        by_cases h : l.text = s
        · simp only [if_pos h]; exact set_only ho hl t
        · simp only [if_neg h]; exact .refl _ _ _) st ho
  have hc : ∀ l ∈ ls, (l.text = s → st'.tag l.index = t ∧ Shown st'.doc l t) ∧ (l.text ≠ s → SameLine st st' l) := by
    intro l hl
    obtain ⟨sa, h1, h2, h3⟩ := b l hl
    constructor
    · intro h
      simp only [if_pos h] at h3
      have e : st'.tag l.index = t := by rw [h3.1, set_tag, if_pos rfl]
      refine ⟨e, ?_⟩
      have := Shown.congr h3 (by rw [set_tag, if_pos rfl]; exact set_shown sa l t)
      rw [e] at this
      exact this
    · intro h
      simp only [if_neg h] at h3
      exact h2.trans h3
  refine ⟨⟨a, a', fun l hl => ?_⟩, hc⟩
  by_cases h : l.text = s
  · right
    rw [((hc l hl).1 h).1]; exact ((hc l hl).1 h).2
  · exact .inl ((hc l hl).2 h)

/-- Whether a text with its count is tagged, given the least count. -/
def headerAccepted (env : SegEnv) (maxFirst : Int) (ls : List SegLine) (k : Nat) (p : Str × Nat) : Prop :=
  isPageHeaderText env p.1 p.2 k = true ∧ firstLineIndex ls p.1 < maxFirst

/-- What the loop does: the lines with one of the texts are tagged, the others stay. -/
structure HeadersSet (ls : List SegLine) (texts : Str → Prop) (st st' : SegState) : Prop where
  rel : Relabels ls st st'
  pos : ∀ l ∈ ls, texts l.text → st'.tag l.index = some segHeadnote ∧ Shown st'.doc l (some segHeadnote)
  neg : ∀ l ∈ ls, ¬ texts l.text → SameLine st st' l

theorem HeadersSet.refl (ls : List SegLine) (st : SegState) : HeadersSet ls (fun _ => False) st st :=
  ⟨.refl _ _, fun _ _ h => h.elim, fun _ _ _ => ⟨rfl, fun _ _ => rfl⟩⟩

theorem HeadersSet.trans {ls : List SegLine} {p q r : Str → Prop} {a b c : SegState} (h : HeadersSet ls p a b)
    (h' : HeadersSet ls q b c) (hr : ∀ s, r s ↔ p s ∨ q s) : HeadersSet ls r a c := by
  refine ⟨h.rel.trans h'.rel, ?_, ?_⟩
  · intro l hl hp
    by_cases hq : q l.text
    · exact h'.pos l hl hq
    · have hp' : p l.text := by rcases (hr _).1 hp with h | h; exact h; exact absurd h hq
      have hn := h'.neg l hl hq
      obtain ⟨h1, h2⟩ := h.pos l hl hp'
      refine ⟨hn.1.trans h1, ?_⟩
      have := Shown.congr hn (by rw [h1]; exact h2)
      rw [hn.1, h1] at this
      exact this
  · intro l hl hp
    exact (h.neg l hl (fun x => hp ((hr _).2 (.inl x)))).trans (h'.neg l hl (fun x => hp ((hr _).2 (.inr x))))

theorem headerStep_accept {env : SegEnv} {maxFirst : Int} {ls : List SegLine} {h : HeaderState} {p : Str × Nat}
    (ho : OwnLines h.st.doc ls) (ha : headerAccepted env maxFirst ls (h.minCount.getD 2) p) :
    HeadersSet ls (fun s => s = p.1) h.st (headerStep env maxFirst ls h p).st ∧
    (headerStep env maxFirst ls h p).minCount = some (h.minCount.getD (max 2 (p.2 - 1))) := by
  have h2 : ¬ maxFirst ≤ firstLineIndex ls p.1 := by have := ha.2; omega
  have e : headerStep env maxFirst ls h p = ⟨ls.foldl (fun st l => if l.text = p.1 then st.set l (some segHeadnote) else st) h.st,
      some (h.minCount.getD (max 2 (p.2 - 1)))⟩ := by
    unfold headerStep
    rw [ha.1, if_neg (by simp), if_neg h2]
  rw [e]
  obtain ⟨r1, r2⟩ := tagText_effect h.st ho p.1 (some segHeadnote)
  exact ⟨⟨r1, fun l hl => (r2 l hl).1, fun l hl => (r2 l hl).2⟩, rfl⟩

theorem headerStep_reject {env : SegEnv} {maxFirst : Int} {ls : List SegLine} {h : HeaderState} {p : Str × Nat}
    (ha : ¬ headerAccepted env maxFirst ls (h.minCount.getD 2) p) : headerStep env maxFirst ls h p = h := by
  unfold headerStep
  cases hv : isPageHeaderText env p.1 p.2 (h.minCount.getD 2) with
  | false => rfl
  | true =>
    rw [if_neg (by simp), if_pos]
    have : ¬ firstLineIndex ls p.1 < maxFirst := fun hx => ha ⟨hv, hx⟩
    omega

theorem headerLoop_some {env : SegEnv} {maxFirst : Int} {ls : List SegLine} (k : Nat) (L : List (Str × Nat)) (st : SegState)
    (ho : OwnLines st.doc ls) :
    HeadersSet ls (fun s => ∃ p ∈ L, p.1 = s ∧ headerAccepted env maxFirst ls k p) st
      (L.foldl (headerStep env maxFirst ls) ⟨st, some k⟩).st := by
  induction L generalizing st with
  | nil => exact (HeadersSet.refl ls st).trans (HeadersSet.refl ls st) (by simp)
  | cons p L ih =>
    rw [List.foldl_cons]
    by_cases ha : headerAccepted env maxFirst ls k p
    · obtain ⟨r1, r2⟩ := headerStep_accept (h := ⟨st, some k⟩) ho ha
      have e : headerStep env maxFirst ls ⟨st, some k⟩ p = ⟨(headerStep env maxFirst ls ⟨st, some k⟩ p).st, some k⟩ := by
        rw [show headerStep env maxFirst ls ⟨st, some k⟩ p = ⟨(headerStep env maxFirst ls ⟨st, some k⟩ p).st,
          (headerStep env maxFirst ls ⟨st, some k⟩ p).minCount⟩ from rfl, r2]
        rfl
      rw [e]
      refine r1.trans (ih _ (ho.congr r1.rel.same)) ?_
      intro s
      constructor
      · rintro ⟨q, hq, e1, e2⟩
        rcases List.mem_cons.1 hq with rfl | hq
        · exact .inl e1.symm
        · exact .inr ⟨q, hq, e1, e2⟩
      · rintro (rfl | ⟨q, hq, e1, e2⟩)
        · exact ⟨p, List.mem_cons_self, rfl, ha⟩
        · exact ⟨q, List.mem_cons_of_mem _ hq, e1, e2⟩
    · rw [headerStep_reject (h := ⟨st, some k⟩) ha]
      refine (HeadersSet.refl ls st).trans (ih st ho) ?_
      intro s
      constructor
      · rintro ⟨q, hq, e1, e2⟩
        rcases List.mem_cons.1 hq with rfl | hq
        · exact absurd e2 ha
        · exact .inr ⟨q, hq, e1, e2⟩
      · rintro (h | ⟨q, hq, e1, e2⟩)
        · exact h.elim
        · exact ⟨q, List.mem_cons_of_mem _ hq, e1, e2⟩

theorem headerAccepted_le {env : SegEnv} {maxFirst : Int} {ls : List SegLine} {k k' : Nat} {p : Str × Nat}
    (h : headerAccepted env maxFirst ls k p) (hk : k' ≤ p.2) : headerAccepted env maxFirst ls k' p := by
  refine ⟨?_, h.2⟩
  have := h.1
  unfold isPageHeaderText at this ⊢
  rw [if_neg (by omega)]
  split at this
  · cases this
  · exact this

theorem headerAccepted_count {env : SegEnv} {maxFirst : Int} {ls : List SegLine} {k : Nat} {p : Str × Nat}
    (h : headerAccepted env maxFirst ls k p) : k ≤ p.2 := by
  have := h.1
  unfold isPageHeaderText at this
  split at this
  · cases this
  · omega

theorem headerLoop_none {env : SegEnv} {maxFirst : Int} {ls : List SegLine} (L : List (Str × Nat))
    (hL : L.Pairwise (fun p q => q.2 ≤ p.2)) (st : SegState) (ho : OwnLines st.doc ls) :
    HeadersSet ls (fun s => ∃ p ∈ L, p.1 = s ∧ headerAccepted env maxFirst ls 2 p ∧
        ∀ q ∈ L, headerAccepted env maxFirst ls 2 q → q.2 ≤ p.2 + 1) st
      (L.foldl (headerStep env maxFirst ls) ⟨st, none⟩).st := by
  induction L with
  | nil => exact (HeadersSet.refl ls st).trans (HeadersSet.refl ls st) (by simp)
  | cons p L ih =>
    rw [List.pairwise_cons] at hL
    rw [List.foldl_cons]
    by_cases ha : headerAccepted env maxFirst ls 2 p
    · obtain ⟨r1, r2⟩ := headerStep_accept (h := ⟨st, none⟩) ho ha
      have e : headerStep env maxFirst ls ⟨st, none⟩ p = ⟨(headerStep env maxFirst ls ⟨st, none⟩ p).st, some (max 2 (p.2 - 1))⟩ := by
        rw [show headerStep env maxFirst ls ⟨st, none⟩ p = ⟨(headerStep env maxFirst ls ⟨st, none⟩ p).st,
          (headerStep env maxFirst ls ⟨st, none⟩ p).minCount⟩ from rfl, r2]
        rfl
      rw [e]
      refine r1.trans (headerLoop_some _ L _ (ho.congr r1.rel.same)) ?_
      intro s
      constructor
      · rintro ⟨q, hq, e1, e2, e3⟩
        rcases List.mem_cons.1 hq with rfl | hq
        · exact .inl e1.symm
        · refine .inr ⟨q, hq, e1, headerAccepted_le e2 ?_⟩
          have := e3 p List.mem_cons_self ha
          have := headerAccepted_count e2
          omega
      · rintro (rfl | ⟨q, hq, e1, e2⟩)
        · refine ⟨p, List.mem_cons_self, rfl, ha, ?_⟩
          intro q hq _
          rcases List.mem_cons.1 hq with rfl | hq
          · omega
          · have := hL.1 q hq; omega
        · have hc := headerAccepted_count e2
          refine ⟨q, List.mem_cons_of_mem _ hq, e1, headerAccepted_le e2 (by omega), ?_⟩
          intro z hz _
          rcases List.mem_cons.1 hz with rfl | hz
          · omega
          · have := hL.1 z hz; omega
    · rw [headerStep_reject (h := ⟨st, none⟩) ha]
      refine (HeadersSet.refl ls st).trans (ih hL.2) ?_
      intro s
      constructor
      · rintro ⟨q, hq, e1, e2, e3⟩
        rcases List.mem_cons.1 hq with rfl | hq
        · exact absurd e2 ha
        · exact .inr ⟨q, hq, e1, e2, fun z hz => e3 z (List.mem_cons_of_mem _ hz)⟩
      · rintro (h | ⟨q, hq, e1, e2, e3⟩)
        · exact h.elim
        · refine ⟨q, List.mem_cons_of_mem _ hq, e1, e2, ?_⟩
          intro z hz hz'
          rcases List.mem_cons.1 hz with rfl | hz
          · exact absurd hz' ha
          · exact e3 z hz hz'

theorem firstLineIndex_lt {ls : List SegLine} (hp : ls.Pairwise (fun l l' => l.index < l'.index)) {s : Str} (hs : ∃ l ∈ ls, l.text = s)
    (maxFirst : Int) : firstLineIndex ls s < maxFirst ↔ ∃ l ∈ ls, l.text = s ∧ (l.index : Int) < maxFirst := by
  unfold firstLineIndex
  induction ls with
  | nil => obtain ⟨l, hl, _⟩ := hs; cases hl
  | cons a ls ih =>
    rw [List.pairwise_cons] at hp
    rw [List.find?_cons]
    by_cases h : a.text = s
    · rw [show decide (a.text = s) = true from by simp [h]]
      simp only []
      constructor
      · intro hlt; exact ⟨a, List.mem_cons_self, h, hlt⟩
      · rintro ⟨l, hl, _, hlt⟩
        rcases List.mem_cons.1 hl with rfl | hl
        · exact hlt
        · have := hp.1 l hl; omega
    · rw [show decide (a.text = s) = false from by simp [h]]
      simp only []
      rw [ih hp.2 (by
        obtain ⟨l, hl, e⟩ := hs
        rcases List.mem_cons.1 hl with rfl | hl
        · exact absurd e h
        · exact ⟨l, hl, e⟩)]
      constructor
      · rintro ⟨l, hl, e⟩; exact ⟨l, List.mem_cons_of_mem _ hl, e⟩
      · rintro ⟨l, hl, e, e'⟩
        rcases List.mem_cons.1 hl with rfl | hl
        · exact absurd e h
        · exact ⟨l, hl, e, e'⟩

theorem headerAccepted_iff {env : SegEnv} {maxFirst : Int} {ls : List SegLine} (hp : ls.Pairwise (fun l l' => l.index < l'.index))
    {texts : List Str} {s : Str} (hs : ∃ l ∈ ls, l.text = s) :
    headerAccepted env maxFirst ls 2 (s, texts.count s) ↔ Spec.HeaderLike env maxFirst ls texts s := by
  unfold headerAccepted
  rw [firstLineIndex_lt hp hs]
  constructor
  · rintro ⟨h1, h2⟩
    unfold isPageHeaderText at h1
    simp only [] at h1
    split at h1
    · cases h1
    · next hc =>
      split at h1
      · cases h1
      · next ha =>
        split at h1
        · cases h1
        · next hb =>
          have hb' : s.any env.isSpace = true := by simpa using hb
          obtain ⟨c, hc1, hc2⟩ := List.any_eq_true.1 hb'
          refine ⟨by omega, ⟨c, hc1, hc2⟩, ?_, h2⟩
          have hne : s.isEmpty = false := by cases s with | nil => cases hc1 | cons _ _ => rfl
          rw [hne] at ha
          simp only [Bool.not_false, Bool.true_and, Bool.not_eq_true, List.all_eq_false] at ha
          obtain ⟨x, hx, hx'⟩ := ha
          refine ⟨x, hx, ?_⟩
          simp only [Bool.or_eq_false_iff, decide_eq_false_iff_not] at hx'
          exact ⟨hx'.1.1, hx'.1.2, hx'.2⟩
  · rintro ⟨h1, ⟨c, hc, hc'⟩, ⟨x, hx, hx1, hx2, hx3⟩, h4⟩
    refine ⟨?_, h4⟩
    unfold isPageHeaderText
    simp only []
    rw [if_neg (by omega), if_neg, if_neg]
    · simp only [Bool.not_eq_true', Bool.not_eq_false]
      exact List.any_eq_true.2 ⟨c, hc, hc'⟩
    · simp only [Bool.and_eq_true, not_and, List.all_eq_true]
      intro _ hall
      have := hall x hx
      rw [hx1, hx2] at this
      simp [hx3] at this

/-- Exactly the lines with the text of a page header are tagged. -/
theorem findPageHeaders_effect (env : SegEnv) (maxFirst : Int) {ls : List SegLine} {st : SegState} (ho : OwnLines st.doc ls) :
    HeadersSet ls (Spec.IsHeader env maxFirst ls ((ls.filter (fun l => !truthy (st.tag l.index))).map SegLine.text)) st
      (findPageHeaders env maxFirst ls st) := by
  unfold findPageHeaders
  generalize ht : (ls.filter (fun l => !truthy (st.tag l.index))).map SegLine.text = texts
  have hsub : ∀ s ∈ texts, ∃ l ∈ ls, l.text = s := by
    intro s hs
    rw [← ht] at hs
    obtain ⟨l, hl, e⟩ := List.mem_map.1 hs
    exact ⟨l, (List.mem_filter.1 hl).1, e⟩
  refine (HeadersSet.refl ls st).trans (headerLoop_none _ (mostCommon_pairwise texts) st ho) ?_
  intro s
  constructor
  · rintro ⟨h1, h2⟩
    right
    have hs : s ∈ texts := List.count_pos_iff.1 (by have := h1.repeated; omega)
    refine ⟨(s, texts.count s), (mem_mostCommon_str _ _).2 ⟨hs, rfl⟩, rfl, (headerAccepted_iff ho.index (hsub s hs)).2 h1, ?_⟩
    rintro ⟨q, n⟩ hq ha
    obtain ⟨hq1, hq2⟩ := (mem_mostCommon_str _ _).1 hq
    simp only [] at hq2
    subst hq2
    exact h2 q ((headerAccepted_iff ho.index (hsub q hq1)).1 ha)
  · rintro (h | ⟨⟨p, n⟩, hp, e1, e2, e3⟩)
    · exact h.elim
    · obtain ⟨hp1, hp2⟩ := (mem_mostCommon_str _ _).1 hp
      simp only [] at hp2 e1
      subst hp2
      subst e1
      refine ⟨(headerAccepted_iff ho.index (hsub p hp1)).1 e2, ?_⟩
      intro s' hs'
      have hm : s' ∈ texts := List.count_pos_iff.1 (by have := hs'.repeated; omega)
      exact e3 (s', texts.count s') ((mem_mostCommon_str _ _).2 ⟨hm, rfl⟩) ((headerAccepted_iff ho.index (hsub s' hm)).2 hs')

end Verif
