/-
Lemmas about merging lines into blocks.
-/
import Verif.Spec.Segmentation
import Verif.Lemmas.Segmentation

namespace Verif

theorem split_append_singleton {α : Type} {pre : List α} {x l : α} {a b : List α} (h : pre ++ [x] = a ++ l :: b) :
    (b = [] ∧ a = pre ∧ l = x) ∨ ∃ b', b = b' ++ [x] ∧ pre = a ++ l :: b' := by
  rcases List.eq_nil_or_concat b with rfl | ⟨b', y, rfl⟩
  · left
    have := List.append_inj_left' h rfl
    have h2 := List.append_inj_right' h rfl
    simp at h2
    exact ⟨rfl, this.symm, h2.symm⟩
  · right
    have h' : pre ++ [x] = (a ++ l :: b') ++ [y] := by rw [h]; simp
    have h1 := List.append_inj_left' h' rfl
    have h2 := List.append_inj_right' h' rfl
    simp at h2
    exact ⟨b', by rw [h2]; simp, h1⟩

theorem blockTags_append (a b : List (Option Str)) : Spec.blockTags (a ++ b) = Spec.blockTags a ++ Spec.blockTags b := by
  unfold Spec.blockTags; exact List.filterMap_append

/-- Whether the tag is that of a block. -/
def isBlockTag (t : Option Str) : Prop := truthy t = true ∧ t ≠ some c!"headnote" ∧ t ≠ some c!"page"

theorem blockTags_not {t : Option Str} (h : ¬ isBlockTag t) : Spec.blockTags [t] = [] := by
  unfold isBlockTag at h
  unfold Spec.blockTags
  rw [List.filterMap_cons, if_neg h]
  rfl

theorem blockTags_block {s : Str} (h : isBlockTag (some s)) : Spec.blockTags [some s] = [s] := by
  unfold isBlockTag at h
  unfold Spec.blockTags
  rw [List.filterMap_cons, if_pos h]
  rfl

theorem blockBefore_not {a : List (Option Str)} {t : Option Str} (h : ¬ isBlockTag t) :
    Spec.blockBefore (a ++ [t]) = Spec.blockBefore a := by
  unfold Spec.blockBefore; rw [blockTags_append, blockTags_not h, List.append_nil]

theorem blockBefore_block {a : List (Option Str)} {s : Str} (h : isBlockTag (some s)) :
    Spec.blockBefore (a ++ [some s]) = s := by
  unfold Spec.blockBefore; rw [blockTags_append, blockTags_block h]; simp

theorem blockAfter_not {a : List (Option Str)} {t : Option Str} (h : ¬ isBlockTag t) :
    Spec.blockAfter (a ++ [t]) = Spec.blockAfter a := by
  unfold Spec.blockAfter; rw [blockTags_append, blockTags_not h, List.append_nil]

theorem blockAfter_block {a : List (Option Str)} {s : Str} (h : isBlockTag (some s)) :
    Spec.blockAfter (a ++ [some s]) = (Spec.blockAfter a).or (some s) := by
  unfold Spec.blockAfter; rw [blockTags_append, blockTags_block h]; simp

theorem blockBefore_within {a b : List (Option Str)} {t : Option Str} (ht : truthy t = false) (hb : Spec.blockAfter b = none) :
    Spec.blockBefore (a ++ t :: b) = Spec.blockBefore a := by
  unfold Spec.blockAfter at hb
  rw [List.head?_eq_none_iff] at hb
  have : Spec.blockTags (a ++ t :: b) = Spec.blockTags a := by
    rw [show a ++ t :: b = a ++ ([t] ++ b) from rfl, blockTags_append, blockTags_append, hb, blockTags_not, List.append_nil, List.append_nil]
    rintro ⟨h, _⟩
    rw [ht] at h; cases h
  unfold Spec.blockBefore; rw [this]

theorem setAllLines_tag (st : SegState) (ls : List SegLine) (t : Option Str) (j : Nat) :
    (setAllLines st ls t).tag j = if j ∈ ls.map SegLine.index then t else st.tag j := by
  unfold setAllLines
  induction ls generalizing st with
  | nil => simp
  | cons l ls ih =>
    rw [List.foldl_cons, ih, set_tag]
    by_cases h1 : j ∈ ls.map SegLine.index
    · rw [if_pos h1, if_pos (by simp only [List.map_cons, List.mem_cons]; exact .inr h1)]
    · rw [if_neg h1]
      by_cases h2 : j = l.index
      · rw [if_pos h2, if_pos (by simp [h2])]
      · rw [if_neg h2, if_neg (by simp only [List.map_cons, List.mem_cons]; rintro (h | h); exact h2 h; exact h1 h)]

theorem setAllLines_relabels {ls : List SegLine} (ms : List SegLine) (hm : ∀ m ∈ ms, m ∈ ls) (t : Option Str) (st : SegState)
    (ho : OwnLines st.doc ls) : Relabels ls st (setAllLines st ms t) ∧
      ∀ l ∈ ls, l.index ∉ ms.map SegLine.index → SameLine st (setAllLines st ms t) l := by
  unfold setAllLines
  induction ms generalizing st with
  | nil => exact ⟨.refl _ _, fun _ _ _ => ⟨rfl, fun _ _ => rfl⟩⟩
  | cons m ms ih =>
    rw [List.foldl_cons]
    have hml := hm m List.mem_cons_self
    have h1 := set_only ho hml t
    obtain ⟨a, b⟩ := ih (fun x hx => hm x (List.mem_cons_of_mem _ hx)) (st.set m t) (ho.congr h1.same)
    refine ⟨(set_relabels ho hml t).trans a, ?_⟩
    intro l hl hne
    rw [List.map_cons, List.mem_cons] at hne
    exact (h1.other l hl (fun e => hne (.inl e))).trans (b l hl (fun e => hne (.inr e)))

theorem lineTagsOrPreserved_congr {st st' : SegState} {l : SegLine} (h : SameLine st st' l)
    (hn : ∀ i ∈ l.line.nonSpace, i ∈ l.line.tokens) : lineTagsOrPreserved st'.doc l.line = lineTagsOrPreserved st.doc l.line := by
  unfold lineTagsOrPreserved
  apply List.map_congr_left
  intro i hi
  exact getTagOrPreserved_congr (h.2 i (hn i hi)) none

/-- Whether the line is not merged because of a preserved page number. -/
def keptPage (preserve : Bool) (st : SegState) (l : SegLine) : Bool :=
  preserve && decide (some segPage ∈ lineTagsOrPreserved st.doc l.line)

/-- Whether the line is a candidate, given the tags of the lines before and after it. -/
def isCandidate (preserve : Bool) (enabled : List Str) (st : SegState) (a : List SegLine) (l : SegLine) (b : List SegLine) : Prop :=
  truthy (st.tag l.index) = false ∧ keptPage preserve st l = false ∧
    Spec.blockBefore (a.map (fun l => st.tag l.index)) ∈ enabled ∧ Spec.blockAfter (b.map (fun l => st.tag l.index)) = none

/-- The state of the loop after the lines `pre`. -/
structure MergeInv (preserve : Bool) (enabled : List Str) (ls : List SegLine) (st : SegState) (pre : List SegLine) (m : MergeState) : Prop where
  rel : Relabels ls st m.st
  prev : m.prev = some (Spec.blockBefore (pre.map (fun l => st.tag l.index)))
  rest : ∀ l ∈ ls, l ∉ pre → SameLine st m.st l
  candsIn : ∀ l ∈ m.cands, l ∈ pre
  cands : ∀ a l b, pre = a ++ l :: b → (l ∈ m.cands ↔ isCandidate preserve enabled st a l b)
  tags : ∀ a l b, pre = a ++ l :: b → m.st.tag l.index =
    Spec.mergedTag enabled [] (keptPage preserve st l) (a.map (fun l => st.tag l.index)) (st.tag l.index) (b.map (fun l => st.tag l.index))
  kept : ∀ l ∈ pre, m.st.tag l.index = st.tag l.index → SameLine st m.st l

theorem mergedTag_truthy {enabled remaining : List Str} {p : Bool} {a b : List (Option Str)} {t : Option Str} (h : truthy t = true) :
    Spec.mergedTag enabled remaining p a t b = t := by
  unfold Spec.mergedTag
  rw [if_neg]
  rintro ⟨h', _⟩
  rw [h] at h'; cases h'

theorem mergeStep_inv {preserve : Bool} {enabled : List Str} {ls : List SegLine} {st : SegState} (ho : OwnLines st.doc ls)
    (hen : ∀ e ∈ enabled, isBlockTag (some e))
    {pre : List SegLine} {l0 : SegLine} (hl0 : l0 ∈ ls) (hnew : l0 ∉ pre) (hpre : ∀ l ∈ pre, l ∈ ls) {m : MergeState}
    (h : MergeInv preserve enabled ls st pre m) :
    MergeInv preserve enabled ls st (pre ++ [l0]) (mergeStep preserve enabled m l0) := by
  have ho' : OwnLines m.st.doc ls := ho.congr h.rel.same
  have hsame := h.rest l0 hl0 hnew
  have ht : m.st.tag l0.index = st.tag l0.index := hsame.1
  have hlt : lineTagsOrPreserved m.st.doc l0.line = lineTagsOrPreserved st.doc l0.line :=
    lineTagsOrPreserved_congr hsame (ho.nonSpace l0 hl0)
  have hnc : l0 ∉ m.cands := fun hc => hnew (h.candsIn l0 hc)
  have hrest : ∀ l ∈ ls, l ∉ pre ++ [l0] → SameLine st m.st l := fun l hl hn => h.rest l hl (fun hp => hn (List.mem_append_left _ hp))
  have hkept : ∀ l ∈ pre ++ [l0], m.st.tag l.index = st.tag l.index → SameLine st m.st l := by
    intro l hl e
    rcases List.mem_append.1 hl with hl | hl
    · exact h.kept l hl e
    · rw [List.mem_singleton.1 hl]; exact hsame
  unfold mergeStep
  simp only []
  rw [ht]
  by_cases hb : isBlockTag (st.tag l0.index)
  · -- a line of a block
    obtain ⟨s, hs⟩ : ∃ s, st.tag l0.index = some s := by
      cases e : st.tag l0.index with
      | none => rw [e] at hb; cases hb.1
      | some s => exact ⟨s, rfl⟩
    rw [hs] at hb ⊢
    rw [if_neg (by rintro (e | e); exact hb.2.1 e; exact hb.2.2 e), if_pos hb.1, if_pos hb.1]
    have hpr : ∀ x : List SegLine, Spec.blockBefore ((x ++ [l0]).map (fun l => st.tag l.index)) = s := by
      intro x
      rw [List.map_append, List.map_cons, List.map_nil, hs, blockBefore_block hb]
    have hab : ∀ x : List SegLine, Spec.blockAfter ((x ++ [l0]).map (fun l => st.tag l.index)) =
        (Spec.blockAfter (x.map (fun l => st.tag l.index))).or (some s) := by
      intro x
      rw [List.map_append, List.map_cons, List.map_nil, hs, blockAfter_block hb]
    have hnocand : ∀ a l b, pre ++ [l0] = a ++ l :: b → ¬ isCandidate preserve enabled st a l b := by
      intro a l b e hc
      rcases split_append_singleton e with ⟨rfl, rfl, rfl⟩ | ⟨b', rfl, _⟩
      · have := hc.1; rw [hs, hb.1] at this; cases this
      · have := hc.2.2.2
        rw [hab] at this
        simp at this
    by_cases hin : some s ∈ enabled.map some
    · rw [if_pos hin]
      have hin' : s ∈ enabled := by
        obtain ⟨x, hx, e⟩ := List.mem_map.1 hin
        injection e with e; rw [← e]; exact hx
      generalize hc1 : (if m.prev ≠ some s then [] else m.cands) = c1
      have hc1m : ∀ l, l ∈ c1 ↔ l ∈ m.cands ∧ m.prev = some s := by
        intro l
        rw [← hc1]
        by_cases e : m.prev = some s
        · rw [if_neg (fun h => h e)]; simp [e]
        · rw [if_pos e]; simp [e]
      have hc1l : ∀ l ∈ c1, l ∈ ls := fun l hl => hpre l (h.candsIn l ((hc1m l).1 hl).1)
      obtain ⟨r1, r2⟩ := setAllLines_relabels c1 hc1l (some s) m.st ho'
      have hmem : ∀ l ∈ ls, (l.index ∈ c1.map SegLine.index ↔ l ∈ c1) := by
        intro l hl
        constructor
        · intro hi
          obtain ⟨x, hx, e⟩ := List.mem_map.1 hi
          rw [← ho.inj (hc1l x hx) hl e]; exact hx
        · exact fun hl => List.mem_map_of_mem hl
      refine ⟨h.rel.trans r1, by rw [hpr], ?_, by simp, ?_, ?_, ?_⟩
      · intro l hl hn
        refine (hrest l hl hn).trans (r2 l hl ?_)
        rw [hmem l hl]
        intro hl1
        exact hn (List.mem_append_left _ (h.candsIn l ((hc1m l).1 hl1).1))
      · intro a l b e
        constructor
        · intro hl; cases hl
        · intro hc; exact absurd hc (hnocand a l b e)
      · intro a l b e
        show (setAllLines m.st c1 (some s)).tag l.index = _
        rw [setAllLines_tag]
        rcases split_append_singleton e with ⟨rfl, rfl, rfl⟩ | ⟨b', rfl, e'⟩
        · rw [if_neg]
          · rw [ht, mergedTag_truthy (by rw [hs]; exact hb.1)]
          · rw [hmem l hl0]
            exact fun hl1 => hnc ((hc1m l).1 hl1).1
        · have hlp : l ∈ pre := by rw [e']; simp
          have hll := hpre l hlp
          have hm1 : l.index ∈ c1.map SegLine.index ↔ l ∈ m.cands ∧ m.prev = some s := by rw [hmem l hll, hc1m]
          rw [h.tags a l b' e']
          have hcl := h.cands a l b' e'
          by_cases hcm : l ∈ m.cands
          · have hc := hcl.1 hcm
            have hbw : Spec.blockBefore (pre.map (fun l => st.tag l.index)) = Spec.blockBefore (a.map (fun l => st.tag l.index)) := by
              rw [e', List.map_append, List.map_cons, blockBefore_within hc.1 hc.2.2.2]
            by_cases hp : m.prev = some s
            · rw [if_pos (hm1.2 ⟨hcm, hp⟩)]
              rw [h.prev, hbw] at hp
              injection hp with hp
              unfold Spec.mergedTag
              rw [if_pos]
              · rw [hp]
              · refine ⟨hc.1, hc.2.1, hc.2.2.1, .inl ?_⟩
                rw [hab, hc.2.2.2, hp]; rfl
            · rw [if_neg (fun hx => hp (hm1.1 hx).2)]
              unfold Spec.mergedTag
              rw [if_neg, if_neg]
              · rintro ⟨_, _, _, hx | ⟨_, hx⟩⟩
                · rw [hab, hc.2.2.2] at hx
                  apply hp
                  rw [h.prev, hbw]
                  exact hx.symm
                · cases hx
              · rintro ⟨_, _, _, hx | ⟨_, hx⟩⟩
                · rw [hc.2.2.2] at hx; cases hx
                · cases hx
          · rw [if_neg (fun hx => hcm (hm1.1 hx).1)]
            by_cases hc0 : truthy (st.tag l.index) = false ∧ keptPage preserve st l = false ∧
                Spec.blockBefore (a.map (fun l => st.tag l.index)) ∈ enabled
            · have : Spec.blockAfter (b'.map (fun l => st.tag l.index)) ≠ none :=
                fun hx => hcm (hcl.2 ⟨hc0.1, hc0.2.1, hc0.2.2, hx⟩)
              obtain ⟨z, hz⟩ := Option.ne_none_iff_exists'.1 this
              unfold Spec.mergedTag
              rw [hab, hz]
              rfl
            · unfold Spec.mergedTag
              rw [if_neg (fun hx => hc0 ⟨hx.1, hx.2.1, hx.2.2.1⟩), if_neg (fun hx => hc0 ⟨hx.1, hx.2.1, hx.2.2.1⟩)]
      · intro l hl e
        have hll : l ∈ ls := by
          rcases List.mem_append.1 hl with hl | hl
          · exact hpre l hl
          · rw [List.mem_singleton.1 hl]; exact hl0
        change (setAllLines m.st c1 (some s)).tag l.index = _ at e
        by_cases hcm : l ∈ c1
        · exfalso
          rw [setAllLines_tag, if_pos ((hmem l hll).2 hcm)] at e
          have hcm' := ((hc1m l).1 hcm).1
          obtain ⟨a, b, e'⟩ := List.append_of_mem (h.candsIn l hcm')
          have := ((h.cands a l b e').1 hcm').1
          rw [← e, hb.1] at this
          cases this
        · have hnm : l.index ∉ c1.map SegLine.index := fun hx => hcm ((hmem l hll).1 hx)
          rw [setAllLines_tag, if_neg hnm] at e
          exact (hkept l hl e).trans (r2 l hll hnm)
    · rw [if_neg hin]
      have hin' : s ∉ enabled := fun hx => hin (List.mem_map_of_mem hx)
      refine ⟨h.rel, by rw [hpr], hrest, by simp, ?_, ?_, hkept⟩
      · intro a l b e
        constructor
        · intro hl; cases hl
        · intro hc; exact absurd hc (hnocand a l b e)
      · intro a l b e
        rcases split_append_singleton e with ⟨rfl, rfl, rfl⟩ | ⟨b', rfl, e'⟩
        · rw [ht, mergedTag_truthy (by rw [hs]; exact hb.1)]
        · show m.st.tag l.index = _
          rw [h.tags a l b' e']
          unfold Spec.mergedTag
          rw [hab]
          cases hz : Spec.blockAfter (b'.map (fun l => st.tag l.index)) with
          | some z => rfl
          | none =>
            rw [if_neg, if_neg]
            · rintro ⟨_, _, h3, hx | ⟨hx, _⟩⟩
              · injection hx with hx; rw [← hx] at h3; exact hin' h3
              · cases hx
            · rintro ⟨_, _, _, hx | ⟨_, hx⟩⟩
              · cases hx
              · cases hx
  · have hnotin : st.tag l0.index ∉ enabled.map some := by
      intro hx
      obtain ⟨e, he, hh⟩ := List.mem_map.1 hx
      exact hb (hh ▸ hen e he)
    have hpr : ∀ x : List SegLine, Spec.blockBefore ((x ++ [l0]).map (fun l => st.tag l.index)) =
        Spec.blockBefore (x.map (fun l => st.tag l.index)) := by
      intro x
      rw [List.map_append, List.map_cons, List.map_nil, blockBefore_not hb]
    have hab : ∀ x : List SegLine, Spec.blockAfter ((x ++ [l0]).map (fun l => st.tag l.index)) =
        Spec.blockAfter (x.map (fun l => st.tag l.index)) := by
      intro x
      rw [List.map_append, List.map_cons, List.map_nil, blockAfter_not hb]
    have htags : ∀ a l b, pre ++ [l0] = a ++ l :: b → m.st.tag l.index =
        Spec.mergedTag enabled [] (keptPage preserve st l) (a.map (fun l => st.tag l.index)) (st.tag l.index) (b.map (fun l => st.tag l.index)) := by
      intro a l b e
      rcases split_append_singleton e with ⟨rfl, rfl, rfl⟩ | ⟨b', rfl, e'⟩
      · rw [ht]
        unfold Spec.mergedTag
        rw [if_neg]
        rintro ⟨_, _, _, hx | ⟨_, hx⟩⟩
        · cases hx
        · cases hx
      · rw [h.tags a l b' e']
        unfold Spec.mergedTag
        rw [hab]
    have hold : ∀ (c : List SegLine), (∀ l ∈ pre, (l ∈ c ↔ l ∈ m.cands)) → (l0 ∈ c ↔ isCandidate preserve enabled st pre l0 []) →
        ∀ a l b, pre ++ [l0] = a ++ l :: b → (l ∈ c ↔ isCandidate preserve enabled st a l b) := by
      intro c hc1 hc2 a l b e
      rcases split_append_singleton e with ⟨rfl, rfl, rfl⟩ | ⟨b', rfl, e'⟩
      · exact hc2
      · rw [hc1 l (by rw [e']; simp), h.cands a l b' e']
        unfold isCandidate
        rw [hab]
    have hstay : ¬ isCandidate preserve enabled st pre l0 [] → MergeInv preserve enabled ls st (pre ++ [l0]) m := by
      intro hnc0
      refine ⟨h.rel, by rw [h.prev, hpr], hrest, fun l hl => List.mem_append_left _ (h.candsIn l hl), ?_, htags, hkept⟩
      exact hold m.cands (fun _ _ => Iff.rfl) ⟨fun hx => absurd hx hnc, fun hx => absurd hx hnc0⟩
    by_cases hig : st.tag l0.index = some segHeadnote ∨ st.tag l0.index = some segPage
    · rw [if_pos hig]
      apply hstay
      intro hc
      rcases hig with e | e <;> (have := hc.1; rw [e] at this; cases this)
    · rw [if_neg hig]
      have hf : truthy (st.tag l0.index) = false := by
        cases e : truthy (st.tag l0.index) with
        | false => rfl
        | true => exact absurd ⟨e, fun x => hig (.inl x), fun x => hig (.inr x)⟩ hb
      rw [hf]
      simp only [Bool.false_eq_true, if_false]
      rw [if_neg hnotin, hlt]
      cases hk : keptPage preserve st l0 with
      | true =>
        have hk' : (preserve && decide (some segPage ∈ lineTagsOrPreserved st.doc l0.line)) = true := hk
        rw [if_pos hk']
        apply hstay
        intro hc
        have := hc.2.1
        rw [hk] at this; cases this
      | false =>
        have hk' : ¬ (preserve && decide (some segPage ∈ lineTagsOrPreserved st.doc l0.line)) = true := by
          intro hx
          have hx : keptPage preserve st l0 = true := hx
          rw [hk] at hx; cases hx
        rw [if_neg hk', h.prev]
        by_cases hin : Spec.blockBefore (pre.map (fun l => st.tag l.index)) ∈ enabled
        · rw [if_pos (List.mem_map_of_mem hin)]
          refine ⟨h.rel, by rw [hpr, ← h.prev], hrest, ?_, ?_, htags, hkept⟩
          · intro l hl
            rcases List.mem_append.1 hl with hl | hl
            · exact List.mem_append_left _ (h.candsIn l hl)
            · exact List.mem_append_right _ hl
          · apply hold
            · intro l hl
              rw [List.mem_append, List.mem_singleton]
              constructor
              · rintro (hx | rfl)
                · exact hx
                · exact absurd hl hnew
              · exact .inl
            · constructor
              · intro _; exact ⟨hf, hk, hin, rfl⟩
              · intro _; simp
        · rw [if_neg]
          · apply hstay
            intro hc
            exact hin hc.2.2.1
          · intro hx
            obtain ⟨y, hy, e⟩ := List.mem_map.1 hx
            injection e with e
            exact hin (e ▸ hy)

theorem mergeLoop_inv {preserve : Bool} {enabled : List Str} {ls : List SegLine} {st : SegState} (ho : OwnLines st.doc ls)
    (hen : ∀ e ∈ enabled, isBlockTag (some e)) (pre suf : List SegLine) (hls : ls = pre ++ suf) (m : MergeState)
    (h : MergeInv preserve enabled ls st pre m) :
    MergeInv preserve enabled ls st ls (suf.foldl (mergeStep preserve enabled) m) := by
  induction suf generalizing pre m with
  | nil => rw [List.append_nil] at hls; rw [hls] at h ⊢; exact h
  | cons l suf ih =>
    rw [List.foldl_cons]
    apply ih (pre ++ [l]) (by rw [hls]; simp)
    have hp := ho.index
    rw [hls] at hp
    apply mergeStep_inv ho hen (by rw [hls]; simp) _ (by intro x hx; rw [hls]; simp [hx]) h
    intro hx
    have := (List.pairwise_append.1 hp).2.2 l hx l List.mem_cons_self
    omega

/-- What merging lines does. -/
theorem mergeLines_effect {preserve : Bool} {enabled remaining : List Str} {ls : List SegLine} {st : SegState} (ho : OwnLines st.doc ls)
    (hen : ∀ e ∈ enabled, isBlockTag (some e)) :
    let st' := mergeLines preserve enabled remaining ls st
    Relabels ls st st' ∧
    (∀ a l b, ls = a ++ l :: b → st'.tag l.index =
      Spec.mergedTag enabled remaining (keptPage preserve st l) (a.map (fun l => st.tag l.index)) (st.tag l.index)
        (b.map (fun l => st.tag l.index))) ∧
    ∀ l ∈ ls, st'.tag l.index = st.tag l.index → SameLine st st' l := by
  intro st'
  have h0 : MergeInv preserve enabled ls st [] ⟨st, [], some segFront⟩ :=
    ⟨.refl _ _, rfl, fun _ _ _ => ⟨rfl, fun _ _ => rfl⟩, by simp, by simp, by simp, by simp⟩
  have h := mergeLoop_inv ho hen [] ls rfl _ h0
  have e : st' = mergeLines preserve enabled remaining ls st := rfl
  unfold mergeLines at e
  simp only [] at e
  generalize ls.foldl (mergeStep preserve enabled) ⟨st, [], some segFront⟩ = m at h e
  have ho' : OwnLines m.st.doc ls := ho.congr h.rel.same
  have hmem : ∀ l ∈ ls, (l.index ∈ m.cands.map SegLine.index ↔ l ∈ m.cands) := by
    intro l hl
    constructor
    · intro hi
      obtain ⟨x, hx, e⟩ := List.mem_map.1 hi
      rw [← ho.inj (h.candsIn x hx) hl e]; exact hx
    · exact fun hl => List.mem_map_of_mem hl
  have hbw : ∀ a l b, ls = a ++ l :: b → isCandidate preserve enabled st a l b →
      m.prev = some (Spec.blockBefore (a.map (fun l => st.tag l.index))) := by
    intro a l b e hc
    rw [h.prev, e, List.map_append, List.map_cons, blockBefore_within hc.1 hc.2.2.2]
  by_cases hr : m.prev ∈ remaining.map some
  · rw [if_pos hr] at e
    have hr' : Spec.blockBefore (ls.map (fun l => st.tag l.index)) ∈ remaining := by
      rw [h.prev] at hr
      obtain ⟨x, hx, e⟩ := List.mem_map.1 hr
      injection e with e; rw [← e]; exact hx
    obtain ⟨r1, r2⟩ := setAllLines_relabels m.cands h.candsIn m.prev m.st ho'
    rw [← e] at r1 r2
    refine ⟨h.rel.trans r1, ?_, ?_⟩
    · intro a l b el
      have hl : l ∈ ls := by rw [el]; simp
      rw [e, setAllLines_tag]
      by_cases hc : l ∈ m.cands
      · rw [if_pos ((hmem l hl).2 hc)]
        have hc' := (h.cands a l b el).1 hc
        rw [hbw a l b el hc']
        unfold Spec.mergedTag
        rw [if_pos]
        refine ⟨hc'.1, hc'.2.1, hc'.2.2.1, .inr ⟨hc'.2.2.2, ?_⟩⟩
        have := hbw a l b el hc'
        rw [h.prev] at this
        injection this with this
        rw [← this]; exact hr'
      · rw [if_neg (fun hx => hc ((hmem l hl).1 hx)), h.tags a l b el]
        unfold Spec.mergedTag
        by_cases hc0 : truthy (st.tag l.index) = false ∧ keptPage preserve st l = false ∧
            Spec.blockBefore (a.map (fun l => st.tag l.index)) ∈ enabled
        · have : Spec.blockAfter (b.map (fun l => st.tag l.index)) ≠ none :=
            fun hx => hc ((h.cands a l b el).2 ⟨hc0.1, hc0.2.1, hc0.2.2, hx⟩)
          obtain ⟨z, hz⟩ := Option.ne_none_iff_exists'.1 this
          rw [hz]
          simp
        · rw [if_neg (fun hx => hc0 ⟨hx.1, hx.2.1, hx.2.2.1⟩), if_neg (fun hx => hc0 ⟨hx.1, hx.2.1, hx.2.2.1⟩)]
    · intro l hl et
      rw [e, setAllLines_tag] at et
      by_cases hc : l ∈ m.cands
      · exfalso
        rw [if_pos ((hmem l hl).2 hc)] at et
        obtain ⟨a, b, el⟩ := List.append_of_mem hl
        have hc' := (h.cands a l b el).1 hc
        have h1 := hc'.1
        rw [← et, hbw a l b el hc', (hen _ hc'.2.2.1).1] at h1
        cases h1
      · have hnm : l.index ∉ m.cands.map SegLine.index := fun hx => hc ((hmem l hl).1 hx)
        rw [if_neg hnm] at et
        exact (h.kept l hl et).trans (r2 l hl hnm)
  · rw [if_neg hr] at e
    rw [e]
    refine ⟨h.rel, ?_, h.kept⟩
    intro a l b el
    rw [h.tags a l b el]
    unfold Spec.mergedTag
    by_cases hc0 : truthy (st.tag l.index) = false ∧ keptPage preserve st l = false ∧
        Spec.blockBefore (a.map (fun l => st.tag l.index)) ∈ enabled
    · cases hz : Spec.blockAfter (b.map (fun l => st.tag l.index)) with
      | some z => simp
      | none =>
        have hp := hbw a l b el ⟨hc0.1, hc0.2.1, hc0.2.2, hz⟩
        rw [if_neg, if_neg]
        · rintro ⟨_, _, _, hx | ⟨_, hx⟩⟩
          · cases hx
          · apply hr; rw [hp]; exact List.mem_map_of_mem hx
        · rintro ⟨_, _, _, hx | ⟨_, hx⟩⟩
          · cases hx
          · cases hx
    · rw [if_neg (fun hx => hc0 ⟨hx.1, hx.2.1, hx.2.2.1⟩), if_neg (fun hx => hc0 ⟨hx.1, hx.2.1, hx.2.2.1⟩)]

end Verif
