import Verif.Model.LineNumber
import Verif.Spec.Checks
import Verif.Lemmas.PyList
import Verif.Lemmas.TeiDoc

namespace Verif

theorem lnItems_mem (parseInt : Str → Option Int) (text : Nat → Str) (k : Nat) (ts : List Nat) (it : LnItem)
    (h : it ∈ lnItems parseInt text k ts) :
    k ≤ it.pos ∧ ts[it.pos - k]? = some it.token ∧ parseInt (text it.token) = some it.num ∧ 0 < it.num := by
  induction ts generalizing k with
  | nil => cases h
  | cons t ts ih =>
    have hrec : it ∈ lnItems parseInt text (k + 1) ts →
        k ≤ it.pos ∧ (t :: ts)[it.pos - k]? = some it.token ∧ parseInt (text it.token) = some it.num ∧ 0 < it.num := by
      intro h
      obtain ⟨h1, h2, h3, h4⟩ := ih (k + 1) h
      refine ⟨by omega, ?_, h3, h4⟩
      rw [show it.pos - k = (it.pos - (k + 1)) + 1 by omega, List.getElem?_cons_succ]
      exact h2
    unfold lnItems at h
    split at h
    · next n hn =>
      split at h
      · next hpos =>
        rcases List.mem_cons.1 h with rfl | h
        · simp [hn, hpos]
        · exact hrec h
      · exact hrec h
    · exact hrec h

theorem lnItems_pos (parseInt : Str → Option Int) (text : Nat → Str) (k : Nat) (ts : List Nat) :
    (lnItems parseInt text k ts).Pairwise (fun a b => a.pos < b.pos) := by
  induction ts generalizing k with
  | nil => exact .nil
  | cons t ts ih =>
    unfold lnItems
    split
    · split
      · refine List.pairwise_cons.2 ⟨?_, ih (k + 1)⟩
        intro b hb
        have := (lnItems_mem parseInt text (k + 1) ts b hb).1
        simp only; omega
      · exact ih (k + 1)
    · exact ih (k + 1)

/-- All positive integers among the tokens are candidates. -/
theorem lnItems_tokens (parseInt : Str → Option Int) (text : Nat → Str) (k : Nat) (ts : List Nat) :
    (lnItems parseInt text k ts).map (fun it => (it.token, it.num)) =
      ts.filterMap (Spec.positiveNumber parseInt text) := by
  induction ts generalizing k with
  | nil => rfl
  | cons t ts ih =>
    unfold lnItems
    rw [List.filterMap_cons]
    unfold Spec.positiveNumber at ih ⊢
    cases h : parseInt (text t) with
    | none => simp only [Option.filter_none, Option.map_none]; exact ih (k + 1)
    | some n =>
      by_cases hn : 0 < n
      · simp [hn, ih, Option.filter]
      · simp [hn, ih, Option.filter]

theorem lnLe_iff (a b : LnItem) : lnLe a b = true ↔ a.num < b.num ∨ (a.num = b.num ∧ a.pos ≤ b.pos) := by
  unfold lnLe; simp

theorem lnLe_total (a b : LnItem) : lnLe a b = true ∨ lnLe b a = true := by
  simp only [lnLe_iff]; omega

theorem lnLe_trans (a b c : LnItem) : lnLe a b = true → lnLe b c = true → lnLe a c = true := by
  simp only [lnLe_iff]; omega

/-- What holds for each line number sequence. -/
structure LnSeq (gap : Int) (s : List LnItem) : Prop where
  pos : s.Pairwise (fun a b => a.pos < b.pos)
  num : s.Pairwise (fun a b => a.num < b.num)
  gap : ∀ pre a b post, s = pre ++ a :: b :: post → b.num ≤ a.num + 1 + gap

theorem lnSeq_singleton (gap : Int) (a : LnItem) : LnSeq gap [a] := by
  refine ⟨by simp, by simp, ?_⟩
  intro pre x y post h
  have := congrArg List.length h
  simp at this
  omega

theorem lnSeq_snoc {gap : Int} {s : List LnItem} {a b : LnItem} (h : LnSeq gap (s ++ [a]))
    (h1 : a.pos < b.pos) (h2 : a.num < b.num) (h3 : b.num ≤ a.num + 1 + gap) : LnSeq gap ((s ++ [a]) ++ [b]) := by
  have hp := h.pos
  have hn := h.num
  rw [List.pairwise_append] at hp hn
  refine ⟨?_, ?_, ?_⟩
  · rw [List.pairwise_append]
    refine ⟨h.pos, by simp, ?_⟩
    intro x hx y hy
    rw [List.mem_singleton] at hy
    subst hy
    rcases List.mem_append.1 hx with hx | hx
    · have := hp.2.2 x hx a (by simp); omega
    · rw [List.mem_singleton] at hx; subst hx; exact h1
  · rw [List.pairwise_append]
    refine ⟨h.num, by simp, ?_⟩
    intro x hx y hy
    rw [List.mem_singleton] at hy
    subst hy
    rcases List.mem_append.1 hx with hx | hx
    · have := hn.2.2 x hx a (by simp); omega
    · rw [List.mem_singleton] at hx; subst hx; exact h2
  · intro pre x y post he
    cases hpost : post.reverse with
    | nil =>
      have : post = [] := by simpa using hpost
      subst this
      have e : (s ++ [a]) ++ [b] = (pre ++ [x]) ++ [y] := by simpa using he
      have e1 := List.append_inj' e rfl
      have e2 := List.append_inj' e1.1 rfl
      have hy : b = y := by simpa using e1.2
      have hx : a = x := by simpa using e2.2
      subst hy hx
      exact h3
    | cons z zs =>
      have hz : post = zs.reverse ++ [z] := by
        have := congrArg List.reverse hpost
        simpa using this
      subst hz
      have e : (s ++ [a]) ++ [b] = (pre ++ x :: y :: zs.reverse) ++ [z] := by simpa using he
      exact h.gap _ _ _ _ (List.append_inj' e rfl).1

theorem lnSequences_spec (gap : Int) (items : List LnItem) (done : List (List LnItem)) (cur : List LnItem)
    (last : LnItem) (all : List LnItem)
    (hs : (last :: items).Pairwise (fun a b => lnLe a b = true))
    (hpos : ∀ a ∈ all, ∀ b ∈ all, a.pos = b.pos → a = b)
    (hmem : ∀ a ∈ last :: items, a ∈ all)
    (hdone : ∀ s ∈ done, LnSeq gap s ∧ ∀ a ∈ s, a ∈ all) (hcur : LnSeq gap (cur ++ [last]) ∧ ∀ a ∈ cur, a ∈ all) :
    ∀ s ∈ lnSequences gap done cur last items, LnSeq gap s ∧ ∀ a ∈ s, a ∈ all := by
  induction items generalizing done cur last with
  | nil =>
    intro s h
    unfold lnSequences at h
    rcases List.mem_append.1 h with h | h
    · exact hdone s h
    · rw [List.mem_singleton] at h
      subst h
      refine ⟨hcur.1, ?_⟩
      intro a ha
      rcases List.mem_append.1 ha with ha | ha
      · exact hcur.2 a ha
      · rw [List.mem_singleton] at ha; subst ha; exact hmem _ (by simp)
  | cons item items ih =>
    unfold lnSequences
    simp only
    rw [List.pairwise_cons] at hs
    have hle := hs.1 item (by simp)
    rw [lnLe_iff] at hle
    split
    · -- ignored
      refine ih done cur last ?_ ?_ hdone hcur
      · refine List.pairwise_cons.2 ⟨fun b hb => hs.1 b (by simp [hb]), (List.pairwise_cons.1 hs.2).2⟩
      · intro a ha
        rcases List.mem_cons.1 ha with rfl | ha
        · exact hmem _ (by simp)
        · exact hmem _ (by simp [ha])
    · next hn =>
      simp only [Bool.or_eq_true, decide_eq_true_eq, not_or] at hn
      have hlt : last.pos < item.pos := by
        rcases Nat.lt_or_ge last.pos item.pos with h | h
        · exact h
        · exfalso
          have : last.pos = item.pos := by omega
          have := hpos last (hmem _ (by simp)) item (hmem _ (by simp)) this
          exact hn.2 (by rw [this])
      split
      · next hg =>
        simp only [Bool.and_eq_true, decide_eq_true_eq] at hg
        refine ih done (cur ++ [last]) item hs.2 (fun a ha => hmem a (by simp [ha])) hdone ⟨?_, ?_⟩
        · exact lnSeq_snoc hcur.1 hlt (by omega) hg.2
        · intro a ha
          rcases List.mem_append.1 ha with ha | ha
          · exact hcur.2 a ha
          · rw [List.mem_singleton] at ha; subst ha; exact hmem _ (by simp)
      · refine ih _ [] item hs.2 (fun a ha => hmem a (by simp [ha])) ?_ ⟨lnSeq_singleton gap item, by simp⟩
        intro s h
        rcases List.mem_append.1 h with h | h
        · exact hdone s h
        · rw [List.mem_singleton] at h
          subst h
          refine ⟨hcur.1, ?_⟩
          intro a ha
          rcases List.mem_append.1 ha with ha | ha
          · exact hcur.2 a ha
          · rw [List.mem_singleton] at ha; subst ha; exact hmem _ (by simp)

/-- A list that is one sequence is recognised as such. -/
theorem lnSequences_single (gap : Int) (items : List LnItem) (cur : List LnItem) (last : LnItem)
    (h : LnSeq gap (last :: items)) :
    lnSequences gap [] cur last items = [cur ++ last :: items] := by
  induction items generalizing cur last with
  | nil => rfl
  | cons item items ih =>
    unfold lnSequences
    have h1 := (List.pairwise_cons.1 h.pos).1 item (by simp)
    have h2 := (List.pairwise_cons.1 h.num).1 item (by simp)
    have h3 := h.gap [] last item items rfl
    simp only
    rw [if_neg, if_pos, ih]
    · simp
    · refine ⟨(List.pairwise_cons.1 h.pos).2, (List.pairwise_cons.1 h.num).2, ?_⟩
      intro pre a b post he
      exact h.gap (last :: pre) a b post (by rw [he]; rfl)
    · simp only [Bool.and_eq_true, decide_eq_true_eq]; omega
    · simp only [Bool.or_eq_true, decide_eq_true_eq]; omega

theorem getTag_setTag_level (d : Doc) (i j : Nat) (t : Option Str) :
    (d.setTag i t).getTag j = if j = i then t else d.getTag j := by
  have h1 : ∀ d : Doc, ∀ l, (d.clearSamePreserved i l).getTag j = d.getTag j := by
    intro d l
    unfold Doc.getTag
    rw [getAttr_clearSamePreserved, if_neg]
    exact fun h => scopedTag_ne_preserved none none l h.2.1
  have h2 : (d.setTagOnly i t).getTag j = if j = i then t else d.getTag j := by
    unfold Doc.getTag Doc.setTagOnly
    rw [getAttr_setAttr]
    simp
  unfold Doc.setTag
  simp only [if_true]
  split
  · exact h2
  · split
    · rw [h1, h1, h2]
    · exact h2

end Verif
