/-
Lemmas about the selection of index ranges.
-/
import Verif.Spec.SimpleMatching
import Verif.Lemmas.PyList

namespace Verif

theorem rangeLe_iff (r r' : Nat × Nat) : rangeLe r r' = true ↔ r.1 < r'.1 ∨ (r.1 = r'.1 ∧ r.2 ≤ r'.2) := by
  simp [rangeLe]

theorem rangeLe_total (a b : Nat × Nat) : rangeLe a b = true ∨ rangeLe b a = true := by
  simp only [rangeLe_iff]; omega

theorem rangeLe_trans (a b c : Nat × Nat) : rangeLe a b = true → rangeLe b c = true → rangeLe a c = true := by
  simp only [rangeLe_iff]; omega

theorem inOrder_iff (l : List (Nat × Nat)) : Spec.InOrder l ↔ l.Pairwise (fun a b => rangeLe a b = true) := by
  unfold Spec.InOrder
  constructor <;> intro h <;> refine h.imp ?_ <;> intro a b hab
  · exact (rangeLe_iff a b).2 hab
  · exact (rangeLe_iff a b).1 hab

theorem sortBy_inOrder (l : List (Nat × Nat)) : Spec.InOrder (sortBy rangeLe l) :=
  (inOrder_iff _).2 (sortBy_pairwise rangeLe rangeLe_total rangeLe_trans l)

theorem sortBy_of_inOrder (l : List (Nat × Nat)) (h : Spec.InOrder l) : sortBy rangeLe l = l :=
  sortBy_of_pairwise _ _ ((inOrder_iff _).1 h)

theorem Spec.InOrder.append_left {a b : List (Nat × Nat)} (h : Spec.InOrder (a ++ b)) : Spec.InOrder a :=
  (List.pairwise_append.1 h).1

/-- For neighbouring groups in order, of proper ranges, `should_merge` decides whether they are close. -/
theorem shouldMerge_iff (c c' : Cluster) (hc : c ≠ []) (hc' : c' ≠ []) (ho : Spec.InOrder (c ++ c'))
    (hv : ∀ r ∈ c ++ c', r.1 ≤ r.2) : c.shouldMerge c' = true ↔ Spec.Close c c' := by
  obtain ⟨a, ha⟩ : ∃ a, c.head? = some a := by cases c with | nil => exact absurd rfl hc | cons a _ => exact ⟨a, rfl⟩
  obtain ⟨z, hz⟩ : ∃ z, c.getLast? = some z := ⟨_, List.getLast?_eq_some_getLast hc⟩
  obtain ⟨a', ha'⟩ : ∃ a, c'.head? = some a := by cases c' with | nil => exact absurd rfl hc' | cons a _ => exact ⟨a, rfl⟩
  obtain ⟨z', hz'⟩ : ∃ z, c'.getLast? = some z := ⟨_, List.getLast?_eq_some_getLast hc'⟩
  have sub (l : List (Nat × Nat)) (a z : Nat × Nat) (hl : Spec.InOrder l) (ha : l.head? = some a) (hz : l.getLast? = some z) :
      a.1 ≤ z.1 := by
    cases l with
    | nil => cases ha
    | cons x l =>
      cases ha
      have := List.mem_of_getLast? hz
      rcases List.mem_cons.1 this with rfl | hm
      · omega
      · have := (List.pairwise_cons.1 hl).1 z hm
        omega
  have h1 := List.pairwise_append.1 ho
  have e1 := sub c a z h1.1 ha hz
  have e2 := sub c' a' z' h1.2.1 ha' hz'
  have mz := List.mem_of_getLast? hz
  have mz' := List.mem_of_getLast? hz'
  have ma' := List.mem_of_head? ha'
  have e3 := hv z (List.mem_append_left _ mz)
  have e4 := hv z' (List.mem_append_right _ mz')
  have e5 := h1.2.2 a (List.mem_of_head? ha) a' ma'
  simp only [Cluster.shouldMerge, Cluster.gapTo, Cluster.len, Cluster.start, Cluster.stop, Spec.Close,
    Spec.groupStart, Spec.groupEnd, Spec.groupLength, ha, hz, ha', hz', Option.map_some, Option.getD_some,
    decide_eq_true_eq]
  split <;> omega

theorem mergePass_flatten (last : Cluster) (cs : List Cluster) (ho : Spec.InOrder (last ++ cs.flatten)) :
    (mergePass last cs).flatten = last ++ cs.flatten := by
  induction cs generalizing last with
  | nil => simp [mergePass]
  | cons c cs ih =>
    unfold mergePass
    rw [List.flatten_cons, ← List.append_assoc] at ho
    split
    · rw [mkCluster, sortBy_of_inOrder _ ho.append_left, ih _ ho, List.flatten_cons, List.append_assoc]
    · rw [List.append_assoc] at ho
      rw [List.flatten_cons, ih c (List.pairwise_append.1 ho).2.1, List.flatten_cons]

theorem mergePass_length (last : Cluster) (cs : List Cluster) :
    (mergePass last cs).length ≤ cs.length + 1 ∧
    (hasMerged last cs = true → (mergePass last cs).length < cs.length + 1) ∧
    (hasMerged last cs = false → mergePass last cs = last :: cs) := by
  induction cs generalizing last with
  | nil => simp [mergePass, hasMerged]
  | cons c cs ih =>
    unfold mergePass hasMerged
    split
    · have := (ih (mkCluster (last ++ c))).1
      refine ⟨by simp; omega, fun _ => by simp; omega, fun h => by cases h⟩
    · have := ih c
      refine ⟨by simp; omega, fun h => ?_, fun h => ?_⟩
      · have := this.2.1 h
        simp; omega
      · rw [this.2.2 h]

theorem mergePass_ne_nil (last : Cluster) (cs : List Cluster) : mergePass last cs ≠ [] := by
  induction cs generalizing last with
  | nil => simp [mergePass]
  | cons c cs ih => unfold mergePass; split <;> simp [ih]

theorem mergePass_linked (last : Cluster) (cs : List Cluster) (ho : Spec.InOrder (last ++ cs.flatten))
    (hv : ∀ r ∈ last ++ cs.flatten, r.1 ≤ r.2)
    (hl : ∀ c ∈ last :: cs, c ≠ [] ∧ Spec.Linked c) : ∀ c ∈ mergePass last cs, c ≠ [] ∧ Spec.Linked c := by
  induction cs generalizing last with
  | nil => simpa [mergePass] using hl
  | cons c cs ih =>
    unfold mergePass
    rw [List.flatten_cons, ← List.append_assoc] at ho hv
    have hlast := hl last (by simp)
    have hc := hl c (by simp)
    split
    · next hm =>
      rw [shouldMerge_iff _ _ hlast.1 hc.1 ho.append_left (fun r hr => hv r (List.mem_append_left _ hr))] at hm
      rw [mkCluster, sortBy_of_inOrder _ ho.append_left]
      apply ih _ ho hv
      intro x hx
      rcases List.mem_cons.1 hx with rfl | hx
      · exact ⟨by simp [hlast.1], Spec.Linked.join _ _ hlast.2 hc.2 hm⟩
      · exact hl x (by simp [hx])
    · rw [List.append_assoc] at ho hv
      intro x hx
      rcases List.mem_cons.1 hx with rfl | hx
      · exact hlast
      · exact ih c (List.pairwise_append.1 ho).2.1 (fun r hr => hv r (List.mem_append_right _ hr))
          (fun y hy => hl y (List.mem_cons_of_mem _ hy)) x hx

theorem farApart_of_not_merged (last : Cluster) (cs : List Cluster) (ho : Spec.InOrder (last ++ cs.flatten))
    (hv : ∀ r ∈ last ++ cs.flatten, r.1 ≤ r.2) (hne : ∀ c ∈ last :: cs, c ≠ [])
    (h : hasMerged last cs = false) : Spec.FarApart (last :: cs) := by
  induction cs generalizing last with
  | nil => trivial
  | cons c cs ih =>
    unfold hasMerged at h
    rw [List.flatten_cons, ← List.append_assoc] at ho hv
    split at h
    · cases h
    · next hm =>
      refine ⟨?_, ih c ?_ ?_ (fun x hx => hne x (List.mem_cons_of_mem _ hx)) h⟩
      · rwa [shouldMerge_iff _ _ (hne last (by simp)) (hne c (by simp)) ho.append_left
          (fun r hr => hv r (List.mem_append_left _ hr))] at hm
      · rw [List.append_assoc] at ho; exact (List.pairwise_append.1 ho).2.1
      · intro r hr
        rw [List.append_assoc] at hv
        exact hv r (List.mem_append_right _ hr)

/-- Merging clusters ends, and what it yields. -/
theorem mergeRelated_spec (n : Nat) (cs : List Cluster) (hn : cs.length ≤ n) (hcs : cs ≠ [])
    (ho : Spec.InOrder cs.flatten) (hv : ∀ r ∈ cs.flatten, r.1 ≤ r.2)
    (hl : ∀ c ∈ cs, c ≠ [] ∧ Spec.Linked c) :
    ∃ cs', mergeRelated n cs = .ok (some cs') ∧ cs'.flatten = cs.flatten ∧ cs' ≠ [] ∧
      (∀ c ∈ cs', c ≠ [] ∧ Spec.Linked c) ∧ Spec.FarApart cs' := by
  induction n generalizing cs with
  | zero => cases cs with
    | nil => exact absurd rfl hcs
    | cons => simp at hn
  | succ n ih =>
    cases cs with
    | nil => exact absurd rfl hcs
    | cons c cs =>
      unfold mergeRelated
      have ho' : Spec.InOrder (c ++ cs.flatten) := ho
      have hv' : ∀ r ∈ c ++ cs.flatten, r.1 ≤ r.2 := hv
      have hf := mergePass_flatten c cs ho'
      have hlen := mergePass_length c cs
      split
      · next hm =>
        obtain ⟨cs', h1, h2, h3⟩ := ih (mergePass c cs) (by have := hlen.2.1 hm; simp at hn; omega) (mergePass_ne_nil c cs)
          (by rw [hf]; exact ho) (by rw [hf]; exact hv) (mergePass_linked c cs ho' hv' hl)
        exact ⟨cs', h1, by rw [h2, hf]; rfl, h3⟩
      · next hm =>
        have hm : hasMerged c cs = false := by simpa using hm
        refine ⟨_, rfl, by rw [hf]; rfl, mergePass_ne_nil c cs, mergePass_linked c cs ho' hv' hl, ?_⟩
        rw [hlen.2.2 hm]
        exact farApart_of_not_merged c cs ho' hv' (fun x hx => (hl x hx).1) hm

/-- The first of the longest groups comes first. -/
theorem sortBy_longest (cs : List Cluster) (c : Cluster) (rest : List Cluster)
    (h : sortBy (fun c c' => decide (Cluster.len c' ≤ Cluster.len c)) cs = c :: rest) :
    ∃ pre post, cs = pre ++ c :: post ∧ rest.Perm (pre ++ post) ∧
      (∀ x ∈ pre, Cluster.len x < Cluster.len c) ∧ (∀ x ∈ post, Cluster.len x ≤ Cluster.len c) := by
  induction cs generalizing c rest with
  | nil => cases h
  | cons a cs ih =>
    rw [sortBy] at h
    cases hs : sortBy (fun c c' => decide (Cluster.len c' ≤ Cluster.len c)) cs with
    | nil =>
      have := (sortBy_eq_nil _ _).1 hs
      subst this
      rw [hs] at h
      simp only [insertSorted, List.cons.injEq] at h
      obtain ⟨rfl, rfl⟩ := h
      exact ⟨[], [], rfl, .refl _, by simp, by simp⟩
    | cons b l =>
      rw [hs] at h
      obtain ⟨pre, post, hcs, hp, h1, h2⟩ := ih b l hs
      rw [insertSorted] at h
      have hperm : (b :: l).Perm cs := by rw [← hs]; exact sortBy_perm _ _
      split at h
      · next hab =>
        simp only [List.cons.injEq] at h
        obtain ⟨rfl, rfl⟩ := h
        simp only [decide_eq_true_eq] at hab
        refine ⟨[], cs, rfl, hperm, by simp, ?_⟩
        intro x hx
        rw [hcs] at hx
        rcases List.mem_append.1 hx with hx | hx
        · have := h1 x hx; omega
        · rcases List.mem_cons.1 hx with rfl | hx
          · exact hab
          · have := h2 x hx; omega
      · next hab =>
        simp only [List.cons.injEq] at h
        obtain ⟨rfl, rfl⟩ := h
        simp only [decide_eq_true_eq] at hab
        refine ⟨a :: pre, post, by rw [hcs]; rfl, ?_, ?_, h2⟩
        · exact (insertSorted_perm _ a l).trans (hp.cons a)
        · intro x hx
          rcases List.mem_cons.1 hx with rfl | hx
          · omega
          · exact h1 x hx

theorem foldl_min_le (f : Nat × Nat → Nat) (rs : List (Nat × Nat)) (m : Nat) :
    rs.foldl (fun m x => min m (f x)) m ≤ m ∧ (∀ r ∈ rs, rs.foldl (fun m x => min m (f x)) m ≤ f r) ∧
      (rs.foldl (fun m x => min m (f x)) m = m ∨ ∃ r ∈ rs, rs.foldl (fun m x => min m (f x)) m = f r) := by
  induction rs generalizing m with
  | nil => simp
  | cons a rs ih =>
    rw [List.foldl_cons]
    have := ih (min m (f a))
    refine ⟨by omega, ?_, ?_⟩
    · intro r hr
      rcases List.mem_cons.1 hr with rfl | hr
      · omega
      · exact this.2.1 r hr
    · rcases this.2.2 with h | ⟨r, hr, h⟩
      · rcases Nat.le_total m (f a) with hma | hma
        · exact .inl (by omega)
        · exact .inr ⟨a, by simp, by omega⟩
      · exact .inr ⟨r, by simp [hr], h⟩

theorem le_foldl_max (f : Nat × Nat → Nat) (rs : List (Nat × Nat)) (m : Nat) :
    m ≤ rs.foldl (fun m x => max m (f x)) m ∧ (∀ r ∈ rs, f r ≤ rs.foldl (fun m x => max m (f x)) m) ∧
      (rs.foldl (fun m x => max m (f x)) m = m ∨ ∃ r ∈ rs, rs.foldl (fun m x => max m (f x)) m = f r) := by
  induction rs generalizing m with
  | nil => simp
  | cons a rs ih =>
    rw [List.foldl_cons]
    have := ih (max m (f a))
    refine ⟨by omega, ?_, ?_⟩
    · intro r hr
      rcases List.mem_cons.1 hr with rfl | hr
      · omega
      · exact this.2.1 r hr
    · rcases this.2.2 with h | ⟨r, hr, h⟩
      · rcases Nat.le_total m (f a) with hma | hma
        · exact .inr ⟨a, by simp, by omega⟩
        · exact .inl (by omega)
      · exact .inr ⟨r, by simp [hr], h⟩

end Verif
