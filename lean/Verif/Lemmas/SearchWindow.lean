/-
Lemmas about the part of a document in which the values of a block are looked for.
-/
import Verif.Lemmas.SimpleMatching
import Verif.Props.MatchingUtils

namespace Verif

/-- Items with a line feed behind each. -/
abbrev lined (texts : List Str) : List (Str × Str) := texts.map (fun t => (t, ['\n']))

theorem flat_lined (texts : List Str) (h : texts ≠ []) : (flat (lined texts)).length = (joinStr ['\n'] texts).length + 1 := by
  induction texts with
  | nil => exact absurd rfl h
  | cons t ts ih =>
    cases ts with
    | nil => simp [flat, joinedText, joinStr]
    | cons t' ts =>
      have := ih (by simp)
      rw [lined, List.map_cons, flat_cons, joinStr]
      simp only [List.length_append, List.length_cons, List.length_nil]
      simp only [lined] at this
      omega

variable {α : Type}

/-- The ranges of items with a line feed behind each, from a position on. -/
abbrev linedRanges (g : α → Str) (o : Nat) (xs : List α) : List (Nat × Nat) := itemRanges [] o (lined (xs.map g))

theorem linedRanges_cons (g : α → Str) (o : Nat) (x : α) (xs : List α) :
    linedRanges g o (x :: xs) = (o, o + (g x).length) :: linedRanges g (o + (g x).length + 1) xs := by
  simp [linedRanges, lined, itemRanges_cons]

theorem linedRanges_ge (g : α → Str) (o : Nat) (xs : List α) :
    ∀ r ∈ linedRanges g o xs, o ≤ r.1 ∧ r.1 ≤ r.2 ∧ r.2 + 1 ≤ o + (flat (lined (xs.map g))).length := by
  induction xs generalizing o with
  | nil => intro r hr; cases hr
  | cons x xs ih =>
    rw [linedRanges_cons]
    simp only [List.map_cons, lined, flat_cons, List.length_append, List.length_cons, List.length_nil]
    intro r hr
    rcases List.mem_cons.1 hr with rfl | hr
    · simp only; omega
    · have := ih _ r hr
      simp only [lined] at this
      omega

/-- The items which end behind a position are the last ones. -/
theorem filter_behind (g : α → Str) (m o : Nat) (xs : List α) : ∃ before window, xs = before ++ window ∧
    (xs.zip (linedRanges g o xs)).filter (fun x => decide (m < x.2.2)) =
      window.zip (linedRanges g (o + (flat (lined (before.map g))).length) window) ∧
    (before ≠ [] → o + (flat (lined (before.map g))).length ≤ m + 1) ∧
    ∀ s rest, window = s :: rest → m < o + (flat (lined (before.map g))).length + (g s).length := by
  induction xs generalizing o with
  | nil => exact ⟨[], [], rfl, rfl, by simp, by simp⟩
  | cons x xs ih =>
    by_cases hx : m < o + (g x).length
    · refine ⟨[], x :: xs, rfl, ?_, by simp, ?_⟩
      · rw [List.filter_eq_self.2]
        · simp [flat, joinedText]
        · intro y hy
          have hy2 := (List.of_mem_zip hy).2
          rw [linedRanges_cons] at hy2
          rcases List.mem_cons.1 hy2 with h | h
          · rw [h]; simpa using hx
          · have := linedRanges_ge g _ xs y.2 h
            simp only [decide_eq_true_eq]
            omega
      · intro s rest hs
        cases hs
        simpa [flat, joinedText] using hx
    · obtain ⟨before, window, h1, h2, h3, h4⟩ := ih (o + (g x).length + 1)
      have hlen : (flat (lined ((x :: before).map g))).length = (g x).length + 1 + (flat (lined (before.map g))).length := by
        simp only [List.map_cons, lined, flat_cons, List.length_append, List.length_cons, List.length_nil]
      refine ⟨x :: before, window, by rw [h1]; rfl, ?_, ?_, ?_⟩
      · rw [linedRanges_cons, List.zip_cons_cons, List.filter_cons_of_neg (by simpa using hx), h2, hlen]
        congr 2
        omega
      · intro _
        rw [hlen]
        cases before with
        | nil => simp [flat, joinedText]; omega
        | cons b bs => have := h3 (by simp); omega
      · intro s rest hs
        have := h4 s rest hs
        rw [hlen]
        omega

/-- All items begin before the end of the last one, except for the last one if it is empty. -/
theorem filter_before_end (g : α → Str) (o e : Nat) (xs : List α) (he : xs ≠ [] → e + 1 = o + (flat (lined (xs.map g))).length) :
    ∃ window after, xs = window ++ after ∧
      ((xs.zip (linedRanges g o xs)).filter (fun x => decide (x.2.1 < e))).map Prod.fst = window ∧
      (after = [] ∨ ∃ s, after = [s] ∧ g s = []) := by
  rcases List.eq_nil_or_concat xs with rfl | ⟨ys, y, rfl⟩
  · exact ⟨[], [], rfl, rfl, Or.inl rfl⟩
  · rw [List.concat_eq_append] at he ⊢
    have he := he (by simp)
    have hflat : (flat (lined ((ys ++ [y]).map g))).length = (flat (lined (ys.map g))).length + (g y).length + 1 := by
      rw [List.map_append, lined, List.map_append, flat_append, List.length_append, Nat.add_assoc]
      simp [flat, joinedText]
    rw [hflat] at he
    have hr : linedRanges g o (ys ++ [y]) = linedRanges g o ys ++
        [(o + (flat (lined (ys.map g))).length, o + (flat (lined (ys.map g))).length + (g y).length)] := by
      rw [linedRanges, lined, List.map_append, List.map_append, itemRanges_append]
      simp [itemRanges, linedRanges, lined]
    have hl : ys.length = (linedRanges g o ys).length := by rw [linedRanges, itemRanges_length]; simp
    have hys : ((ys.zip (linedRanges g o ys)).filter (fun x => decide (x.2.1 < e))).map Prod.fst = ys := by
      rw [List.filter_eq_self.2]
      · exact List.map_fst_zip (by omega)
      · intro x hx
        have := linedRanges_ge g o ys x.2 (List.of_mem_zip hx).2
        simp only [decide_eq_true_eq]
        omega
    rw [hr, List.zip_append hl, List.filter_append, List.map_append, hys]
    by_cases hy : g y = []
    · refine ⟨ys, [y], rfl, ?_, Or.inr ⟨y, rfl, hy⟩⟩
      rw [List.zip_cons_cons, List.filter_cons_of_neg (by rw [hy] at he; simp at he; simp; omega)]
      simp
    · refine ⟨ys ++ [y], [], by simp, ?_, Or.inl rfl⟩
      have := List.length_pos_iff.2 hy
      rw [List.zip_cons_cons, List.filter_cons_of_pos (by simp only [decide_eq_true_eq]; omega)]
      simp

theorem seqRanges_eq (env : SeqEnv) (d : Doc) (seqs : List (List Nat)) :
    seqRanges env d seqs = seqs.zip (linedRanges (seqText env d) 0 seqs) := by
  unfold seqRanges linedRanges lined
  rw [List.map_map]
  rfl

/-- The end of the sequences is the end of their text. -/
theorem seqsEnd_eq (env : SeqEnv) (d : Doc) (seqs : List (List Nat)) : seqsEnd env d seqs = (seqsText env d seqs).length := by
  rcases List.eq_nil_or_concat seqs with rfl | ⟨ys, y, rfl⟩
  · rfl
  · rw [List.concat_eq_append]
    have hflat := flat_lined ((ys ++ [y]).map (seqText env d)) (by simp)
    rw [List.map_append, lined, List.map_append, flat_append] at hflat
    have hl : (ys ++ [y]).length = (linedRanges (seqText env d) 0 (ys ++ [y])).length := by
      rw [linedRanges, itemRanges_length]; simp
    unfold seqsEnd endIndex seqsText
    rw [seqRanges_eq, List.map_snd_zip (by omega), linedRanges, lined, List.map_append, List.map_append, itemRanges_append]
    simp only [List.map_cons, List.map_nil, flat_cons, List.length_append, List.length_cons, List.length_nil] at hflat ⊢
    simp only [itemRanges, List.nil_append, List.append_nil, List.getLast?_append, List.getLast?_singleton,
      Option.some_or, Option.map_some, Option.getD_some]
    have : (flat ([] : List (Str × Str))).length = 0 := rfl
    omega

/-- Where the values of a block are looked for: the sequences ending behind the start of the match, up to the
end. -/
theorem seqsBetween_window (env : SeqEnv) (d : Doc) (m : Nat) (seqs : List (List Nat)) :
    ∃ before after, seqs = before ++ seqsBetween env d m (seqsEnd env d seqs) seqs ++ after ∧
      (seqsText env d before).length ≤ m ∧
      (∀ s rest, seqsBetween env d m (seqsEnd env d seqs) seqs = s :: rest → m < (seqsText env d (before ++ [s])).length) ∧
      (after = [] ∨ ∃ s, after = [s] ∧ seqText env d s = []) := by
  have hwin : seqsBetween env d m (seqsEnd env d seqs) seqs =
      (((seqs.zip (linedRanges (seqText env d) 0 seqs)).filter (fun x => decide (m < x.2.2))).filter
        (fun x => decide (x.2.1 < (seqsText env d seqs).length))).map Prod.fst := by
    unfold seqsBetween
    rw [seqRanges_eq, seqsEnd_eq, itemsBetween_eq, List.filter_filter]
    · congr 1
      apply List.filter_congr
      intro x _
      unfold Spec.overlaps
      simp only [Int.ofNat_lt]
    · exact pairwise_zip_ranges _ _ _
  obtain ⟨before, rest, h1, h2, h3, h4⟩ := filter_behind (seqText env d) m 0 seqs
  rw [Nat.zero_add] at h2 h3 h4
  have hend : rest ≠ [] → (seqsText env d seqs).length + 1 =
      (flat (lined (before.map (seqText env d)))).length + (flat (lined (rest.map (seqText env d)))).length := by
    intro hne
    have := flat_lined (seqs.map (seqText env d)) (by rw [h1]; simp [hne])
    unfold seqsText
    rw [← this, h1, List.map_append, lined, List.map_append, flat_append, List.length_append]
  obtain ⟨window, after, h5, h6, h7⟩ := filter_before_end (seqText env d) _ _ rest hend
  rw [hwin, h2, h6]
  refine ⟨before, after, by rw [h1, h5, List.append_assoc], ?_, ?_, h7⟩
  · cases hb : before with
    | nil => simp [seqsText, joinStr]
    | cons b bs =>
      rw [← hb]
      have := flat_lined (before.map (seqText env d)) (by rw [hb]; simp)
      have := h3 (by rw [hb]; simp)
      unfold seqsText
      omega
  · intro s r hs
    have h8 := h4 s (r ++ after) (by rw [h5, hs]; rfl)
    have := flat_lined ((before ++ [s]).map (seqText env d)) (by simp)
    rw [List.map_append, lined, List.map_append, flat_append] at this
    simp only [List.map_cons, List.map_nil, flat_cons, List.length_append, List.length_cons, List.length_nil] at this
    have h0 : (flat ([] : List (Str × Str))).length = 0 := rfl
    unfold seqsText
    rw [List.map_append]
    simp only [List.map_cons, List.map_nil, lined] at this h8 ⊢
    omega

end Verif
