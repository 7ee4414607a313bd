/-
Lemmas about joined texts and sequences.
-/
import Verif.Spec.Matching
import Verif.Lemmas.TeiDoc
import Verif.Lemmas.PyList

namespace Verif

/-- The text of items, each with the white space behind it. -/
abbrev flat (items : List (Str × Str)) : Str := joinedText [] items

theorem flat_cons (s w : Str) (items : List (Str × Str)) : flat ((s, w) :: items) = s ++ w ++ flat items := by
  simp [flat, joinedText]

theorem flat_append (a b : List (Str × Str)) : flat (a ++ b) = flat a ++ flat b := by
  simp [flat, joinedText]

theorem itemRanges_cons (o : Nat) (s w : Str) (items : List (Str × Str)) :
    itemRanges [] o ((s, w) :: items) = (o, o + s.length) :: itemRanges [] (o + s.length + w.length) items := by
  simp [itemRanges]

theorem itemRanges_length (o : Nat) (items : List (Str × Str)) : (itemRanges [] o items).length = items.length := by
  induction items generalizing o with
  | nil => rfl
  | cons x items ih => obtain ⟨s, w⟩ := x; rw [itemRanges_cons]; simp [ih]

theorem itemRanges_append (o : Nat) (a b : List (Str × Str)) :
    itemRanges [] o (a ++ b) = itemRanges [] o a ++ itemRanges [] (o + (flat a).length) b := by
  induction a generalizing o with
  | nil => simp [itemRanges, flat, joinedText]
  | cons x a ih =>
    obtain ⟨s, w⟩ := x
    rw [List.cons_append, itemRanges_cons, itemRanges_cons, ih, flat_cons]
    simp [Nat.add_assoc]

/-- The range of the item at a position. -/
theorem itemRanges_get (o i : Nat) (items : List (Str × Str)) :
    (itemRanges [] o items)[i]? = items[i]?.map (fun x =>
      (o + (flat (items.take i)).length, o + (flat (items.take i)).length + x.1.length)) := by
  induction items generalizing o i with
  | nil => simp [itemRanges]
  | cons x items ih =>
    obtain ⟨s, w⟩ := x
    rw [itemRanges_cons]
    cases i with
    | zero => simp [flat, joinedText]
    | succ i =>
      simp only [List.getElem?_cons_succ, ih, List.take_succ_cons, flat_cons, List.length_append, Nat.add_assoc]

theorem itemRanges_shift (o k : Nat) (items : List (Str × Str)) :
    itemRanges [] (o + k) items = (itemRanges [] k items).map (fun r => (o + r.1, o + r.2)) := by
  induction items generalizing k with
  | nil => rfl
  | cons x items ih =>
    obtain ⟨s, w⟩ := x
    rw [itemRanges_cons, itemRanges_cons, List.map_cons, ← ih]
    simp [Nat.add_assoc]

/-- Only the last white space matters not. -/
theorem itemRanges_firsts (o : Nat) (a b : List (Str × Str)) (hf : a.map Prod.fst = b.map Prod.fst)
    (hs : (a.map Prod.snd).dropLast = (b.map Prod.snd).dropLast) : itemRanges [] o a = itemRanges [] o b := by
  induction a generalizing o b with
  | nil => cases b with
    | nil => rfl
    | cons => simp at hf
  | cons x a ih =>
    cases b with
    | nil => simp at hf
    | cons y b =>
      obtain ⟨s, w⟩ := x
      obtain ⟨s', w'⟩ := y
      simp only [List.map_cons, List.cons.injEq] at hf
      obtain ⟨h1, h2⟩ := hf
      subst h1
      rw [itemRanges_cons, itemRanges_cons]
      cases a with
      | nil =>
        cases b with
        | nil => rfl
        | cons => simp at h2
      | cons x' a =>
        cases b with
        | nil => simp at h2
        | cons y' b =>
          simp only [List.map_cons, List.dropLast_cons_cons, List.cons.injEq] at hs
          rw [hs.1, ih _ _ h2 (by simpa using hs.2)]

theorem slice_mid (a s b : Str) : Spec.slice (a ++ s ++ b) a.length s.length = s := by
  simp [Spec.slice]

/-- Joined items are laid out in a text which may have something behind the last item. -/
theorem laidOut_flat (items : List (Str × Str)) (hlast : ∀ x, items.getLast? = some x → x.2 = []) (gaps : List Str)
    (hg : (items.map Prod.snd).dropLast = gaps.dropLast) (hl : gaps.length = items.length) :
    Spec.LaidOut (flat items) (items.map Prod.fst) gaps (itemRanges [] 0 items) := by
  have split (i : Nat) (x : Str × Str) (hx : items[i]? = some x) :
      flat items = flat (items.take i) ++ x.1 ++ (x.2 ++ flat (items.drop (i + 1))) := by
    have : items = items.take i ++ x :: items.drop (i + 1) := by
      rw [List.getElem?_eq_some_iff] at hx
      obtain ⟨hlt, hx⟩ := hx
      rw [← hx, ← List.drop_eq_getElem_cons hlt, List.take_append_drop]
    conv => lhs; rw [this]
    obtain ⟨s, w⟩ := x
    rw [flat_append, flat_cons]
    simp
  refine ⟨by rw [itemRanges_length, List.length_map], ?_, ?_, ?_, ?_⟩
  · intro i s r hs hr
    rw [List.getElem?_map] at hs
    rw [itemRanges_get] at hr
    cases hx : items[i]? with
    | none => rw [hx] at hs; cases hs
    | some x =>
      rw [hx] at hs hr
      cases hs
      cases hr
      refine ⟨rfl, ?_⟩
      rw [split i x hx]
      simp [Spec.slice]
  · intro r hr
    rw [itemRanges_get] at hr
    cases items with
    | nil => cases hr
    | cons x l => cases hr; simp [flat, joinedText]
  · intro i r r' hr hr'
    rw [itemRanges_get] at hr hr'
    cases hx : items[i]? with
    | none => rw [hx] at hr; cases hr
    | some x =>
      cases hy : items[i + 1]? with
      | none => rw [hy] at hr'; cases hr'
      | some y =>
        rw [hx] at hr
        rw [hy] at hr'
        cases hr
        cases hr'
        have hi : i + 1 < items.length := by
          rw [List.getElem?_eq_some_iff] at hy
          exact hy.1
        refine ⟨x.2, ?_, ?_, ?_⟩
        · have h1 : gaps.dropLast[i]? = (items.map Prod.snd).dropLast[i]? := by rw [hg]
          rw [List.getElem?_dropLast, List.getElem?_dropLast, List.length_map, if_pos (by omega), if_pos (by omega)] at h1
          rw [h1, List.getElem?_map, hx]
          rfl
        · rw [List.take_add_one, hx]
          obtain ⟨s, w⟩ := x
          simp [flat, joinedText, Nat.add_assoc]
        · rw [split i x hx]
          simp only [Nat.zero_add]
          rw [show flat (items.take i) ++ x.1 ++ (x.2 ++ flat (items.drop (i + 1))) =
            (flat (items.take i) ++ x.1) ++ x.2 ++ flat (items.drop (i + 1)) by simp]
          rw [show (flat (items.take i)).length + x.1.length = (flat (items.take i) ++ x.1).length by simp]
          exact slice_mid _ _ _
  · rw [List.getLast?_eq_getElem?, itemRanges_get, itemRanges_length]
    cases hx : items[items.length - 1]? with
    | none =>
      have : items.length = 0 := by rw [List.getElem?_eq_none_iff] at hx; omega
      have := List.length_eq_zero_iff.1 this
      subst this
      rfl
    | some x =>
      have he : x.2 = [] := hlast x (by rw [List.getLast?_eq_getElem?]; exact hx)
      rw [split _ x hx, he, List.drop_of_length_le (by omega)]
      simp [flat, joinedText]

theorem itemsBetween_eq {α : Type} (start e : Int) (l : List (α × Nat × Nat))
    (hs : l.Pairwise (fun x y => x.2.1 ≤ y.2.1)) :
    itemsBetween start e l = l.filter (fun x => Spec.overlaps start e x.2) := by
  induction l with
  | nil => rfl
  | cons x l ih =>
    obtain ⟨x, r⟩ := x
    rw [List.pairwise_cons] at hs
    unfold itemsBetween
    by_cases h : e ≤ (r.1 : Int)
    · rw [if_pos h]
      symm
      rw [List.filter_eq_nil_iff]
      intro y hy
      simp only [Spec.overlaps, Bool.and_eq_true, decide_eq_true_eq, not_and]
      intro h'
      rcases List.mem_cons.1 hy with rfl | hy
      · simp only at h'; omega
      · have := hs.1 y hy
        simp only at this
        omega
    · rw [if_neg h, ih hs.2, List.filter_cons]
      by_cases h2 : start < (r.2 : Int)
      · rw [if_pos h2, if_pos (by simp [Spec.overlaps, h2]; omega)]
      · rw [if_neg h2, if_neg (by simp [Spec.overlaps, h2])]

theorem itemRanges_ge (o : Nat) (items : List (Str × Str)) : ∀ r ∈ itemRanges [] o items, o ≤ r.1 ∧ r.1 ≤ r.2 ∧ r.2 ≤ o + (flat items).length := by
  induction items generalizing o with
  | nil => intro r hr; cases hr
  | cons x items ih =>
    obtain ⟨s, w⟩ := x
    rw [itemRanges_cons, flat_cons]
    intro r hr
    rcases List.mem_cons.1 hr with rfl | hr
    · simp
    · have := ih _ r hr
      simp
      omega

theorem itemRanges_pairwise (o : Nat) (items : List (Str × Str)) :
    (itemRanges [] o items).Pairwise (fun x y => x.2 ≤ y.1) := by
  induction items generalizing o with
  | nil => exact List.Pairwise.nil
  | cons x items ih =>
    obtain ⟨s, w⟩ := x
    rw [itemRanges_cons, List.pairwise_cons]
    refine ⟨fun r hr => ?_, ih _⟩
    have := itemRanges_ge _ _ r hr
    simp only
    omega

theorem pairwise_zip_ranges {α : Type} (l : List α) (o : Nat) (items : List (Str × Str)) :
    (l.zip (itemRanges [] o items)).Pairwise (fun x y => x.2.1 ≤ y.2.1) := by
  induction items generalizing o l with
  | nil => simp [itemRanges]
  | cons x items ih =>
    obtain ⟨s, w⟩ := x
    cases l with
    | nil => simp
    | cons a l =>
      rw [itemRanges_cons, List.zip_cons_cons, List.pairwise_cons]
      refine ⟨fun y hy => ?_, ih _ _⟩
      have := itemRanges_ge _ _ _ (List.of_mem_zip hy).2
      simp only
      omega

theorem clearLast_length (ws : List Str) : (clearLast ws).length = ws.length := by
  cases ws with
  | nil => rfl
  | cons w ws => simp [clearLast]

theorem clearLast_dropLast (ws : List Str) : (clearLast ws).dropLast = ws.dropLast := by
  cases ws with
  | nil => rfl
  | cons w ws => simp [clearLast]

theorem clearLast_cons (w w' : Str) (ws : List Str) : clearLast (w :: w' :: ws) = w :: clearLast (w' :: ws) := by
  simp [clearLast]

/-- The items without the white space behind the last one. -/
def clearItems (items : List (Str × Str)) : List (Str × Str) :=
  (items.map Prod.fst).zip (clearLast (items.map Prod.snd))

theorem map_fst_zip' {α β : Type} (a : List α) (b : List β) (h : a.length = b.length) : (a.zip b).map Prod.fst = a := by
  rw [List.map_fst_zip (by omega)]

theorem map_snd_zip' {α β : Type} (a : List α) (b : List β) (h : a.length = b.length) : (a.zip b).map Prod.snd = b := by
  rw [List.map_snd_zip (by omega)]

theorem clearItems_fst (items : List (Str × Str)) : (clearItems items).map Prod.fst = items.map Prod.fst :=
  map_fst_zip' _ _ (by rw [clearLast_length]; simp)

theorem clearItems_snd (items : List (Str × Str)) : (clearItems items).map Prod.snd = clearLast (items.map Prod.snd) :=
  map_snd_zip' _ _ (by rw [clearLast_length]; simp)

theorem clearItems_length (items : List (Str × Str)) : (clearItems items).length = items.length := by
  have := congrArg List.length (clearItems_fst items)
  simpa using this

theorem clearItems_last (items : List (Str × Str)) (x : Str × Str) (hx : (clearItems items).getLast? = some x) : x.2 = [] := by
  have h : ((clearItems items).map Prod.snd).getLast? = some x.2 := by rw [List.getLast?_map, hx]; rfl
  rw [clearItems_snd] at h
  cases items with
  | nil => simp [clearLast] at h
  | cons y l => simp [clearLast] at h; exact h

theorem itemRanges_clearItems (o : Nat) (items : List (Str × Str)) :
    itemRanges [] o (clearItems items) = itemRanges [] o items :=
  itemRanges_firsts _ _ _ (clearItems_fst items) (by rw [clearItems_snd, clearLast_dropLast])

theorem clearItems_cons (x y : Str × Str) (l : List (Str × Str)) : clearItems (x :: y :: l) = x :: clearItems (y :: l) := by
  simp [clearItems, clearLast_cons]

theorem flat_clearItems (items : List (Str × Str)) :
    flat items = flat (clearItems items) ++ (items.getLast?.map Prod.snd).getD [] := by
  induction items with
  | nil => rfl
  | cons x l ih =>
    cases l with
    | nil => obtain ⟨s, w⟩ := x; simp [clearItems, clearLast, flat, joinedText]
    | cons y l =>
      obtain ⟨s, w⟩ := x
      rw [clearItems_cons, List.getLast?_cons_cons, flat_cons s w (y :: l), flat_cons s w (clearItems _), ih]
      simp

theorem flat_sep (sep : Str) (items : List Str) :
    flat (clearItems (items.map (fun s => (s, sep)))) = joinStr sep items := by
  induction items with
  | nil => rfl
  | cons s l ih =>
    cases l with
    | nil => simp [clearItems, clearLast, flat, joinedText, joinStr]
    | cons t l =>
      simp only [List.map_cons] at ih ⊢
      rw [clearItems_cons, flat_cons, ih]
      rfl

/-- Items joined with the white space behind them, except behind the last one. -/
theorem laidOut_clear (items : List (Str × Str)) :
    Spec.LaidOut (flat (clearItems items)) (items.map Prod.fst) (items.map Prod.snd) (itemRanges [] 0 items) := by
  have := laidOut_flat (clearItems items) (clearItems_last items) (items.map Prod.snd)
    (by rw [clearItems_snd, clearLast_dropLast]) (by rw [clearItems_length]; simp)
  rwa [clearItems_fst, itemRanges_clearItems] at this

/-- The tokens of a sequence with the white space behind them. -/
def seqPieces (env : SeqEnv) (d : Doc) (s : List Nat) : List (Str × Str) :=
  (s.map (fun i => env.filter (d.getText env.cc i))).zip
    ((s.map (fun i => ((d.tok i).whitespace).getD c!" ")).dropLast ++ [c!"\n"])

theorem seqItems_eq (env : SeqEnv) (d : Doc) (s : List Nat) :
    seqItems env d s = clearItems (s.map (fun i => (env.filter (d.getText env.cc i), tokenWhitespace d i))) := by
  simp [seqItems, clearItems, Function.comp_def]

theorem seqPieces_fst (env : SeqEnv) (d : Doc) (s : List Nat) (h : s ≠ []) :
    (seqPieces env d s).map Prod.fst = s.map (fun i => env.filter (d.getText env.cc i)) := by
  apply map_fst_zip'
  have := List.length_pos_iff.2 h
  simp; omega

theorem seqPieces_snd (env : SeqEnv) (d : Doc) (s : List Nat) (h : s ≠ []) :
    (seqPieces env d s).map Prod.snd = (s.map (fun i => ((d.tok i).whitespace).getD c!" ")).dropLast ++ [c!"\n"] := by
  apply map_snd_zip'
  have := List.length_pos_iff.2 h
  simp; omega

theorem clearItems_seqPieces (env : SeqEnv) (d : Doc) (s : List Nat) (h : s ≠ []) :
    clearItems (seqPieces env d s) = seqItems env d s := by
  rw [clearItems, seqPieces_fst _ _ _ h, seqPieces_snd _ _ _ h, seqItems]
  congr 1
  cases s with
  | nil => exact absurd rfl h
  | cons i s =>
    rw [clearLast, clearLast, if_neg (by simp), if_neg (by simp), List.dropLast_concat]
    rfl

theorem flat_seqPieces (env : SeqEnv) (d : Doc) (s : List Nat) (h : s ≠ []) :
    flat (seqPieces env d s) = seqText env d s ++ c!"\n" := by
  rw [flat_clearItems, clearItems_seqPieces _ _ _ h, ← List.getLast?_map, seqPieces_snd _ _ _ h]
  simp [seqText]

theorem itemRanges_seqPieces (env : SeqEnv) (d : Doc) (s : List Nat) (h : s ≠ []) (o : Nat) :
    itemRanges [] o (seqPieces env d s) = itemRanges [] o (seqItems env d s) := by
  rw [← clearItems_seqPieces _ _ _ h, itemRanges_clearItems]

theorem flat_flatMap_seqPieces (env : SeqEnv) (d : Doc) (seqs : List (List Nat)) (h : ∀ s ∈ seqs, s ≠ []) :
    flat (seqs.flatMap (seqPieces env d)) = flat (seqs.map (fun s => (seqText env d s, c!"\n"))) := by
  induction seqs with
  | nil => rfl
  | cons s seqs ih =>
    rw [List.flatMap_cons, flat_append, List.map_cons, flat_cons, ih (fun s hs => h s (List.mem_cons_of_mem _ hs)),
      flat_seqPieces _ _ _ (h s List.mem_cons_self)]

theorem flatMap_seqPieces_getLast (env : SeqEnv) (d : Doc) (seqs : List (List Nat)) (h : ∀ s ∈ seqs, s ≠ [])
    (hne : seqs ≠ []) : ((seqs.flatMap (seqPieces env d)).getLast?.map Prod.snd).getD [] = c!"\n" := by
  rw [← List.getLast?_map, List.map_flatMap]
  obtain ⟨pre, s, rfl⟩ : ∃ pre s, seqs = pre ++ [s] := ⟨seqs.dropLast, seqs.getLast hne, (List.dropLast_concat_getLast hne).symm⟩
  rw [List.flatMap_append, List.flatMap_singleton, seqPieces_snd _ _ _ (h s (by simp))]
  simp

theorem flat_clear_seqs (env : SeqEnv) (d : Doc) (seqs : List (List Nat)) (h : ∀ s ∈ seqs, s ≠ []) :
    flat (clearItems (seqs.flatMap (seqPieces env d))) = seqsText env d seqs := by
  by_cases hne : seqs = []
  · subst hne; rfl
  · have h1 := flat_clearItems (seqs.flatMap (seqPieces env d))
    have h2 := flat_clearItems (seqs.map (fun s => (seqText env d s, c!"\n")))
    rw [flatMap_seqPieces_getLast _ _ _ h hne] at h1
    rw [← flat_flatMap_seqPieces _ _ _ h, h1] at h2
    have h3 : ((seqs.map (fun s => (seqText env d s, c!"\n"))).getLast?.map Prod.snd).getD [] = c!"\n" := by
      rw [List.getLast?_map, List.getLast?_eq_some_getLast hne]
      rfl
    rw [h3] at h2
    have h4 := List.append_cancel_right h2
    rw [h4]
    have := flat_sep c!"\n" (seqs.map (seqText env d))
    rw [List.map_map] at this
    exact this

theorem tokensBetween_eq (env : SeqEnv) (d : Doc) (start e : Int) (o : Nat) (s : List Nat) :
    tokensBetween env d (start - o) (e - o) s =
      ((s.zip (itemRanges [] o (seqItems env d s))).filter (fun x => Spec.overlaps start e x.2)).map Prod.fst := by
  unfold tokensBetween
  rw [itemsBetween_eq _ _ _ (pairwise_zip_ranges _ _ _)]
  have := itemRanges_shift o 0 (seqItems env d s)
  rw [Nat.add_zero] at this
  rw [this, List.zip_map_right, List.filter_map, List.map_map]
  have hp : ((fun x : Nat × Nat × Nat => Spec.overlaps start e x.2) ∘ Prod.map id (fun r => (o + r.1, o + r.2))) =
      (fun x => Spec.overlaps (start - o) (e - o) x.2) := by
    funext x
    simp only [Function.comp, Prod.map, Spec.overlaps]
    congr 1 <;> apply decide_eq_decide.2 <;> omega
  rw [hp]
  rfl

theorem seqItems_length (env : SeqEnv) (d : Doc) (s : List Nat) : (seqItems env d s).length = s.length := by
  rw [seqItems_eq, clearItems_length]; simp

theorem itemRanges_seqPieces_length (env : SeqEnv) (d : Doc) (s : List Nat) (h : s ≠ []) :
    (seqPieces env d s).length = s.length := by
  rw [← clearItems_length, clearItems_seqPieces _ _ _ h, seqItems_length]

theorem seqTokensBetween_aux (env : SeqEnv) (d : Doc) (start e : Int) (seqs : List (List Nat)) (h : ∀ s ∈ seqs, s ≠ [])
    (o : Nat) :
    ((seqs.zip (itemRanges [] o (seqs.map (fun s => (seqText env d s, ['\n']))))).filter
        (fun x => Spec.overlaps start e x.2)).flatMap (fun x =>
          tokensBetween env d (start - (x.2.1 : Int)) (e - (x.2.1 : Int)) x.1) =
      ((seqs.flatten.zip (itemRanges [] o (seqs.flatMap (seqPieces env d)))).filter
        (fun x => Spec.overlaps start e x.2)).map Prod.fst := by
  induction seqs generalizing o with
  | nil => simp
  | cons s seqs ih =>
    have hs := h s List.mem_cons_self
    rw [List.map_cons, itemRanges_cons, List.zip_cons_cons, List.flatten_cons, List.flatMap_cons, itemRanges_append,
      List.zip_append (by rw [itemRanges_length, itemRanges_seqPieces_length _ _ _ hs]), List.filter_append,
      List.map_append, flat_seqPieces _ _ _ hs, itemRanges_seqPieces _ _ _ hs,
      ← tokensBetween_eq]
    have ih' := ih (fun s hs => h s (List.mem_cons_of_mem _ hs)) (o + (seqText env d s ++ c!"\n").length)
    rw [← ih']
    have ho : o + (seqText env d s).length + ['\n'].length = o + (seqText env d s ++ c!"\n").length := by
      simp [Nat.add_assoc]
    rw [ho, List.filter_cons]
    by_cases hov : Spec.overlaps start e (o, o + (seqText env d s).length) = true
    · rw [if_pos hov, List.flatMap_cons]
    · rw [if_neg hov]
      have : tokensBetween env d (start - (o : Int)) (e - (o : Int)) s = [] := by
        rw [tokensBetween_eq, List.map_eq_nil_iff, List.filter_eq_nil_iff]
        intro x hx hx'
        have hr := itemRanges_ge _ _ _ (List.of_mem_zip hx).2
        apply hov
        simp only [Spec.overlaps, Bool.and_eq_true, decide_eq_true_eq] at hx' ⊢
        have : (flat (seqItems env d s)).length = (seqText env d s).length := rfl
        omega
      rw [this, List.nil_append]

theorem seqTokensBetween_eq (env : SeqEnv) (d : Doc) (start e : Int) (seqs : List (List Nat)) (h : ∀ s ∈ seqs, s ≠ []) :
    seqTokensBetween env d start e seqs =
      ((seqs.flatten.zip (itemRanges [] 0 (seqs.flatMap (seqPieces env d)))).filter
        (fun x => Spec.overlaps start e x.2)).map Prod.fst := by
  unfold seqTokensBetween seqRanges
  rw [itemsBetween_eq _ _ _ (pairwise_zip_ranges _ _ _)]
  exact seqTokensBetween_aux env d start e seqs h 0

theorem untaggedLoop_flatten (d : Doc) (u tokens : List Nat) :
    (untaggedLoop d u tokens).flatten = u ++ Spec.untagged d tokens := by
  induction tokens generalizing u with
  | nil => cases u <;> simp [untaggedLoop, Spec.untagged]
  | cons i is ih =>
    unfold untaggedLoop
    rw [Spec.untagged, List.filter_cons]
    by_cases h : truthy (d.getTag i) = true
    · simp only [h, Bool.not_true, Bool.false_eq_true, if_false]
      cases u with
      | nil => rw [if_neg (by simp), ih]; rfl
      | cons => rw [if_pos (by simp), List.flatten_cons, ih]; rfl
    · rw [if_pos (by simpa using h), if_pos (by simpa using h), ih]
      simp [Spec.untagged]

theorem untaggedLoop_ne_nil (d : Doc) (u tokens : List Nat) : ∀ s ∈ untaggedLoop d u tokens, s ≠ [] := by
  induction tokens generalizing u with
  | nil => cases u <;> simp [untaggedLoop]
  | cons i is ih =>
    unfold untaggedLoop
    split
    · exact ih _
    · split
      · rename_i h
        intro s hs
        rcases List.mem_cons.1 hs with rfl | hs
        · simpa using h
        · exact ih _ s hs
      · exact ih _

theorem untaggedSub_flatten (d : Doc) (tokens : List Nat) :
    (untaggedSubSequences d tokens).flatten = Spec.untagged d tokens := by
  unfold untaggedSubSequences
  simp only []
  split
  · rename_i h
    have h := List.length_eq_zero_iff.1 h
    rw [List.filter_eq_nil_iff] at h
    symm
    simp only [List.flatten_singleton]
    rw [Spec.untagged, List.filter_eq_self]
    intro i hi
    simpa using h i hi
  · split
    · rename_i h
      rw [List.length_filter_eq_length_iff] at h
      symm
      rw [List.flatten_nil, Spec.untagged, List.filter_eq_nil_iff]
      intro i hi
      simpa using h i hi
    · exact untaggedLoop_flatten d [] tokens

theorem untaggedSub_ne_nil (d : Doc) (tokens : List Nat) (h : tokens ≠ []) : ∀ s ∈ untaggedSubSequences d tokens, s ≠ [] := by
  unfold untaggedSubSequences
  simp only []
  split
  · intro s hs; rw [List.mem_singleton] at hs; subst hs; exact h
  · split
    · simp
    · exact untaggedLoop_ne_nil d [] tokens

theorem groupBy_run {α κ : Type} [DecidableEq κ] (key : α → κ) (k : κ) (u : List α) (hu : u ≠ []) (hk : ∀ x ∈ u, key x = k)
    (i : α) (is : List α) (hi : key i ≠ k) : groupBy key (u ++ i :: is) = (k, u) :: groupBy key (i :: is) := by
  obtain ⟨g, gs, hg⟩ := groupBy_head key i is
  induction u with
  | nil => exact absurd rfl hu
  | cons x u ih =>
    rw [List.cons_append, groupBy]
    cases u with
    | nil =>
      rw [List.nil_append, hg]
      simp only []
      rw [if_neg (by rw [hk x (by simp)]; exact fun h => hi h.symm), hk x (by simp)]
    | cons y u =>
      rw [ih (by simp) (fun z hz => hk z (List.mem_cons_of_mem _ hz))]
      simp only []
      rw [if_pos (hk x (by simp))]

theorem groupBy_single {α κ : Type} [DecidableEq κ] (key : α → κ) (k : κ) (u : List α) (hu : u ≠ []) (hk : ∀ x ∈ u, key x = k) :
    groupBy key u = [(k, u)] := by
  induction u with
  | nil => exact absurd rfl hu
  | cons x u ih =>
    rw [groupBy]
    cases u with
    | nil => simp [groupBy, hk x (by simp)]
    | cons y u =>
      rw [ih (by simp) (fun z hz => hk z (List.mem_cons_of_mem _ hz))]
      simp only []
      rw [if_pos (hk x (by simp))]

theorem untaggedRuns_tagged (d : Doc) (i : Nat) (is : List Nat) (h : truthy (d.getTag i) = true) :
    Spec.untaggedRuns d (i :: is) = Spec.untaggedRuns d is := by
  unfold Spec.untaggedRuns
  rw [groupBy]
  cases hg : groupBy (fun i => truthy (d.getTag i)) is with
  | nil => simp [h]
  | cons kg gs =>
    obtain ⟨k, g⟩ := kg
    simp only []
    split
    · rename_i hk
      simp [← hk, h]
    · simp [h]

theorem untaggedLoop_eq (d : Doc) (u tokens : List Nat) (hu : ∀ i ∈ u, truthy (d.getTag i) = false) :
    untaggedLoop d u tokens = Spec.untaggedRuns d (u ++ tokens) := by
  induction tokens generalizing u with
  | nil =>
    unfold untaggedLoop
    cases u with
    | nil => rfl
    | cons i u =>
      rw [if_neg (by simp), List.append_nil, Spec.untaggedRuns, groupBy_single _ false _ (by simp) hu]
      rfl
  | cons i is ih =>
    unfold untaggedLoop
    cases h : truthy (d.getTag i) with
    | false =>
      rw [if_pos (by rfl), ih _ (by
        intro j hj
        rcases List.mem_append.1 hj with hj | hj
        · exact hu j hj
        · rw [List.mem_singleton] at hj; subst hj; exact h)]
      simp
    | true =>
      rw [if_neg (by simp)]
      cases u with
      | nil => rw [if_neg (by simp), ih _ hu, List.nil_append, List.nil_append, untaggedRuns_tagged d i is h]
      | cons j u =>
        rw [if_pos (by simp), ih _ (by simp), List.nil_append]
        unfold Spec.untaggedRuns
        rw [groupBy_run _ false (j :: u) (by simp) hu i is (by simp [h])]
        simp only [List.filter_cons, Bool.not_false, if_true, List.map_cons]
        exact congrArg _ (untaggedRuns_tagged d i is h).symm

theorem untaggedSub_eq (d : Doc) (tokens : List Nat) (hne : tokens ≠ []) :
    untaggedSubSequences d tokens = Spec.untaggedRuns d tokens := by
  unfold untaggedSubSequences
  simp only []
  split
  · rename_i h
    have h := List.length_eq_zero_iff.1 h
    rw [List.filter_eq_nil_iff] at h
    rw [Spec.untaggedRuns, groupBy_single _ false _ hne (by simpa using h)]
    rfl
  · split
    · rename_i h
      rw [List.length_filter_eq_length_iff] at h
      rw [Spec.untaggedRuns, groupBy_single _ true _ hne h]
      rfl
    · exact untaggedLoop_eq d [] tokens (by simp)

theorem pendingOfDoc_ne_nil (d : Doc) : ∀ s ∈ pendingOfDoc d, s ≠ [] := by
  intro s hs
  unfold pendingOfDoc at hs
  simpa using (List.mem_filter.1 hs).2

theorem flatten_filter_ne_nil {α : Type} (l : List (List α)) : (l.filter (fun s => !s.isEmpty)).flatten = l.flatten := by
  induction l with
  | nil => rfl
  | cons s l ih =>
    cases s with
    | nil => simpa using ih
    | cons a s => simpa using ih

theorem pendingOfDoc_flatten (d : Doc) : (pendingOfDoc d).flatten = Spec.untagged d d.nonSpaceTokens := by
  unfold pendingOfDoc
  rw [flatten_filter_ne_nil, Spec.untagged, Doc.nonSpaceTokens, List.filter_flatMap, List.flatMap]

theorem flatten_flatMap_untaggedSub (d : Doc) (seqs : List (List Nat)) :
    (seqs.flatMap (untaggedSubSequences d)).flatten = Spec.untagged d seqs.flatten := by
  induction seqs with
  | nil => rfl
  | cons s seqs ih =>
    rw [List.flatMap_cons, List.flatten_append, ih, untaggedSub_flatten, List.flatten_cons]
    simp [Spec.untagged]

end Verif
