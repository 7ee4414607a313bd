/-
C145: line numbers are found among other numbers.
-/
import Verif.Props.Checks
import Verif.Spec.LineNumberAmong

namespace Verif
open Spec

/-- The order of the candidates. -/
def lnLt (a b : LnItem) : Prop := a.num < b.num ∨ (a.num = b.num ∧ a.pos < b.pos)

theorem mem_lnItems (parseInt : Str → Option Int) (text : Nat → Str) (k : Nat) (ts : List Nat) (it : LnItem)
    (h1 : k ≤ it.pos) (h2 : ts[it.pos - k]? = some it.token) (h3 : parseInt (text it.token) = some it.num) (h4 : 0 < it.num) :
    it ∈ lnItems parseInt text k ts := by
  induction ts generalizing k with
  | nil => simp at h2
  | cons t ts ih =>
    unfold lnItems
    by_cases hk : it.pos = k
    · rw [hk, Nat.sub_self] at h2
      have ht : t = it.token := by simpa using h2
      subst ht
      rw [h3]
      simp only
      rw [if_pos h4]
      cases it
      simp only at hk
      subst hk
      exact List.mem_cons_self
    · have hrec := ih (k + 1) (by omega) (by
        rw [show it.pos - k = (it.pos - (k + 1)) + 1 by omega, List.getElem?_cons_succ] at h2
        exact h2)
      split
      · split
        · exact List.mem_cons_of_mem _ hrec
        · exact hrec
      · exact hrec

theorem lnSequences_keep (gap : Int) (s : List LnItem) (items : List LnItem) : ∀ (done : List (List LnItem)) (cur : List LnItem)
    (last : LnItem), (s.Sublist (cur ++ [last]) ∨ ∃ q ∈ done, s.Sublist q) →
    ∃ q ∈ lnSequences gap done cur last items, s.Sublist q := by
  induction items with
  | nil =>
    intro done cur last h
    unfold lnSequences
    rcases h with h | ⟨q, hq, h⟩
    · exact ⟨_, List.mem_append_right _ List.mem_cons_self, h⟩
    · exact ⟨q, List.mem_append_left _ hq, h⟩
  | cons item items ih =>
    intro done cur last h
    unfold lnSequences
    simp only
    split
    · exact ih _ _ _ h
    · split
      · refine ih _ _ _ ?_
        rcases h with h | h
        · exact .inl (h.trans (List.sublist_append_left _ _))
        · exact .inr h
      · refine ih _ _ _ (.inr ?_)
        rcases h with h | ⟨q, hq, h⟩
        · exact ⟨_, List.mem_append_right _ List.mem_cons_self, h⟩
        · exact ⟨q, List.mem_append_left _ hq, h⟩

/-- Once the first line numbers are in the current sequence, the others follow. -/
theorem lnSequences_rest (gap : Int) (s : List LnItem) (hs : LineNumbers gap s) (items : List LnItem) :
    ∀ (s1 s2 : List LnItem) (done : List (List LnItem)) (cur : List LnItem) (last : LnItem), s = s1 ++ last :: s2 →
    (s1 ++ [last]).Sublist (cur ++ [last]) → (last :: items).Pairwise lnLt → (∀ x ∈ s2, x ∈ items) →
    (∀ x ∈ items, x ∈ s ∨ OutOfTheWay s x) →
    ∃ q ∈ lnSequences gap done cur last items, s.Sublist q := by
  induction items with
  | nil =>
    intro s1 s2 done cur last he hsub _ h2 _
    cases s2 with
    | nil => exact lnSequences_keep gap s [] done cur last (.inl (he ▸ hsub))
    | cons x _ => exact absurd (h2 x List.mem_cons_self) (by simp)
  | cons item items ih =>
    intro s1 s2 done cur last he hsub hpw h2 hout
    have hli := (List.pairwise_cons.1 hpw).1 item List.mem_cons_self
    have hnum := hs.num
    rw [he, List.pairwise_append] at hnum
    obtain ⟨_, n2, n3⟩ := hnum
    obtain ⟨n2a, n2b⟩ := List.pairwise_cons.1 n2
    have hpos := hs.pos
    rw [he, List.pairwise_append] at hpos
    obtain ⟨_, p2, _⟩ := hpos
    obtain ⟨p2a, _⟩ := List.pairwise_cons.1 p2
    have hn1 : ∀ x ∈ s1, x.num < last.num := fun x hx => n3 x hx last List.mem_cons_self
    cases s2 with
    | nil => exact lnSequences_keep gap s (item :: items) done cur last (.inl (he ▸ hsub))
    | cons y s2 =>
      have hly := n2a y List.mem_cons_self
      have hlp := p2a y List.mem_cons_self
      have hys : ∀ x ∈ s2, y.num < x.num := fun x hx => (List.pairwise_cons.1 n2b).1 x hx
      by_cases hy : item = y
      · subst hy
        have hg := hs.gap s1 last item s2 he
        unfold lnSequences
        simp only
        rw [if_neg (by simp; omega), if_pos (by simp; omega)]
        refine ih (s1 ++ [last]) s2 done (cur ++ [last]) item (by rw [he]; simp) (hsub.append (List.Sublist.refl _))
          (List.pairwise_cons.1 hpw).2 ?_ (fun x hx => hout x (List.mem_cons_of_mem _ hx))
        intro x hx
        rcases List.mem_cons.1 (h2 x (List.mem_cons_of_mem _ hx)) with e | e
        · have := hys x hx
          rw [e] at this
          omega
        · exact e
      · have hym : y ∈ items := by
          rcases List.mem_cons.1 (h2 y List.mem_cons_self) with e | e
          · exact absurd e.symm hy
          · exact e
        have hiy : lnLt item y := (List.pairwise_cons.1 (List.pairwise_cons.1 hpw).2).1 y hym
        have hskip : item.pos < last.pos ∨ item.num = last.num := by
          have hcases : ∀ x ∈ s, x ∈ s1 ∨ x = last ∨ x = y ∨ x ∈ s2 := by
            intro x hx
            rw [he] at hx
            simpa using hx
          rcases hout item List.mem_cons_self with hmem | hw
          · exfalso
            rcases hcases item hmem with e | e | e | e
            · have := hn1 item e
              unfold lnLt at hli
              omega
            · rw [e] at hli
              unfold lnLt at hli
              omega
            · exact hy e
            · have := hys item e
              unfold lnLt at hiy
              omega
          · have hls : last ∈ s := by rw [he]; simp
            have hyS : y ∈ s := by rw [he]; simp
            unfold lnLt at hli hiy
            rcases hw with hw | hw | ⟨x, hx, hxn, hxp⟩ | ⟨x, hx, hxn, hxp, hmax⟩
            · have := hw y hyS
              omega
            · have := hw last hls
              omega
            · rcases hcases x hx with e | e | e | e
              · have := hn1 x e
                omega
              · rw [e] at hxn
                exact .inr hxn.symm
              · rw [e] at hxn hxp
                omega
              · have := hys x e
                omega
            · by_cases hq : item.num = last.num
              · exact .inr hq
              · have hl2 := hmax last hls (by omega)
                rcases hcases x hx with e | e | e | e
                · have := hn1 x e
                  omega
                · rw [e] at hxp
                  exact .inl hxp
                · rw [e] at hxn
                  omega
                · have := hys x e
                  omega
        unfold lnSequences
        simp only
        rw [if_pos (by simpa using hskip)]
        refine ih s1 (y :: s2) done cur last he hsub ?_ ?_ (fun x hx => hout x (List.mem_cons_of_mem _ hx))
        · obtain ⟨a, b⟩ := List.pairwise_cons.1 hpw
          exact List.pairwise_cons.2 ⟨fun x hx => a x (List.mem_cons_of_mem _ hx), (List.pairwise_cons.1 b).2⟩
        · intro x hx
          rcases List.mem_cons.1 hx with e | e
          · exact e ▸ hym
          · rcases List.mem_cons.1 (h2 x hx) with e' | e'
            · exfalso
              have := hys x e
              rw [e'] at this
              unfold lnLt at hiy
              omega
            · exact e'

/-- Before the first line number there are only smaller numbers which are above it. -/
theorem lnSequences_first (gap : Int) (y : LnItem) (s2 : List LnItem) (hs : LineNumbers gap (y :: s2)) (items : List LnItem) :
    ∀ (done : List (List LnItem)) (cur : List LnItem) (last : LnItem), last.pos < y.pos → last.num < y.num →
    (last :: items).Pairwise lnLt → (∀ x ∈ y :: s2, x ∈ items) → (∀ x ∈ items, x ∈ y :: s2 ∨ OutOfTheWay (y :: s2) x) →
    ∃ q ∈ lnSequences gap done cur last items, (y :: s2).Sublist q := by
  have hys : ∀ x ∈ s2, y.num < x.num := (List.pairwise_cons.1 hs.num).1
  induction items with
  | nil =>
    intro done cur last _ _ _ h2 _
    exact absurd (h2 y List.mem_cons_self) (by simp)
  | cons item items ih =>
    intro done cur last hlp hln hpw h2 hout
    obtain ⟨hpl, hpi⟩ := List.pairwise_cons.1 hpw
    by_cases hy : item = y
    · subst hy
      have h2' : ∀ x ∈ s2, x ∈ items := by
        intro x hx
        rcases List.mem_cons.1 (h2 x (List.mem_cons_of_mem _ hx)) with e | e
        · have := hys x hx
          rw [e] at this
          omega
        · exact e
      unfold lnSequences
      simp only
      rw [if_neg (by simp; omega)]
      split
      · exact lnSequences_rest gap (item :: s2) hs items [] s2 _ _ _ rfl (List.sublist_append_right _ _) hpi h2'
          (fun x hx => hout x (List.mem_cons_of_mem _ hx))
      · exact lnSequences_rest gap (item :: s2) hs items [] s2 _ _ _ rfl (List.sublist_append_right _ _) hpi h2'
          (fun x hx => hout x (List.mem_cons_of_mem _ hx))
    · have hym : y ∈ items := by
        rcases List.mem_cons.1 (h2 y List.mem_cons_self) with e | e
        · exact absurd e.symm hy
        · exact e
      have hiy : lnLt item y := (List.pairwise_cons.1 hpi).1 y hym
      unfold lnLt at hiy
      have hrest : ∀ x ∈ y :: s2, x ∈ items := by
        intro x hx
        rcases List.mem_cons.1 (h2 x hx) with e | e
        · exfalso
          rcases List.mem_cons.1 hx with e' | e'
          · exact hy (e.symm.trans e')
          · have := hys x e'
            rw [e] at this
            omega
        · exact e
      have hall : ∀ x ∈ y :: s2, y.num ≤ x.num := by
        intro x hx
        rcases List.mem_cons.1 hx with e | e
        · rw [e]
          exact Int.le_refl _
        · have := hys x e
          omega
      have hsmall : item.num < y.num ∧ item.pos < y.pos := by
        rcases hout item List.mem_cons_self with hmem | hw
        · exfalso
          rcases List.mem_cons.1 hmem with e | e
          · exact hy e
          · have := hys item e
            omega
        · rcases hw with hw | hw | ⟨x, hx, hxn, hxp⟩ | ⟨x, hx, hxn, hxp, hmax⟩
          · have := hw y List.mem_cons_self
            omega
          · exact hw y List.mem_cons_self
          · exfalso
            have := hall x hx
            rcases List.mem_cons.1 hx with e | e
            · rw [e] at hxn hxp
              omega
            · have := hys x e
              omega
          · have := hall x hx
            omega
      have hout' := fun x hx => hout x (List.mem_cons_of_mem item hx)
      unfold lnSequences
      simp only
      split
      · exact ih _ _ _ hlp hln (List.pairwise_cons.2 ⟨fun x hx => hpl x (List.mem_cons_of_mem _ hx),
          (List.pairwise_cons.1 hpi).2⟩) hrest hout'
      · split
        · exact ih _ _ _ hsmall.2 hsmall.1 hpi hrest hout'
        · exact ih _ _ _ hsmall.2 hsmall.1 hpi hrest hout'

/-- **C145.** Line numbers are found among other numbers at the beginning of lines, if they are enough by themselves and
the other numbers do not get in the way. What is missing: `C145_hidden`. -/
theorem C145_among_partial (cfg : LineNumberCfg) (d : Doc) (s : List LnItem) (hne : s ≠ []) (hs : LineNumbers cfg.gap s)
    (hmem : ∀ it ∈ s, NumberedLine cfg d it) (hout : ∀ it, NumberedLine cfg d it → it ∈ s ∨ OutOfTheWay s it)
    (hmin : cfg.minCount ≤ s.length)
    (hratio : cfg.threshold ≤ (s.length : Rat) / ((lineStarts d).length : Rat)) :
    ∃ toks, findLineNumbers cfg d = .ok toks ∧ ∀ it ∈ s, it.token ∈ toks := by
  unfold NumberedLine at hmem hout
  rw [← Props.firstTokens_eq] at hratio
  simp only [← Props.firstTokens_eq] at hmem hout
  have hcand : ∃ q : List LnItem, s.Sublist q ∧ q.map LnItem.token <:+:
      lineNumberCandidates cfg.parseInt (d.getText cfg.cc) cfg.minCount cfg.gap (firstTokens d) := by
    have hperm := sortBy_perm lnLe (lnItems cfg.parseInt (d.getText cfg.cc) 1 (firstTokens d))
    have hpw := sortBy_pairwise lnLe lnLe_total lnLe_trans (lnItems cfg.parseInt (d.getText cfg.cc) 1 (firstTokens d))
    have hpos : (sortBy lnLe (lnItems cfg.parseInt (d.getText cfg.cc) 1 (firstTokens d))).Pairwise (fun a b => a.pos ≠ b.pos) :=
      (hperm.pairwise_iff (fun h => Ne.symm h)).2
        ((lnItems_pos cfg.parseInt (d.getText cfg.cc) 1 (firstTokens d)).imp (fun h => Nat.ne_of_lt h))
    have hlt : (sortBy lnLe (lnItems cfg.parseInt (d.getText cfg.cc) 1 (firstTokens d))).Pairwise lnLt := by
      refine (hpw.and hpos).imp ?_
      rintro a b ⟨h1, h2⟩
      rw [lnLe_iff] at h1
      unfold lnLt
      omega
    have hin : ∀ x ∈ s, x ∈ sortBy lnLe (lnItems cfg.parseInt (d.getText cfg.cc) 1 (firstTokens d)) := by
      intro x hx
      obtain ⟨a, b, c, e⟩ := hmem x hx
      exact hperm.mem_iff.2 (mem_lnItems _ _ 1 _ x a b c e)
    have hall : ∀ x ∈ sortBy lnLe (lnItems cfg.parseInt (d.getText cfg.cc) 1 (firstTokens d)), x ∈ s ∨ OutOfTheWay s x := by
      intro x hx
      exact hout x (lnItems_mem _ _ 1 _ x (hperm.mem_iff.1 hx))
    unfold lineNumberCandidates
    generalize sortBy lnLe (lnItems cfg.parseInt (d.getText cfg.cc) 1 (firstTokens d)) = l at hlt hin hall
    have hfin : ∀ seqs : List (List LnItem), (∃ q ∈ seqs, s.Sublist q) → ∃ q : List LnItem, s.Sublist q ∧ q.map LnItem.token <:+:
        (seqs.filter (fun s => decide (cfg.minCount ≤ (s.length : Int)))).flatMap (fun s => s.map LnItem.token) := by
      rintro seqs ⟨q, hq, hsub⟩
      refine ⟨q, hsub, ?_⟩
      have hlen := hsub.length_le
      have hf : q ∈ seqs.filter (fun s => decide (cfg.minCount ≤ (s.length : Int))) :=
        List.mem_filter.2 ⟨hq, by simp; omega⟩
      obtain ⟨a, b, hab⟩ := List.append_of_mem hf
      rw [hab, List.flatMap_append, List.flatMap_cons]
      exact ⟨_, _, List.append_assoc _ _ _⟩
    cases s with
    | nil => exact absurd rfl hne
    | cons y s2 =>
      have hys : ∀ x ∈ s2, y.num < x.num := (List.pairwise_cons.1 hs.num).1
      cases l with
      | nil => exact absurd (hin y List.mem_cons_self) (by simp)
      | cons item items =>
        simp only
        refine hfin _ ?_
        by_cases hy : item = y
        · subst hy
          refine lnSequences_rest cfg.gap (item :: s2) hs items [] s2 [] [] item rfl (List.Sublist.refl _) hlt ?_
            (fun x hx => hall x (List.mem_cons_of_mem _ hx))
          intro x hx
          rcases List.mem_cons.1 (hin x (List.mem_cons_of_mem _ hx)) with e | e
          · have := hys x hx
            rw [e] at this
            omega
          · exact e
        · have hym : y ∈ items := by
            rcases List.mem_cons.1 (hin y List.mem_cons_self) with e | e
            · exact absurd e.symm hy
            · exact e
          have hiy : lnLt item y := (List.pairwise_cons.1 hlt).1 y hym
          unfold lnLt at hiy
          have hsmall : item.num < y.num ∧ item.pos < y.pos := by
            rcases hall item List.mem_cons_self with hmem | hw
            · exfalso
              rcases List.mem_cons.1 hmem with e | e
              · exact hy e
              · have := hys item e
                omega
            · rcases hw with hw | hw | ⟨x, hx, hxn, hxp⟩ | ⟨x, hx, hxn, hxp, hmax⟩
              · have := hw y List.mem_cons_self
                omega
              · exact hw y List.mem_cons_self
              · exfalso
                rcases List.mem_cons.1 hx with e | e
                · rw [e] at hxn hxp
                  omega
                · have := hys x e
                  omega
              · rcases List.mem_cons.1 hx with e | e
                · rw [e] at hxn
                  omega
                · have := hys x e
                  omega
          refine lnSequences_first cfg.gap y s2 hs items [] [] item hsmall.2 hsmall.1 hlt ?_
            (fun x hx => hall x (List.mem_cons_of_mem _ hx))
          intro x hx
          rcases List.mem_cons.1 (hin x hx) with e | e
          · exfalso
            rcases List.mem_cons.1 hx with e' | e'
            · exact hy (e.symm.trans e')
            · have := hys x e'
              rw [e] at this
              omega
          · exact e
  obtain ⟨q, hsub, hq⟩ := hcand
  have hlen : s.length ≤ (lineNumberCandidates cfg.parseInt (d.getText cfg.cc) cfg.minCount cfg.gap (firstTokens d)).length := by
    have h1 := hsub.length_le
    have h2 := hq.sublist.length_le
    rw [List.length_map] at h2
    omega
  refine ⟨lineNumberCandidates cfg.parseInt (d.getText cfg.cc) cfg.minCount cfg.gap (firstTokens d), ?_, ?_⟩
  · have hn : (firstTokens d).length ≠ 0 := by
      cases s with
      | nil => exact absurd rfl hne
      | cons y s2 =>
        intro h0
        have := (hmem y List.mem_cons_self).2.1
        rw [List.length_eq_zero_iff.1 h0] at this
        simp at this
    unfold findLineNumbers
    simp only
    rw [if_neg (by omega), if_neg hn, if_neg]
    refine Rat.not_lt.2 (Rat.le_trans hratio ?_)
    rw [Rat.div_def, Rat.div_def]
    refine Rat.mul_le_mul_of_nonneg_right (by exact_mod_cast hlen) ?_
    exact Rat.le_of_lt (Rat.inv_pos.2 (by exact_mod_cast Nat.pos_of_ne_zero hn))
  · intro it hit
    exact hq.subset (List.mem_map.2 ⟨it, hsub.subset hit, rfl⟩)

/-! ### Examples -/

/-- Lines which begin with these texts. -/
def exLnDoc (starts : List Str) : Doc := Doc.ofLines (starts.map (fun s => [⟨s, false, [], none⟩, ⟨c!"a", false, [], none⟩]))

/-- **C145**, disagreement: a smaller number below the line numbers hides all of them, such as the number of the page at
its bottom. -/
theorem C145_hidden :
    findLineNumbers Props.exLnCfg (exLnDoc [c!"11", c!"12", c!"13", c!"14"]) = .ok [0, 2, 4, 6] ∧
    findLineNumbers Props.exLnCfg (exLnDoc [c!"11", c!"12", c!"13", c!"14", c!"5"]) = .ok [] := by decide +kernel

/-- Not vacuous: the number of the page at its top, a number in a table, and one which is repeated. -/
example : ∃ toks, findLineNumbers Props.exLnCfg (exLnDoc [c!"5", c!"11", c!"20", c!"12", c!"11", c!"13"]) = .ok toks ∧
    ∀ it ∈ [⟨2, 11, 2⟩, ⟨6, 12, 4⟩, LnItem.mk 10 13 6], it.token ∈ toks := by
  refine C145_among_partial Props.exLnCfg _ _ (by simp) ⟨by simp, by simp, ?_⟩ ?_ ?_ (by decide) (by decide +kernel)
  · intro pre a b post h
    match pre, h with
    | [], h => simp only [List.nil_append, List.cons.injEq] at h; rw [← h.1, ← h.2.1]; decide
    | [_], h => simp only [List.cons_append, List.nil_append, List.cons.injEq] at h; rw [← h.2.1, ← h.2.2.1]; decide
    | [_, _], h => simp at h
    | _ :: _ :: _ :: _, h => simp at h
  · intro it hit
    simp only [List.mem_cons, List.not_mem_nil, or_false] at hit
    rcases hit with rfl | rfl | rfl <;> exact ⟨by decide, by decide +kernel, by decide +kernel, by decide⟩
  · intro it hit
    have hm : it ∈ lnItems Props.exParse ((exLnDoc [c!"5", c!"11", c!"20", c!"12", c!"11", c!"13"]).getText asciiClass) 1
        (lineStarts (exLnDoc [c!"5", c!"11", c!"20", c!"12", c!"11", c!"13"])) :=
      mem_lnItems _ _ 1 _ it hit.1 hit.2.1 hit.2.2.1 hit.2.2.2
    have he : lnItems Props.exParse ((exLnDoc [c!"5", c!"11", c!"20", c!"12", c!"11", c!"13"]).getText asciiClass) 1
        (lineStarts (exLnDoc [c!"5", c!"11", c!"20", c!"12", c!"11", c!"13"])) =
        [⟨0, 5, 1⟩, ⟨2, 11, 2⟩, ⟨4, 20, 3⟩, ⟨6, 12, 4⟩, ⟨8, 11, 5⟩, ⟨10, 13, 6⟩] := by decide +kernel
    rw [he] at hm
    unfold OutOfTheWay
    simp only [List.mem_cons, List.not_mem_nil, or_false] at hm
    rcases hm with rfl | rfl | rfl | rfl | rfl | rfl <;> decide

end Verif
