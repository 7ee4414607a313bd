import Verif.Model.Checks
import Verif.Spec.Checks
import Verif.Lemmas.PyList
import Verif.Lemmas.TeiDoc
import Verif.Lemmas.List

namespace Verif

theorem prefix_b_iff (t : Option Str) :
    (splitTagPrefix t).1 = some bPrefix ↔ startsWith c!"b-" (t.getD []) = true := by
  cases t with
  | none => decide
  | some t =>
    rcases splitTagPrefix_match t with ⟨v, rfl, h⟩ | ⟨v, rfl, h⟩ | ⟨h1, h2, h⟩
    · rw [h]; simp [startsWith]
    · rw [h]; simp [startsWith, bPrefix, iPrefix]
    · rw [h]
      simp only [reduceCtorEq, Option.getD_some, false_iff]
      intro hs
      obtain ⟨v, hv⟩ := startsWith_iff.1 hs
      exact h1 v hv.symm

theorem currentValue_cases (d : Doc) (i : Nat) :
    (truthy (splitTagPrefix (d.getTag i)).2 = false ∧ Spec.currentValue d i = none) ∨
    (∃ v, (splitTagPrefix (d.getTag i)).2 = some v ∧ v ≠ [] ∧ Spec.currentValue d i = some v) := by
  unfold Spec.currentValue stripTagPrefix
  cases h : truthy (splitTagPrefix (d.getTag i)).2 with
  | false => left; simp [h]
  | true =>
    right
    obtain ⟨v, hv, hne⟩ := truthy_iff.1 h
    exact ⟨v, hv, hne, by simp [hv, truthy_some.2 hne]⟩

/-- The result of the loop. -/
def EntState.result (st : EntState) : List (Str × List Nat) :=
  if !st.pending.isEmpty then st.out ++ [(st.value.getD [], st.pending)] else st.out

theorem entity_loop (d : Doc) (ids : List Nat) :
    (∀ out, (ids.foldl (entStep d) ⟨out, [], none⟩).result = out ++ Spec.entityRuns d ids) ∧
    (∀ out p ps v, v ≠ [] → (ids.foldl (entStep d) ⟨out, p :: ps, some v⟩).result =
      out ++ (v, p :: ps ++ ids.takeWhile (Spec.continues d v)) ::
        Spec.entityRuns d (ids.dropWhile (Spec.continues d v))) := by
  induction ids with
  | nil =>
    constructor
    · intro out; simp [EntState.result, Spec.entityRuns]
    · intro out p ps v hv; simp [EntState.result, Spec.entityRuns]
  | cons i ids ih =>
    constructor
    · intro out
      rw [List.foldl_cons]
      rcases currentValue_cases d i with ⟨h1, h2⟩ | ⟨v, h1, h2, h3⟩
      · have hstep : entStep d ⟨out, [], none⟩ i = ⟨out, [], none⟩ := by
          unfold entStep; simp [h1]
        rw [hstep, ih.1, Spec.entityRuns.eq_2, h2]
      · have hstep : entStep d ⟨out, [], none⟩ i = ⟨out, [i], some v⟩ := by
          unfold entStep; simp [h1, truthy_some.2 h2]
        rw [hstep, ih.2 _ _ _ _ h2, Spec.entityRuns.eq_2, h3]
        simp
    · intro out p ps v hv
      rw [List.foldl_cons]
      by_cases hc : Spec.continues d v i = true
      · have hc' := hc
        unfold Spec.continues at hc'
        rw [Bool.and_eq_true, decide_eq_true_eq, Bool.not_eq_true'] at hc'
        have hb : ¬ (splitTagPrefix (d.getTag i)).1 = some bPrefix := by
          rw [prefix_b_iff, hc'.2]; simp
        rcases currentValue_cases d i with ⟨h1, h2⟩ | ⟨w, h1, h2, h3⟩
        · rw [h2] at hc'; cases hc'.1
        · have hwv : w = v := Option.some.inj (h3.symm.trans hc'.1)
          subst hwv
          have hstep : entStep d ⟨out, p :: ps, some w⟩ i = ⟨out, p :: ps ++ [i], some w⟩ := by
            unfold entStep; simp [h1, hb, truthy_some.2 h2]
          rw [hstep]
          have := ih.2 out p (ps ++ [i]) w h2
          rw [show p :: (ps ++ [i]) = p :: ps ++ [i] from rfl] at this
          rw [this, List.takeWhile_cons_of_pos hc, List.dropWhile_cons_of_pos hc]
          simp
      · rw [List.takeWhile_cons_of_neg hc, List.dropWhile_cons_of_neg hc, List.append_nil]
        have hflush : (!(p :: ps).isEmpty && (decide (some v ≠ (splitTagPrefix (d.getTag i)).2) ||
            decide ((splitTagPrefix (d.getTag i)).1 = some bPrefix))) = true := by
          simp only [List.isEmpty_cons, Bool.not_false, Bool.true_and, Bool.or_eq_true, decide_eq_true_eq]
          by_cases he : some v = (splitTagPrefix (d.getTag i)).2
          · right
            rw [prefix_b_iff]
            cases hs : startsWith c!"b-" ((d.getTag i).getD []) with
            | true => rfl
            | false =>
              exfalso
              apply hc
              unfold Spec.continues Spec.currentValue stripTagPrefix
              rw [hs, ← he]
              simp [truthy_some.2 hv]
          · left; exact he
        rcases currentValue_cases d i with ⟨h1, h2⟩ | ⟨w, h1, h2, h3⟩
        · have hstep : entStep d ⟨out, p :: ps, some v⟩ i = ⟨out ++ [(v, p :: ps)], [], none⟩ := by
            have e : entStep d ⟨out, p :: ps, some v⟩ i =
                if !truthy (splitTagPrefix (d.getTag i)).2 then
                  (if (!(p :: ps).isEmpty && (decide (some v ≠ (splitTagPrefix (d.getTag i)).2) ||
                    decide ((splitTagPrefix (d.getTag i)).1 = some bPrefix))) = true
                    then ⟨out ++ [(v, p :: ps)], [], none⟩ else ⟨out, p :: ps, some v⟩)
                else ⟨(if (!(p :: ps).isEmpty && (decide (some v ≠ (splitTagPrefix (d.getTag i)).2) ||
                    decide ((splitTagPrefix (d.getTag i)).1 = some bPrefix))) = true
                    then (⟨out ++ [(v, p :: ps)], [], none⟩ : EntState) else ⟨out, p :: ps, some v⟩).out,
                  (if (!(p :: ps).isEmpty && (decide (some v ≠ (splitTagPrefix (d.getTag i)).2) ||
                    decide ((splitTagPrefix (d.getTag i)).1 = some bPrefix))) = true
                    then (⟨out ++ [(v, p :: ps)], [], none⟩ : EntState) else ⟨out, p :: ps, some v⟩).pending ++ [i],
                  (splitTagPrefix (d.getTag i)).2⟩ := rfl
            rw [e, if_pos hflush, h1]; rfl
          rw [hstep, ih.1, Spec.entityRuns.eq_2, h2]
          simp
        · have hstep : entStep d ⟨out, p :: ps, some v⟩ i = ⟨out ++ [(v, p :: ps)], [i], some w⟩ := by
            have e : entStep d ⟨out, p :: ps, some v⟩ i =
                if !truthy (splitTagPrefix (d.getTag i)).2 then
                  (if (!(p :: ps).isEmpty && (decide (some v ≠ (splitTagPrefix (d.getTag i)).2) ||
                    decide ((splitTagPrefix (d.getTag i)).1 = some bPrefix))) = true
                    then ⟨out ++ [(v, p :: ps)], [], none⟩ else ⟨out, p :: ps, some v⟩)
                else ⟨(if (!(p :: ps).isEmpty && (decide (some v ≠ (splitTagPrefix (d.getTag i)).2) ||
                    decide ((splitTagPrefix (d.getTag i)).1 = some bPrefix))) = true
                    then (⟨out ++ [(v, p :: ps)], [], none⟩ : EntState) else ⟨out, p :: ps, some v⟩).out,
                  (if (!(p :: ps).isEmpty && (decide (some v ≠ (splitTagPrefix (d.getTag i)).2) ||
                    decide ((splitTagPrefix (d.getTag i)).1 = some bPrefix))) = true
                    then (⟨out ++ [(v, p :: ps)], [], none⟩ : EntState) else ⟨out, p :: ps, some v⟩).pending ++ [i],
                  (splitTagPrefix (d.getTag i)).2⟩ := rfl
            rw [e, if_pos hflush, h1]; simp [truthy_some.2 h2]
          rw [hstep, ih.2 _ _ _ _ h2, Spec.entityRuns.eq_2, h3]
          simp

theorem entityTokens_eq (d : Doc) : entityTokens d = Spec.entityRuns d d.nonSpaceTokens :=
  (entity_loop d d.nonSpaceTokens).1 []

theorem entityRuns_flatten (d : Doc) (ids : List Nat) :
    (Spec.entityRuns d ids).flatMap (·.2) = ids.filter (fun i => (Spec.currentValue d i).isSome) := by
  induction ids using Spec.entityRuns.induct d with
  | case1 => simp [Spec.entityRuns]
  | case2 i is h ih =>
    rw [Spec.entityRuns.eq_2, h]
    simp [ih, h]
  | case3 i is v h ih =>
    rw [Spec.entityRuns.eq_2, h]
    simp only [List.flatMap_cons, ih]
    rw [List.filter_cons_of_pos (by simp [h])]
    have : is.filter (fun i => (Spec.currentValue d i).isSome) =
        is.takeWhile (Spec.continues d v) ++
          (is.dropWhile (Spec.continues d v)).filter (fun i => (Spec.currentValue d i).isSome) := by
      conv => lhs; rw [← List.takeWhile_append_dropWhile (p := Spec.continues d v) (l := is)]
      rw [List.filter_append]
      congr 1
      rw [List.filter_eq_self]
      intro a ha
      have hc := mem_takeWhile_imp ha
      unfold Spec.continues at hc
      rw [Bool.and_eq_true, decide_eq_true_eq] at hc
      simp [hc.1]
    rw [this]
    simp

theorem entityRuns_values (d : Doc) (ids : List Nat) :
    ∀ p ∈ Spec.entityRuns d ids, p.2 ≠ [] ∧ (∀ i ∈ p.2, Spec.currentValue d i = some p.1) ∧
      (∀ i ∈ p.2.tail, startsWith c!"b-" ((d.getTag i).getD []) = false) ∧ p.2 <:+: ids := by
  induction ids using Spec.entityRuns.induct d with
  | case1 => simp [Spec.entityRuns]
  | case2 i is h ih =>
    rw [Spec.entityRuns.eq_2, h]
    intro p hp
    obtain ⟨a, b, c, e⟩ := ih p hp
    exact ⟨a, b, c, e.trans (List.suffix_cons i is).isInfix⟩
  | case3 i is v h ih =>
    rw [Spec.entityRuns.eq_2, h]
    intro p hp
    rcases List.mem_cons.1 hp with rfl | hp
    · have hc : ∀ a ∈ is.takeWhile (Spec.continues d v), Spec.currentValue d a = some v ∧
          startsWith c!"b-" ((d.getTag a).getD []) = false := by
        intro a ha
        have hc := mem_takeWhile_imp ha
        unfold Spec.continues at hc
        rw [Bool.and_eq_true, decide_eq_true_eq, Bool.not_eq_true'] at hc
        exact hc
      refine ⟨by simp, ?_, ?_, ?_⟩
      · intro j hj
        rcases List.mem_cons.1 hj with rfl | hj
        · exact h
        · exact (hc j hj).1
      · intro j hj; exact (hc j hj).2
      · exact (List.prefix_cons_inj i).2 (List.takeWhile_prefix _) |>.isInfix
    · obtain ⟨a, b, c, e⟩ := ih p hp
      refine ⟨a, b, c, e.trans ?_⟩
      exact ((List.dropWhile_suffix _).trans (List.suffix_cons i is)).isInfix

theorem tokenText_eq (d : Doc) (ids : List Nat) (i : Nat) :
    tokenText d (ids ++ [i]) =
      ids.flatMap (fun j => (d.tok j).text ++ ((d.tok j).whitespace).getD []) ++ (d.tok i).text := by
  induction ids with
  | nil => rfl
  | cons a ids ih =>
    cases ids with
    | nil => simp [tokenText]
    | cons b ids =>
      show _ ++ _ ++ tokenText d ((b :: ids) ++ [i]) = _
      rw [ih]; simp

/-! ### Required values -/

theorem requiredTargets_get? (targets : List CheckTarget) (fields : List Str) (f : Str) (hf : f ∈ fields) :
    ((requiredTargetsByName targets fields).get? f).getD [] = targets.filter (fun t => decide (t.name = f)) := by
  have hs := sortBy_pairwise (fun a b => strLe (CheckTarget.name a) b.name) (fun a b => strLe_total _ _)
    (fun a b c => strLe_trans _ _ _) targets
  obtain ⟨h1, h2⟩ := groupBy_sorted CheckTarget.name _ hs
  have h := get?_sorted_groupBy CheckTarget.name targets f
  have e1 := get?_ofPairs_nodup _ (h1.imp (fun h => h.2)) f
  have e2 := get?_ofPairs_nodup _ ((h1.imp (fun h => h.2)).filter (fun p => fields.contains p.1)) f
  have : (requiredTargetsByName targets fields).get? f =
      (Dict.ofPairs (groupBy CheckTarget.name (sortBy (fun a b => strLe a.name b.name) targets))).get? f := by
    apply Option.ext
    intro v
    unfold requiredTargetsByName
    rw [e2, e1, List.mem_filter]
    simp [hf]
  rw [this, h]
  split
  · next hn => rw [hn]; rfl
  · rfl

/-- The loop reads the required value of each field, or fails. -/
theorem requiredValuesLoop_spec (byName : Dict (List CheckTarget)) (fs : List Str) (r : Dict Str) :
    (requiredValuesLoop byName fs r = .error .runtimeError ∧
      ∃ f ∈ fs, ∃ ts, (byName.get? f).getD [] = ts ∧ ts ≠ [] ∧ ¬ ∃ t v, ts = [t] ∧ t.value = some v) ∨
    (∃ r', requiredValuesLoop byName fs r = .ok r' ∧
      (∀ f ∈ fs, (byName.get? f).getD [] = [] ∨
        ∃ t v, (byName.get? f).getD [] = [t] ∧ t.value = some v) ∧
      ∀ f, r'.get? f =
        if f ∈ fs ∧ (byName.get? f).getD [] ≠ [] then
          ((byName.get? f).getD []).head?.bind (·.value) else r.get? f) := by
  induction fs generalizing r with
  | nil => right; exact ⟨r, rfl, by simp, by simp⟩
  | cons f fs ih =>
    unfold requiredValuesLoop
    rcases hts : (byName.get? f).getD [] with _ | ⟨t, _ | ⟨t2, ts⟩⟩
    · simp only
      rcases ih r with ⟨h1, g, hg, h2⟩ | ⟨r', h1, h2, h3⟩
      · left; exact ⟨h1, g, by simp [hg], h2⟩
      · right
        refine ⟨r', h1, ?_, ?_⟩
        · intro g hg
          rcases List.mem_cons.1 hg with rfl | hg
          · left; exact hts
          · exact h2 g hg
        · intro g
          rw [h3]
          by_cases hgf : g = f
          · subst hgf; simp [hts]
          · simp [hgf]
    · cases hv : t.value with
      | none =>
        left
        simp only [hv]
        refine ⟨trivial, f, by simp, [t], hts, by simp, ?_⟩
        rintro ⟨t', v, h, h'⟩
        cases h
        rw [hv] at h'; cases h'
      | some v =>
        simp only [hv]
        rcases ih (r.set f v) with ⟨h1, g, hg, h2⟩ | ⟨r', h1, h2, h3⟩
        · left; exact ⟨h1, g, by simp [hg], h2⟩
        · right
          refine ⟨r', h1, ?_, ?_⟩
          · intro g hg
            rcases List.mem_cons.1 hg with rfl | hg
            · right; exact ⟨t, v, hts, hv⟩
            · exact h2 g hg
          · intro g
            rw [h3]
            by_cases hgf : g = f
            · subst hgf
              by_cases hm : g ∈ fs <;> simp [hts, hm, hv]
            · rw [Dict.get?_set_ne _ _ hgf]
              simp [hgf]
    · left
      simp only
      refine ⟨trivial, f, by simp, t :: t2 :: ts, hts, by simp, ?_⟩
      rintro ⟨t', v, h, _⟩
      cases h

theorem get?_map_values {β γ : Type} (f : β → γ) (d : Dict β) (k : Str) :
    Dict.get? (d.map (fun p => (p.1, f p.2))) k = (d.get? k).map f := by
  induction d with
  | nil => rfl
  | cons p d ih =>
    obtain ⟨a, b⟩ := p
    simp only [List.map_cons]
    unfold Dict.get?
    split
    · rfl
    · exact ih

theorem entitiesByName_get? (d : Doc) (f : Str) :
    ((entitiesByName d).get? f).getD [] =
      ((entities d).filter (fun p => decide (p.1 = f))).map Prod.snd := by
  unfold entitiesByName
  rw [get?_map_values, get?_sorted_groupBy]
  split
  · next h => rw [h]; rfl
  · rfl

theorem valuesMatch_iff (ratio : Str → Str → Rat) (threshold : Rat) (byName : Dict (List Str)) (req : Dict Str) :
    valuesMatch ratio threshold byName req = true ↔
      ∀ p ∈ req, (byName.get? p.1).getD [] ≠ [] ∧
        threshold ≤ ratio p.2 (joinStr c!" " ((byName.get? p.1).getD [])) := by
  induction req with
  | nil => simp [valuesMatch]
  | cons p req ih =>
    obtain ⟨f, v⟩ := p
    unfold valuesMatch
    simp only
    by_cases h1 : (byName.get? f).getD [] = []
    · simp [h1]
    · have h1' : ((byName.get? f).getD []).isEmpty = false := by
        rw [Bool.eq_false_iff, Ne, List.isEmpty_iff]; exact h1
      rw [h1']
      simp only [Bool.false_eq_true, if_false]
      by_cases h2 : ratio v (joinStr c!" " ((byName.get? f).getD [])) < threshold
      · have h3 := Rat.not_le.2 h2
        simp only [h2, if_true, Bool.false_eq_true, false_iff]
        intro h
        exact h3 (h (f, v) (by simp)).2
      · have h3 := Rat.not_lt.1 h2
        simp only [h2, if_false, ih]
        constructor
        · intro h p hp
          rcases List.mem_cons.1 hp with rfl | hp
          · exact ⟨h1, h3⟩
          · exact h p hp
        · intro h p hp
          exact h p (by simp [hp])

/-- Membership in a dictionary with distinct keys. -/
theorem Dict.keys_nodup_set {β : Type} (d : Dict β) (k : Str) (v : β)
    (h : d.Pairwise (fun p q => p.1 ≠ q.1)) : (d.set k v).Pairwise (fun p q => p.1 ≠ q.1) := by
  have hk : ∀ (d : Dict β), ∀ p ∈ d.set k v, p.1 = k ∨ p ∈ d := by
    intro d
    induction d with
    | nil => intro p hp; simp [Dict.set] at hp; left; rw [hp]
    | cons q d ih =>
      obtain ⟨a, b⟩ := q
      intro p hp
      unfold Dict.set at hp
      split at hp
      · next h =>
        rcases List.mem_cons.1 hp with rfl | hp
        · left; exact h
        · right; simp [hp]
      · rcases List.mem_cons.1 hp with rfl | hp
        · right; simp
        · rcases ih p hp with h | h
          · left; exact h
          · right; simp [h]
  induction d with
  | nil => simp [Dict.set]
  | cons q d ih =>
    obtain ⟨a, b⟩ := q
    rw [List.pairwise_cons] at h
    unfold Dict.set
    split
    · exact List.pairwise_cons.2 ⟨h.1, h.2⟩
    · next hne =>
      refine List.pairwise_cons.2 ⟨?_, ih h.2⟩
      intro p hp
      rcases hk d p hp with hp | hp
      · rw [hp]; exact hne
      · exact h.1 p hp

theorem Dict.mem_iff_get? {β : Type} (d : Dict β) (h : d.Pairwise (fun p q => p.1 ≠ q.1)) (k : Str) (v : β) :
    (k, v) ∈ d ↔ d.get? k = some v := by
  induction d with
  | nil => simp
  | cons q d ih =>
    obtain ⟨a, b⟩ := q
    rw [List.pairwise_cons] at h
    unfold Dict.get?
    by_cases hk : a = k
    · subst hk
      simp only [if_true, List.mem_cons, Prod.mk.injEq, true_and, Option.some.injEq]
      constructor
      · rintro (h' | h')
        · exact h'.symm
        · exact absurd rfl (h.1 (a, v) h')
      · intro h'; left; exact h'.symm
    · simp only [hk, if_false, List.mem_cons, Prod.mk.injEq]
      rw [← ih h.2]
      have : k ≠ a := fun x => hk x.symm
      simp [this]

theorem requiredValuesLoop_nodup (byName : Dict (List CheckTarget)) (fs : List Str) (r r' : Dict Str)
    (hr : r.Pairwise (fun p q => p.1 ≠ q.1)) (h : requiredValuesLoop byName fs r = .ok r') :
    r'.Pairwise (fun p q => p.1 ≠ q.1) := by
  induction fs generalizing r with
  | nil => cases h; exact hr
  | cons f fs ih =>
    unfold requiredValuesLoop at h
    split at h
    · exact ih r hr h
    · split at h
      · cases h
      · exact ih _ (Dict.keys_nodup_set _ _ _ hr) h
    · cases h

end Verif
