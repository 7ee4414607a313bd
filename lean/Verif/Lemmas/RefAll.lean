/-
Lemmas about the references of a document, one after the other.
-/
import Verif.Lemmas.RefDoc

namespace Verif

theorem sameReference_iff (d : Doc) (value : Option Str) (i : Nat) :
    (value ≠ (splitTagPrefix (d.getTag i)).2 ∨ (splitTagPrefix (d.getTag i)).1 = some bPrefix) ↔
      Spec.sameReference d value i = false := by
  have hv : (splitTagPrefix (d.getTag i)).2 = Spec.tagValue (d.getTag i) := stripTagPrefix_eq_tagValue _
  have hb : (splitTagPrefix (d.getTag i)).1 = some bPrefix ↔ startsWith c!"b-" ((d.getTag i).getD []) = true := by
    rcases splitTagPrefix_cases (d.getTag i) with ⟨v, h1, h2⟩ | ⟨v, h1, h2⟩ | ⟨h1, h2, h3⟩
    · rw [h2, h1]; simp [startsWith, bPrefix]
    · rw [h2, h1]; simp [startsWith, iPrefix, bPrefix]
    · rw [h3]
      simp only [reduceCtorEq, false_iff]
      intro hc
      obtain ⟨v, hv⟩ := startsWith_iff.1 hc
      cases ht : d.getTag i with
      | none => rw [ht] at hv; cases hv
      | some t => rw [ht] at hv; exact h1 v (by rw [ht]; exact congrArg some hv.symm)
  rw [hb, hv]
  unfold Spec.sameReference
  rw [Bool.and_eq_false_iff, decide_eq_false_iff_not, Bool.not_eq_false']
  exact ⟨fun h => h.imp (fun h e => h e.symm) id, fun h => h.imp (fun h e => h e.symm) id⟩

theorem refEntityLoop_cons (d : Doc) (value : Option Str) (pending : List Nat) (i : Nat) (is : List Nat) :
    refEntityLoop d value pending (i :: is) =
      if Spec.sameReference d value i then refEntityLoop d value (pending ++ [i]) is
      else (value, pending) :: refEntityLoop d (Spec.tagValue (d.getTag i)) [i] is := by
  have e : refEntityLoop d value pending (i :: is) =
      if value ≠ (splitTagPrefix (d.getTag i)).2 ∨ (splitTagPrefix (d.getTag i)).1 = some bPrefix then
        (value, pending) :: refEntityLoop d (splitTagPrefix (d.getTag i)).2 [i] is
      else refEntityLoop d value (pending ++ [i]) is := rfl
  rw [e]
  have h := sameReference_iff d value i
  cases hs : Spec.sameReference d value i with
  | true =>
    rw [if_neg (fun hc => by rw [h.1 hc] at hs; cases hs)]
    simp
  | false =>
    rw [if_pos (h.2 hs), show (splitTagPrefix (d.getTag i)).2 = Spec.tagValue (d.getTag i) from stripTagPrefix_eq_tagValue _]
    simp

theorem references_cons (d : Doc) (i : Nat) (is : List Nat) :
    Spec.references d (i :: is) = (i :: is.takeWhile (Spec.sameReference d (Spec.tagValue (d.getTag i)))) ::
      Spec.references d (is.dropWhile (Spec.sameReference d (Spec.tagValue (d.getTag i)))) := by
  rw [Spec.references]

theorem references_nil (d : Doc) : Spec.references d [] = [] := by rw [Spec.references]

theorem refEntityLoop_eq (d : Doc) (is : List Nat) (value : Option Str) (pending : List Nat) :
    (refEntityLoop d value pending is).map Prod.snd =
      (pending ++ is.takeWhile (Spec.sameReference d value)) :: Spec.references d (is.dropWhile (Spec.sameReference d value)) := by
  induction is generalizing value pending with
  | nil => simp [refEntityLoop, references_nil]
  | cons i is ih =>
    rw [refEntityLoop_cons, List.takeWhile_cons, List.dropWhile_cons]
    split
    · next h => simp only [ih, List.append_assoc]; rfl
    · next h =>
      rw [List.map_cons, ih, references_cons]
      simp

theorem refEntities_eq (d : Doc) (l : List Nat) : (refEntities d l).map Prod.snd = Spec.references d l := by
  cases l with
  | nil => rw [references_nil]; rfl
  | cons i is =>
    show (refEntityLoop d (splitTagPrefix (d.getTag i)).2 [i] is).map Prod.snd = _
    rw [show (splitTagPrefix (d.getTag i)).2 = Spec.tagValue (d.getTag i) from stripTagPrefix_eq_tagValue _, refEntityLoop_eq, references_cons]
    rfl

theorem references_flatten (d : Doc) (l : List Nat) : (Spec.references d l).flatten = l := by
  induction h : l.length using Nat.strongRecOn generalizing l with
  | _ n ih =>
    cases l with
    | nil => rw [references_nil]; rfl
    | cons i is =>
      rw [references_cons, List.flatten_cons, ih _ _ _ rfl, List.cons_append, List.takeWhile_append_dropWhile]
      rw [← h]
      exact Nat.lt_succ_of_le (List.dropWhile_sublist _).length_le

theorem references_ne_nil (d : Doc) (l : List Nat) : ∀ e ∈ Spec.references d l, e ≠ [] := by
  induction h : l.length using Nat.strongRecOn generalizing l with
  | _ n ih =>
    cases l with
    | nil => rw [references_nil]; simp
    | cons i is =>
      rw [references_cons]
      intro e he
      rcases List.mem_cons.1 he with rfl | he
      · simp
      · refine ih _ ?_ _ rfl e he
        rw [← h]
        exact Nat.lt_succ_of_le (List.dropWhile_sublist _).length_le

theorem SubOnly.withText {d d' : Doc} (h : SubOnly d d') (cc : CharClass) (m : Dict Str) (tokens : List Nat) (tags : List (Option Str)) :
    Spec.withText cc d' m tokens tags = Spec.withText cc d m tokens tags := by
  unfold Spec.withText
  apply List.map_congr_left
  intro x _
  have h2 : d'.getText cc x.1 = d.getText cc x.1 := by
    unfold Doc.getText Tok.strippedText
    rw [h.same.text]
  have h3 : d'.getWhitespace x.1 = d.getWhitespace x.1 := h.same.whitespace x.1
  rw [h2, h3]

theorem SubOnly.getText {d d' : Doc} (h : SubOnly d d') (cc : CharClass) (i : Nat) : d'.getText cc i = d.getText cc i := by
  unfold Doc.getText Tok.strippedText
  rw [h.same.text]

theorem refFold_effect {env : RefEnv} {cfg : RefConfig} (hm : Spec.ProperMap cfg.subTagMap) (es : List (List Nat)) (hnd : es.flatten.Nodup)
    (d d' : Doc) (h : es.foldlM (fun d e => refEntity env cfg d e) d = .ok d')
    (hp : ∀ i ∈ es.flatten, Spec.ProperTag (d.getSubTag i)) (ht : ∀ i ∈ es.flatten, d.getText env.cc i ≠ []) :
    SubOnly d d' ∧ (∀ j, j ∉ es.flatten → d'.getSubTag j = d.getSubTag j) ∧
    ∀ e ∈ es, ∃ t1 t2 t3, Spec.RefSteps env cfg d e (e.map d.getSubTag) t1 t2 t3 (e.map d'.getSubTag) := by
  induction es generalizing d with
  | nil => cases h; exact ⟨.refl _, fun _ _ => rfl, by simp⟩
  | cons e es ih =>
    rw [List.foldlM_cons] at h
    rw [List.flatten_cons] at hnd hp ht
    rw [List.nodup_append] at hnd
    cases h1 : refEntity env cfg d e with
    | error x => rw [h1] at h; cases h
    | ok d1 =>
      rw [h1] at h
      obtain ⟨s1, o1, t1, t2, t3, r1⟩ := refEntity_effect h1 hnd.1 hm (fun i hi => hp i (List.mem_append_left _ hi))
        (fun i hi => ht i (List.mem_append_left _ hi))
      have hout : ∀ i ∈ es.flatten, d1.getSubTag i = d.getSubTag i := fun i hi => o1 i (fun hc => hnd.2.2 i hc i hi rfl)
      obtain ⟨s2, o2, r2⟩ := ih hnd.2.1 d1 h (fun i hi => by rw [hout i hi]; exact hp i (List.mem_append_right _ hi))
        (fun i hi => by rw [s1.getText]; exact ht i (List.mem_append_right _ hi))
      refine ⟨s1.trans s2, ?_, ?_⟩
      · intro j hj
        rw [List.flatten_cons, List.mem_append, not_or] at hj
        rw [o2 j hj.2, o1 j hj.1]
      · intro f hf
        rcases List.mem_cons.1 hf with rfl | hf
        · refine ⟨t1, t2, t3, r1.before, r1.etal, r1.suffixes, r1.prefixes, ?_⟩
          rw [← r1.merged]
          apply List.map_congr_left
          intro i hi
          exact o2 i (fun hc => hnd.2.2 i hi i hc rfl)
        · obtain ⟨u1, u2, u3, r⟩ := r2 f hf
          have hb : f.map d1.getSubTag = f.map d.getSubTag := by
            apply List.map_congr_left
            intro i hi
            exact hout i (List.mem_flatten.2 ⟨f, hf, hi⟩)
          rw [hb] at r
          exact ⟨u1, u2, u3, rfl, r.etal, by rw [r.suffixes, s1.withText], by rw [← s1.withText]; exact r.prefixes, r.merged⟩

theorem prefixExtended_ok {env : RefEnv} {regex : Dict Str} {enabled : List Str} {toks : List RefTok}
    (hp : ∀ x ∈ toks, Spec.ProperTag x.1) (hr : ∀ v ∈ enabled, regex.get? v ≠ none) :
    ∃ out, prefixExtended env regex enabled toks = .ok out :=
  prefixLoop_ok env regex enabled hr _ (refGroups_groupBy toks hp) false

theorem refEntity_ok {env : RefEnv} {cfg : RefConfig} {d : Doc} {tokens : List Nat} (hm : Spec.ProperMap cfg.subTagMap)
    (hnd : tokens.Nodup) (hp : ∀ i ∈ tokens, Spec.ProperTag (d.getSubTag i)) (ht : ∀ i ∈ tokens, d.getText env.cc i ≠ [])
    (hr : ∀ v ∈ cfg.prefixTags, cfg.prefixRegex.get? v ≠ none) : ∃ d', refEntity env cfg d tokens = .ok d' := by
  have p0 : ∀ t ∈ tokens.map d.getSubTag, Spec.ProperTag t := by
    intro t h0
    obtain ⟨i, hi, rfl⟩ := List.mem_map.1 h0
    exact hp i hi
  have e1 : mapEtal cfg d tokens = setRefTags d (tokens.zip (etalMapped cfg.etal cfg.etalMerge ((tokens.map d.getSubTag).map (Spec.mappedTag cfg.subTagMap)))) := by
    unfold mapEtal
    rw [(refToks_eq (env := env) (.refl d) rfl hm p0).2]
  have r1 := etal_step hm cfg.etal cfg.etalMerge p0
  generalize ht1 : etalMapped cfg.etal cfg.etalMerge ((tokens.map d.getSubTag).map (Spec.mappedTag cfg.subTagMap)) = t1 at e1 r1
  have p1 := proper_of_pw r1 (fun _ _ h => h.1.2)
  have k1 := setRefTags_keep hnd (pw_of_sub rfl r1 (fun _ _ h => h.1.1)) p1
  have s1 := subOnly_setRefTags (tokens.zip t1) d
  rw [← e1] at k1 s1
  unfold refEntity addIdnoPrefix
  generalize mapEtal cfg d tokens = d1 at k1 s1 e1
  have e2 : addNameSuffix env cfg d1 tokens = setRefTags d1 (tokens.zip (suffixExtended cfg.suffixTags (Spec.withText env.cc d cfg.subTagMap tokens t1))) := by
    unfold addNameSuffix
    rw [(refToks_eq s1.same k1.1 hm p1).1]
  have r2 := suffix_step (cc := env.cc) (d := d) (tokens := tokens) hm (by rw [r1.1, List.length_map]) p1 ht cfg.suffixTags
  generalize ht2 : suffixExtended cfg.suffixTags (Spec.withText env.cc d cfg.subTagMap tokens t1) = t2 at e2 r2
  have p2 := proper_of_pw r2 (fun _ _ h => h.1.2)
  have k2 := setRefTags_keep hnd (pw_of_sub k1.1 r2 (fun _ _ h => h.1.1)) p2
  have s2 := subOnly_setRefTags (tokens.zip t2) d1
  rw [← e2] at k2 s2
  generalize addNameSuffix env cfg d1 tokens = d2 at k2 s2 e2
  rw [(refToks_eq (s1.trans s2).same k2.1 hm p2).1]
  obtain ⟨o, ho⟩ := prefixExtended_ok (env := env) (regex := cfg.prefixRegex) (enabled := cfg.prefixTags)
    (toks := Spec.withText env.cc d cfg.subTagMap tokens t2) (fun x hx => (withText_proper hm p2 ht x hx).1) hr
  rw [ho]
  exact ⟨_, rfl⟩

theorem refFold_ok {env : RefEnv} {cfg : RefConfig} (hm : Spec.ProperMap cfg.subTagMap) (es : List (List Nat)) (hnd : es.flatten.Nodup)
    (d : Doc) (hp : ∀ i ∈ es.flatten, Spec.ProperTag (d.getSubTag i)) (ht : ∀ i ∈ es.flatten, d.getText env.cc i ≠ [])
    (hr : ∀ v ∈ cfg.prefixTags, cfg.prefixRegex.get? v ≠ none) :
    ∃ d', es.foldlM (fun d e => refEntity env cfg d e) d = .ok d' := by
  induction es generalizing d with
  | nil => exact ⟨d, rfl⟩
  | cons e es ih =>
    rw [List.flatten_cons] at hnd hp ht
    rw [List.nodup_append] at hnd
    obtain ⟨d1, h1⟩ := refEntity_ok hm hnd.1 (fun i hi => hp i (List.mem_append_left _ hi))
      (fun i hi => ht i (List.mem_append_left _ hi)) hr
    obtain ⟨s1, o1, _⟩ := refEntity_effect h1 hnd.1 hm (fun i hi => hp i (List.mem_append_left _ hi))
        (fun i hi => ht i (List.mem_append_left _ hi))
    obtain ⟨d', h'⟩ := ih hnd.2.1 d1 (fun i hi => by
        rw [o1 i (fun hc => hnd.2.2 i hc i hi rfl)]; exact hp i (List.mem_append_right _ hi))
      (fun i hi => by rw [s1.getText]; exact ht i (List.mem_append_right _ hi))
    refine ⟨d', ?_⟩
    rw [List.foldlM_cons, h1]
    exact h'

end Verif
