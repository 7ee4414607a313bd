/-
C99: what the tool for full texts leaves without a label.
-/
import Verif.Lemmas.Fulltext
import Verif.Lemmas.TargetAnnotations
import Verif.Props.Tools

namespace Verif
open Spec Props

theorem valueOf_updated {d d' : Doc} {j : Nat} {new : Option Str} {w : Option Str} (hu : Updated d d' c!"tag" j new)
    (hn : ∀ t, new = some t → ∃ x, w = some x ∧ x ≠ [] ∧ (t = c!"i-" ++ x ∨ t = c!"b-" ++ x))
    (hnone : new = none → w = none) (hv : valueOf d none j = none) : valueOf d' none j = w := by
  cases new with
  | none =>
    rw [hnone rfl, ← hv]
    apply valueOf_congr
    funext m
    rw [hu m, if_neg]
    rintro ⟨_, h⟩
    cases h
  | some t =>
    obtain ⟨x, hw, hx, ht⟩ := hn t rfl
    rw [hw, valueOf_some]
    refine ⟨?_, hx⟩
    have hg : d'.getTag j = some t := by
      show d'.getAttr j c!"tag" = _
      rw [hu, if_pos ⟨rfl, rfl⟩]
    unfold Doc.getTagOrPreserved
    rw [hg]
    rcases ht with rfl | rfl
    · exact stripTagPrefix_i x
    · exact stripTagPrefix_b x

theorem valueOf_kept {d d' : Doc} {j : Nat} (hu : Updated d d' c!"tag" j none) : valueOf d' none j = valueOf d none j := by
  apply valueOf_congr
  funext m
  rw [hu m, if_neg]
  rintro ⟨_, h⟩
  cases h

theorem lastValue_mem {v : Nat → Option Str} {pre : List Nat} {x : Str} (h : lastValue v pre = some x) : ∃ i, v i = some x := by
  obtain ⟨i, _, hi⟩ := List.exists_of_findSome?_eq_some h
  exact ⟨i, hi⟩

theorem fill_group (group : Str → Option Str) (d : Doc) (hnd : d.nonSpaceTokens.Nodup) :
    FillAfter d.nonSpaceTokens (fun x => if truthy (group x) then group x else none) (valueOf d none)
      (valueOf (mergeGroupTags group none d) none) := by
  intro pre j post hts
  have hu := (mergeGroup_effect group none d hnd).2.2 pre j post hts
  have hc : considered d none = fun _ => true := by
    funext i; rfl
  rw [hc] at hu
  have hfilter : pre.filter (fun _ => true) = pre := by simp
  simp only [if_true, hfilter] at hu
  change Updated d _ c!"tag" j _ at hu
  unfold groupTag at hu
  cases hv : valueOf d none j with
  | some w =>
    rw [hv] at hu
    rw [valueOf_kept hu, hv]
    rfl
  | none =>
    rw [hv] at hu
    refine valueOf_updated hu ?_ ?_ hv
    · intro t ht
      cases hl : lastValue (valueOf d none) pre with
      | none => rw [hl] at ht; cases ht
      | some y =>
        rw [hl] at ht
        simp only at ht
        split at ht
        · next hg =>
          cases hgy : group y with
          | none => rw [hgy] at hg; cases hg
          | some z =>
            rw [hgy] at hg ht
            exact ⟨z, by simp [hgy, hg], truthy_some.1 hg, .inl (Option.some.inj ht).symm⟩
        · cases ht
    · intro ht
      cases hl : lastValue (valueOf d none) pre with
      | none => rfl
      | some y =>
        rw [hl] at ht
        simp only at ht
        split at ht
        · cases ht
        · next hg => simp [hg]

theorem fill_following (enabled : List Str) (d : Doc) (hnd : d.nonSpaceTokens.Nodup) :
    FillAfter d.nonSpaceTokens (fun x => if x ∈ enabled then some x else none) (valueOf d none)
      (valueOf (expandFollowing enabled d) none) := by
  intro pre j post hts
  have hu := (expandFollowing_effect enabled d hnd).2.2 pre j post hts
  unfold expandFollowingTag at hu
  cases hv : valueOf d none j with
  | some w =>
    rw [hv] at hu
    rw [valueOf_kept hu, hv]
    rfl
  | none =>
    rw [hv] at hu
    refine valueOf_updated hu ?_ ?_ hv
    · intro t ht
      cases hl : lastValue (valueOf d none) pre with
      | none => rw [hl] at ht; cases ht
      | some y =>
        rw [hl] at ht
        simp only at ht
        split at ht
        · next hg =>
          obtain ⟨i, hi⟩ := lastValue_mem hl
          exact ⟨y, by simp [hg], valueOf_ne_nil hi, .inl (Option.some.inj ht).symm⟩
        · cases ht
    · intro ht
      cases hl : lastValue (valueOf d none) pre with
      | none => rfl
      | some y =>
        rw [hl] at ht
        simp only at ht
        split at ht
        · cases ht
        · next hg => simp [hg]

theorem fill_previous (enabled : List Str) (d : Doc) (hnd : d.nonSpaceTokens.Nodup) :
    FillBefore d.nonSpaceTokens (fun x => if x ∈ enabled then some x else none) (valueOf d none)
      (valueOf (expandPrevious enabled d) none) := by
  intro pre j post hts
  obtain ⟨hm, hkeep⟩ := (C23_previous enabled d hnd).2.2 pre j post hts
  cases hv : valueOf d none j with
  | some w => rw [hkeep w hv]; rfl
  | none =>
    have hu : Updated d (expandPrevious enabled d) c!"tag" j (expandPreviousTag (valueOf d none) enabled pre j post) := by
      intro m
      rw [hm m]
      cases expandPreviousTag (valueOf d none) enabled pre j post <;> simp
    unfold expandPreviousTag at hu
    rw [hv] at hu
    refine valueOf_updated hu ?_ ?_ hv
    · intro t ht
      cases hl : post.findSome? (valueOf d none) with
      | none => rw [hl] at ht; cases ht
      | some y =>
        rw [hl] at ht
        simp only at ht
        split at ht
        · next hg =>
          obtain ⟨i, _, hi⟩ := List.exists_of_findSome?_eq_some hl
          refine ⟨y, by simp [hg], valueOf_ne_nil hi, ?_⟩
          have ht := (Option.some.inj ht).symm
          rw [ht]
          split
          · exact .inr rfl
          · exact .inl rfl
        · cases ht
    · intro ht
      cases hl : post.findSome? (valueOf d none) with
      | none => rfl
      | some y =>
        rw [hl] at ht
        simp only at ht
        split at ht
        · cases ht
        · next hg => simp [hg]

/-- What holds of the labels of a text for a set of labels to be removed, and labels no unlabelled token may follow or
precede. -/
structure Spec.Closed (ts : List Nat) (v : Nat → Option Str) (removed after before : List Str) : Prop where
  removed : ∀ j ∈ ts, ∀ x ∈ removed, v j ≠ some x
  after : ∀ pre j post, ts = pre ++ j :: post → v j = none → ∀ x ∈ after, lastValue v pre ≠ some x
  before : ∀ pre j post, ts = pre ++ j :: post → v j = none → ∀ x ∈ before, post.findSome? v ≠ some x

theorem mem_split {l : List Nat} {a : Nat} (h : a ∈ l) : ∃ pre post, l = pre ++ a :: post := List.append_of_mem h

theorem closed_fillAfter {ts : List Nat} {v v' : Nat → Option Str} {removed after before : List Str} {g : Str → Option Str}
    (h : Spec.Closed ts v removed after before) (hf : FillAfter ts g v v')
    (hg : ∀ y x, g y = some x → x ∉ removed ∧ (x ∈ after → y ∈ after))
    (new : List Str) (hnew : ∀ x ∈ new, g x ≠ none) :
    Spec.Closed ts v' removed (new ++ after) before := by
  have hsub : ∀ pre j post, ts = pre ++ j :: post → v' j = none → v j = none := by
    intro pre j post hts hj
    rw [hf pre j post hts] at hj
    cases hv : v j with
    | none => rfl
    | some w => rw [hv] at hj; cases hj
  refine ⟨?_, ?_, ?_⟩
  · intro j hj x hx hv
    obtain ⟨pre, post, hts⟩ := mem_split hj
    rw [hf pre j post hts] at hv
    cases hvj : v j with
    | some w => rw [hvj] at hv; exact h.removed j hj x hx (by rw [hvj]; exact hv)
    | none =>
      rw [hvj] at hv
      simp only [Option.none_or] at hv
      cases hl : lastValue v pre with
      | none => rw [hl] at hv; cases hv
      | some y => rw [hl] at hv; exact (hg y x hv).1 hx
  · intro pre j post hts hj x hx hl
    rcases List.mem_append.1 hx with hx | hx
    · exact hnew x hx (fillAfter_closed hf hts hj hl)
    · rcases fillAfter_last hf _ pre rfl (j :: post) hts x hl with h1 | ⟨y, h1, h2⟩
      · exact h.after pre j post hts (hsub pre j post hts hj) x hx h1
      · exact h.after pre j post hts (hsub pre j post hts hj) y ((hg y x h2).2 hx) h1
  · intro pre j post hts hj x hx hl
    have hvj := hsub pre j post hts hj
    have hnone : (lastValue v pre).bind g = none := by
      have := hf pre j post hts
      rw [hj, hvj] at this
      exact this.symm
    -- the first label behind is an old one, as labels carried on would reach `j`
    have key : ∀ (mid rest : List Nat), post = mid ++ rest → (∀ k ∈ mid, v k = none) → rest.findSome? v' = some x →
        rest.findSome? v = some x := by
      intro mid rest
      induction rest generalizing mid with
      | nil => intro _ _ h; cases h
      | cons a rest ih =>
        intro hp hmid hr
        have ha := hf (pre ++ j :: mid) a rest (by rw [hts, hp]; simp)
        have hlast : lastValue v (pre ++ j :: mid) = lastValue v pre := by
          unfold lastValue
          rw [List.reverse_append, List.reverse_cons, List.append_assoc, List.findSome?_append, List.findSome?_eq_none_iff.2]
          · rw [Option.none_or, List.singleton_append, List.findSome?_cons, hvj]
          · intro k hk
            exact hmid k (List.mem_reverse.1 hk)
        rw [hlast, hnone] at ha
        simp only [Option.or_none] at ha
        rw [List.findSome?_cons, ha] at hr
        rw [List.findSome?_cons]
        cases hva : v a with
        | some w => rw [hva] at hr; exact hr
        | none =>
          rw [hva] at hr
          refine ih (mid ++ [a]) (by rw [hp]; simp) ?_ hr
          intro k hk
          rcases List.mem_append.1 hk with hk | hk
          · exact hmid k hk
          · rw [List.mem_singleton] at hk
            rw [hk]
            exact hva
    exact h.before pre j post hts hvj x hx (key [] post rfl (by simp) hl)

theorem closed_fillBefore {ts : List Nat} {v v' : Nat → Option Str} {removed after : List Str} {g : Str → Option Str}
    (h : Spec.Closed ts v removed after []) (hf : FillBefore ts g v v')
    (hg : ∀ y x, g y = some x → x ∉ removed ∧ x ∉ after) (new : List Str) (hnew : ∀ x ∈ new, g x ≠ none) :
    Spec.Closed ts v' removed after new := by
  have hsub : ∀ pre j post, ts = pre ++ j :: post → v' j = none → v j = none := by
    intro pre j post hts hj
    rw [hf pre j post hts] at hj
    cases hv : v j with
    | none => rfl
    | some w => rw [hv] at hj; cases hj
  refine ⟨?_, ?_, ?_⟩
  · intro j hj x hx hv
    obtain ⟨pre, post, hts⟩ := mem_split hj
    rw [hf pre j post hts] at hv
    cases hvj : v j with
    | some w => rw [hvj] at hv; exact h.removed j hj x hx (by rw [hvj]; exact hv)
    | none =>
      rw [hvj] at hv
      simp only [Option.none_or] at hv
      cases hl : post.findSome? v with
      | none => rw [hl] at hv; cases hv
      | some y => rw [hl] at hv; exact (hg y x hv).1 hx
  · intro pre j post hts hj x hx hl
    refine h.after pre j post hts (hsub pre j post hts hj) x hx ?_
    -- labels carried back are none of these
    have key : ∀ (n : Nat) (p : List Nat), p.length = n → ∀ q, ts = p ++ q → lastValue v' p = some x → lastValue v p = some x := by
      intro n
      induction n with
      | zero => intro p hn q _ h; rw [List.length_eq_zero_iff.1 hn] at h; cases h
      | succ n ih =>
        intro p hn q hq hp
        obtain ⟨p', a, rfl⟩ := exists_concat (l := p) (by rintro rfl; cases hn)
        have ha := hf p' a q (by rw [hq]; simp)
        have hih := ih p' (by simpa using hn) (a :: q) (by rw [hq]; simp)
        rw [lastValue_concat] at hp ⊢
        cases hva : v a with
        | some w => rw [hva] at ha; rw [ha] at hp; exact hp
        | none =>
          rw [hva] at ha
          simp only [Option.none_or] at ha ⊢
          rw [ha] at hp
          cases hl : (q.findSome? v).bind g with
          | none => rw [hl] at hp; exact hih hp
          | some z =>
            rw [hl] at hp
            cases hp
            cases hq' : q.findSome? v with
            | none => rw [hq'] at hl; cases hl
            | some y => rw [hq'] at hl; exact absurd hx (hg y x hl).2
    exact key _ pre rfl (j :: post) hts hl
  · intro pre j post hts hj x hx hl
    exact hnew x hx (fillBefore_closed hf hts hj hl)

/-- **C99** After the tool for full texts no token is labelled as another note; behind a list item there is no
unlabelled token before the next label; with the options for expanding, nor is there one behind, or in front of, a
figure or table. -/
theorem C99_fulltext (env : ToolEnv) (a : ToolArgs) (noExtend previous following : Bool) (dc : DocCfg) (root : Elem) (d0 d' : Doc)
    (hl : loadDoc dc root = .ok d0)
    (ha : annotateAll ((Tool.fulltext noExtend previous following).annotators env a)
      (beforeAnnotator ((Tool.fulltext noExtend previous following).annotateCfg a) d0) = .ok d') :
    d'.nonSpaceTokens = d0.nonSpaceTokens ∧
    Spec.Closed d'.nonSpaceTokens (valueOf d' none) [c!"note_other", c!"note[@type=\"other\"]"]
      ((if following then [c!"figure", c!"table"] else []) ++ [c!"list_item"])
      (if previous then [c!"figure", c!"table"] else []) := by
  have hb := Props.C14_aux_sameBut ((Tool.fulltext noExtend previous following).annotateCfg a) d0
  generalize beforeAnnotator ((Tool.fulltext noExtend previous following).annotateCfg a) d0 = b at *
  have hone : ∀ (g : Doc → Except Err Doc) (x y : Doc) rest, annotateAll (g :: rest) x = .ok y →
      ∃ z, g x = .ok z ∧ annotateAll rest z = .ok y := by
    intro g x y rest h
    unfold annotateAll at h
    split at h
    · cases h
    · next z hz => exact ⟨z, hz, h⟩
  obtain ⟨z1, hz1, h⟩ := hone _ _ _ _ ha
  obtain ⟨z2, hz2, h⟩ := hone _ _ _ _ h
  obtain ⟨z3, hz3, h⟩ := hone _ _ _ _ h
  have hz2 := Except.ok.inj hz2
  have hz3 := Except.ok.inj hz3
  have s1 : SameBut d0 z1 := hb.trans (keeps_simpleAnnotate _ _ _ _ _ hz1)
  have n1 := (nodup_loadDoc hl s1).2
  have hrem := replaceTags_removed fulltextReplaced (fun v new h => by
    have := mem_of_get? h
    simp only [fulltextReplaced, List.mem_cons, Prod.mk.injEq, List.not_mem_nil, or_false] at this
    rcases this with h | h <;> exact h.2) z1 (loaded_in_line hl s1)
  have s2 : SameBut d0 z2 := s1.trans (by rw [← hz2]; exact keeps_replaceTags _ _)
  rw [hz2] at hrem
  have c2 : Spec.Closed z2.nonSpaceTokens (valueOf z2 none) [c!"note_other", c!"note[@type=\"other\"]"] [] [] := by
    refine ⟨?_, ?_, ?_⟩
    · intro j hj x hx hv
      rw [s2.nonSpaceTokens, ← s1.nonSpaceTokens] at hj
      have := hrem j hj x hv
      simp only [List.mem_cons, List.not_mem_nil, or_false] at hx
      rcases hx with rfl | rfl <;> cases this
    · intro _ _ _ _ _ x hx; cases hx
    · intro _ _ _ _ _ x hx; cases hx
  have f3 := fill_group fulltextGroup z2 (nodup_loadDoc hl s2).2
  rw [show mergeGroupTags fulltextGroup none z2 = z3 from hz3] at f3
  have s3 : SameBut z2 z3 := by rw [← hz3]; exact keeps_mergeGroupTags _ _ _
  have c3 : Spec.Closed z3.nonSpaceTokens (valueOf z3 none) [c!"note_other", c!"note[@type=\"other\"]"] [c!"list_item"] [] := by
    have := closed_fillAfter c2 f3 (by
      intro y x hx
      have : x = c!"list" := by
        simp only [fulltextGroup] at hx
        split at hx
        · split at hx
          · exact (Option.some.inj hx).symm
          · cases hx
        · cases hx
      subst this
      exact ⟨by decide, fun h => by cases h⟩) [c!"list_item"] (by
      intro x hx
      rw [List.mem_singleton] at hx
      subst hx
      decide)
    rw [s3.nonSpaceTokens]
    exact this
  have s3' := s2.trans s3
  have hen : ∀ y x : Str, (if y ∈ fulltextExpanded then some y else none) = some x → y = x ∧ (x = c!"figure" ∨ x = c!"table") := by
    intro y x h
    split at h
    · next hy =>
      cases h
      simp only [fulltextExpanded, List.mem_cons, List.not_mem_nil, or_false] at hy
      exact ⟨rfl, hy⟩
    · cases h
  have hpos : ∀ x ∈ [c!"figure", c!"table"], (if x ∈ fulltextExpanded then some x else none) ≠ none := by
    intro x hx
    rw [if_pos (show x ∈ fulltextExpanded from hx)]
    intro h
    cases h
  have step4 : ∃ z4, SameBut z3 z4 ∧ annotateAll (if following then [total (expandFollowing fulltextExpanded)] else []) z4 = .ok d' ∧
      Spec.Closed z4.nonSpaceTokens (valueOf z4 none) [c!"note_other", c!"note[@type=\"other\"]"] [c!"list_item"]
        (if previous then [c!"figure", c!"table"] else []) := by
    cases previous with
    | false => exact ⟨z3, .refl _, h, c3⟩
    | true =>
      obtain ⟨z4, hz4, h⟩ := hone _ _ _ _ h
      have hz4 := Except.ok.inj hz4
      have s4 : SameBut z3 z4 := by rw [← hz4]; exact keeps_expandPrevious _ _
      refine ⟨z4, s4, h, ?_⟩
      have f4 := fill_previous fulltextExpanded z3 (nodup_loadDoc hl s3').2
      rw [hz4] at f4
      rw [s4.nonSpaceTokens]
      refine closed_fillBefore c3 f4 ?_ _ hpos
      intro y x hx
      obtain ⟨_, rfl | rfl⟩ := hen y x hx <;> exact ⟨by decide, by decide⟩
  obtain ⟨z4, s4, h, c4⟩ := step4
  have s4' := s3'.trans s4
  cases following with
  | false =>
    obtain rfl := Except.ok.inj h
    exact ⟨s4'.nonSpaceTokens, c4⟩
  | true =>
    obtain ⟨z5, hz5, h⟩ := hone _ _ _ _ h
    obtain rfl := Except.ok.inj h
    have hz5 := Except.ok.inj hz5
    have s5 : SameBut z4 z5 := by rw [← hz5]; exact keeps_expandFollowing _ _
    refine ⟨(s4'.trans s5).nonSpaceTokens, ?_⟩
    have f5 := fill_following fulltextExpanded z4 (nodup_loadDoc hl s4').2
    rw [hz5] at f5
    rw [s5.nonSpaceTokens]
    refine closed_fillAfter c4 f5 ?_ _ hpos
    intro y x hx
    obtain ⟨rfl, hx⟩ := hen y x hx
    exact ⟨by rcases hx with rfl | rfl <;> decide, id⟩

/-- A list item, an unlabelled line, another note, a figure, an unlabelled line and a table: with both options. -/
example : ∃ d', loadAndAnnotate exToolEnv {} (.fulltext false true true)
      ⟨asciiClass, [(c!"list_item", c!"item"), (c!"note_other", c!"note"), (c!"figure", c!"figure")], fun _ _ => true, [c!"text"], true⟩
      (.mk c!"tei" [] none [.mk c!"text" [] none
        [.mk c!"item" [] (some c!"one") [] (some c!"two"), .mk c!"lb" [] none [] none, .mk c!"note" [] (some c!"three") [] none,
         .mk c!"lb" [] none [] none, .mk c!"figure" [] (some c!"four") [] (some c!"five")] none] none) = .ok d' ∧
      d'.nonSpaceTokens.map (valueOf d' none) =
        [some c!"list_item", some c!"list", some c!"list", some c!"figure", some c!"figure"] :=
  exists_of_okAnd (by decide +kernel)

/-- The same without the options, and with an unlabelled line in front of the figure behind another label. -/
example : ∃ d', loadAndAnnotate exToolEnv {} (.fulltext false false false)
      ⟨asciiClass, [(c!"p", c!"p"), (c!"note_other", c!"note"), (c!"figure", c!"figure")], fun _ _ => true, [c!"text"], true⟩
      (.mk c!"tei" [] none [.mk c!"text" [] none
        [.mk c!"p" [] (some c!"one") [] (some c!"two"), .mk c!"lb" [] none [] none, .mk c!"note" [] (some c!"three") [] none,
         .mk c!"lb" [] none [] none, .mk c!"figure" [] (some c!"four") [] (some c!"five")] none] none) = .ok d' ∧
      d'.nonSpaceTokens.map (valueOf d' none) = [some c!"p", none, none, some c!"figure", none] :=
  exists_of_okAnd (by decide +kernel)

end Verif
