/-
Lemmas on the annotators run by the tool for full texts, for C99.
-/
import Verif.Props.PostAnnotators
import Verif.Lemmas.ToolLabels

namespace Verif
open Spec Props

/-! ### Tokens and their lines -/

theorem loaded_in_line {cfg : DocCfg} {root : Elem} {d d' : Doc} (hl : loadDoc cfg root = .ok d) (hs : SameBut d d') :
    ∀ i ∈ d'.nonSpaceTokens, (d'.tok i).isSpace = false ∧ i ∈ d'.lineOf i := by
  obtain ⟨lines, h⟩ := sameBut_loadDoc hl
  have h' := h.trans hs
  intro i hi
  rw [h'.nonSpaceTokens, nonSpaceTokens_ofLines, List.mem_filter] at hi
  rw [h'.isSpace, h'.lineOf]
  refine ⟨by simpa using hi.2, ?_⟩
  have hm := hi.1
  simp only [Doc.allTokens, Doc.ofLines, List.mem_flatMap, List.mem_map] at hm
  obtain ⟨l, ⟨ids, hids, rfl⟩, hil⟩ := hm
  simp only [Doc.ofLines]
  cases hf : (Doc.number 0 lines).find? (fun l => l.contains i) with
  | none =>
    have := List.find?_eq_none.1 hf ids hids
    simp at this
    exact absurd hil this
  | some l =>
    have := List.find?_some hf
    simpa using this

/-! ### Replaced tags -/

theorem stripped_or {a b : Option Str} {v : Str} (h : stripTagPrefix (pyOr a b) = some v) :
    stripTagPrefix a = some v ∨ stripTagPrefix b = some v := by
  unfold pyOr at h
  split at h
  · exact .inl h
  · exact .inr h

theorem valueOf_some {d : Doc} {i : Nat} {v : Str} : valueOf d none i = some v ↔ stripTagPrefix (d.getTagOrPreserved i) = some v ∧ v ≠ [] := by
  unfold valueOf Doc.getTagOrPreservedValue
  simp only
  constructor
  · intro h
    split at h
    · next ht => rw [h] at ht; exact ⟨h, truthy_some.1 ht⟩
    · cases h
  · rintro ⟨h, hv⟩
    rw [h, if_pos (truthy_some.2 hv)]

/-- Clearing a tag leaves the token without a label and gives no other token a label it did not have. -/
theorem valueOf_cleared (d : Doc) (i : Nat) (hs : (d.tok i).isSpace = false) (hi : i ∈ d.lineOf i)
    (hv : (valueOf d none i).isSome) :
    valueOf (d.setTag i none) none i = none ∧
    ∀ j, j ≠ i → valueOf (d.setTag i none) none j = valueOf d none j ∨ valueOf (d.setTag i none) none j = none := by
  obtain ⟨w, hw⟩ := Option.isSome_iff_exists.1 hv
  obtain ⟨hw, hwn⟩ := valueOf_some.1 hw
  have he := (C12_effect d i none none none).2.2.2
  simp only at he
  have htag : scopedAttribName c!"tag" none none = c!"tag" := rfl
  have hpn : scopedAttribName c!"preserved_tag" none none = c!"preserved_tag" := rfl
  have hg : ∀ j, (d.setTag i none).getTag j = if j = i then none else d.getTag j := by
    intro j
    show (d.setTag i none).getAttr j c!"tag" = _
    rw [he]
    by_cases hj : j = i
    · rw [if_pos ⟨hj, rfl⟩, if_pos hj]
    · rw [if_neg (fun h => hj h.1), if_neg hj, if_neg]
      · rfl
      · rintro ⟨_, _, _, h | ⟨_, h⟩, _⟩ <;> cases h
  have hp : ∀ j, (d.setTag i none).getPreservedTag j = none ∨ (d.setTag i none).getPreservedTag j = d.getPreservedTag j := by
    intro j
    show (d.setTag i none).getAttr j c!"preserved_tag" = _ ∨ (d.setTag i none).getAttr j c!"preserved_tag" = _
    rw [he, if_neg (by rintro ⟨_, h⟩; cases h)]
    split
    · exact .inl rfl
    · exact .inr rfl
  constructor
  · cases hx : valueOf (d.setTag i none) none i with
    | none => rfl
    | some v =>
      exfalso
      obtain ⟨h1, h2⟩ := valueOf_some.1 hx
      unfold Doc.getTagOrPreserved at h1
      rw [hg, if_pos rfl] at h1
      have h1 : stripTagPrefix ((d.setTag i none).getPreservedTag i) = some v := h1
      have hpr : (d.setTag i none).getPreservedTag i = none := by
        rcases hp i with h | h
        · exact h
        · show (d.setTag i none).getAttr i c!"preserved_tag" = none
          rw [he, if_neg (by rintro ⟨_, h⟩; cases h), if_pos]
          rw [h] at h1
          refine ⟨hs, ?_, hi, .inl rfl, ?_, rfl⟩
          · rw [hw]; intro h; cases h
          · show truthy (stripTagPrefix (d.getPreservedTag i)) = true
            rw [h1]
            exact truthy_some.2 h2
      rw [hpr] at h1
      cases h1
  · intro j hj
    have hgj : (d.setTag i none).getTag j = d.getTag j := by rw [hg, if_neg hj]
    rcases hp j with h | h
    · cases hx : valueOf (d.setTag i none) none j with
      | none => exact .inr rfl
      | some v =>
        left
        obtain ⟨h1, h2⟩ := valueOf_some.1 hx
        unfold Doc.getTagOrPreserved at h1
        rw [hgj, h] at h1
        rcases stripped_or h1 with h1 | h1
        · symm
          rw [valueOf_some]
          refine ⟨?_, h2⟩
          unfold Doc.getTagOrPreserved pyOr
          split
          · exact h1
          · next hn =>
            exfalso
            cases hd : d.getTag j with
            | none => rw [hd] at h1; cases h1
            | some s =>
              rw [hd] at h1 hn
              cases s with
              | nil => exact h2 (Option.some.inj h1).symm
              | cons => exact hn rfl
        · cases h1
    · left
      unfold valueOf Doc.getTagOrPreservedValue Doc.getTagOrPreserved
      rw [hgj, h]

theorem replaceTagsStep_none (repl : Dict (Option Str)) (hr : ∀ v new, repl.get? v = some new → new = none) (d : Doc) (i : Nat) :
    (∃ v, valueOf d none i = some v ∧ repl.get? v = some none ∧ replaceTagsStep repl d i = d.setTag i none) ∨
    ((∀ v, valueOf d none i = some v → repl.get? v = none) ∧ replaceTagsStep repl d i = d) := by
  unfold replaceTagsStep
  have hsv : stripTagPrefix (d.getTagOrPreserved i) = (splitTagPrefix (d.getTagOrPreserved i)).2 := rfl
  generalize splitTagPrefix (d.getTagOrPreserved i) = p at hsv
  obtain ⟨pre, value⟩ := p
  simp only at hsv ⊢
  by_cases ht : truthy value = true
  · rw [if_neg (by simp [ht])]
    cases value with
    | none => cases ht
    | some v =>
      have hv := truthy_some.1 ht
      have hval : valueOf d none i = some v := valueOf_some.2 ⟨hsv, hv⟩
      simp only [Option.getD_some]
      cases hg : repl.get? v with
      | none =>
        right
        refine ⟨fun w hw => ?_, rfl⟩
        rw [hval] at hw
        cases hw
        exact hg
      | some new =>
        left
        have := hr _ _ hg
        subst this
        exact ⟨v, hval, hg, by cases pre <;> rfl⟩
  · rw [if_pos (by simpa using ht)]
    right
    refine ⟨fun w hw => ?_, rfl⟩
    obtain ⟨h1, h2⟩ := valueOf_some.1 hw
    rw [hsv] at h1
    subst h1
    exact absurd (truthy_some.2 h2) ht

/-- If tags are replaced by nothing then no token has one of them afterwards, and no other token gets another label. -/
theorem replaceTags_removed (repl : Dict (Option Str)) (hr : ∀ v new, repl.get? v = some new → new = none) (d : Doc)
    (hin : ∀ i ∈ d.nonSpaceTokens, (d.tok i).isSpace = false ∧ i ∈ d.lineOf i) :
    ∀ j ∈ d.nonSpaceTokens, ∀ v, valueOf (replaceTags repl d) none j = some v → repl.get? v = none := by
  have hgen : ∀ (ids : List Nat) (d : Doc), (∀ i ∈ ids, (d.tok i).isSpace = false ∧ i ∈ d.lineOf i) →
      ∀ j, (j ∈ ids ∨ ∀ v, valueOf d none j = some v → repl.get? v = none) →
        ∀ v, valueOf (ids.foldl (replaceTagsStep repl) d) none j = some v → repl.get? v = none := by
    intro ids
    induction ids with
    | nil =>
      intro d _ j hj
      rcases hj with hj | hj
      · cases hj
      · exact hj
    | cons i ids ih =>
      intro d hin j hj
      rw [List.foldl_cons]
      rcases replaceTagsStep_none repl hr d i with ⟨w, h1, h2, h3⟩ | ⟨h1, h2⟩
      · rw [h3]
        have hs := sameBut_setTag d i none none none
        have hc := valueOf_cleared d i (hin i (by simp)).1 (hin i (by simp)).2 (by rw [h1]; rfl)
        refine ih _ (fun k hk => by rw [hs.isSpace, hs.lineOf]; exact hin k (by simp [hk])) j ?_
        by_cases hji : j = i
        · right
          intro v hv
          rw [hji, hc.1] at hv
          cases hv
        · rcases hj with hj | hj
          · left
            exact (List.mem_cons.1 hj).resolve_left hji
          · right
            intro v hv
            rcases hc.2 j hji with h | h
            · rw [h] at hv; exact hj v hv
            · rw [h] at hv; cases hv
      · rw [h2]
        refine ih _ (fun k hk => hin k (by simp [hk])) j ?_
        rcases hj with hj | hj
        · rcases List.mem_cons.1 hj with rfl | hj
          · exact .inr h1
          · exact .inl hj
        · exact .inr hj
  intro j hj v hv
  exact hgen _ d hin j (.inl hj) v hv

/-! ### Labels carried to tokens without a label -/

/-- The labels `v'` are `v` with tokens without a label labelled by what `g` gives for the last label before. -/
def FillAfter (ts : List Nat) (g : Str → Option Str) (v v' : Nat → Option Str) : Prop :=
  ∀ pre j post, ts = pre ++ j :: post → v' j = (v j).or ((lastValue v pre).bind g)

/-- The labels `v'` are `v` with tokens without a label labelled by what `g` gives for the next label. -/
def FillBefore (ts : List Nat) (g : Str → Option Str) (v v' : Nat → Option Str) : Prop :=
  ∀ pre j post, ts = pre ++ j :: post → v' j = (v j).or ((post.findSome? v).bind g)

theorem lastValue_concat (v : Nat → Option Str) (pre : List Nat) (a : Nat) :
    lastValue v (pre ++ [a]) = (v a).or (lastValue v pre) := by
  unfold lastValue
  rw [List.reverse_append, List.reverse_singleton, List.singleton_append, List.findSome?_cons]
  cases v a <;> rfl

theorem exists_concat {l : List Nat} (h : l ≠ []) : ∃ l' a, l = l' ++ [a] :=
  ⟨l.dropLast, l.getLast h, (List.dropLast_concat_getLast h).symm⟩

/-- The last label is an old one, or one carried from the last old one. -/
theorem fillAfter_last {ts : List Nat} {g : Str → Option Str} {v v' : Nat → Option Str} (h : FillAfter ts g v v') :
    ∀ (n : Nat) (pre : List Nat), pre.length = n → ∀ post, ts = pre ++ post → ∀ x, lastValue v' pre = some x →
      lastValue v pre = some x ∨ ∃ y, lastValue v pre = some y ∧ g y = some x := by
  intro n
  induction n with
  | zero =>
    intro pre hn post _ x hx
    rw [List.length_eq_zero_iff.1 hn] at hx
    cases hx
  | succ n ih =>
    intro pre hn post hts x hx
    obtain ⟨pre', a, rfl⟩ := exists_concat (l := pre) (by rintro rfl; cases hn)
    have ha := h pre' a post (by rw [hts]; simp)
    have hih := ih pre' (by simpa using hn) (a :: post) (by rw [hts]; simp)
    rw [lastValue_concat] at hx ⊢
    cases hva : v a with
    | some w =>
      rw [hva] at ha
      rw [ha] at hx
      exact .inl hx
    | none =>
      rw [hva] at ha
      simp only [Option.none_or] at ha ⊢
      rw [ha] at hx
      cases hl : lastValue v pre' with
      | none =>
        rw [hl] at hx
        have := hih x hx
        rw [hl] at this
        exact this
      | some y =>
        rw [hl] at hx
        simp only [Option.bind_some] at hx
        cases hg : g y with
        | none =>
          rw [hg] at hx
          have := hih x hx
          rw [hl] at this
          exact this
        | some z =>
          rw [hg] at hx
          cases hx
          exact .inr ⟨y, rfl, hg⟩

/-- Behind a label which is carried on there is no token without a label. -/
theorem fillAfter_closed {ts : List Nat} {g : Str → Option Str} {v v' : Nat → Option Str} (h : FillAfter ts g v v')
    {pre post : List Nat} {j : Nat} (hts : ts = pre ++ j :: post) (hj : v' j = none)
    {x : Str} (hx : lastValue v' pre = some x) : g x = none := by
  have hv := h pre j post hts
  rw [hj] at hv
  have hvb : (lastValue v pre).bind g = none := by
    cases hvj : v j with
    | none => rw [hvj] at hv; exact hv.symm
    | some w => rw [hvj] at hv; cases hv
  rcases fillAfter_last h _ pre rfl (j :: post) hts x hx with h1 | ⟨y, h1, h2⟩
  · rw [h1] at hvb
    exact hvb
  · rw [h1] at hvb
    have hvb : g y = none := hvb
    rw [hvb] at h2
    cases h2

theorem fillBefore_first {ts : List Nat} {g : Str → Option Str} {v v' : Nat → Option Str} (h : FillBefore ts g v v') :
    ∀ (post pre : List Nat), ts = pre ++ post → ∀ x, post.findSome? v' = some x →
      post.findSome? v = some x ∨ ∃ y, post.findSome? v = some y ∧ g y = some x := by
  intro post
  induction post with
  | nil => intro pre _ x hx; cases hx
  | cons a post ih =>
    intro pre hts x hx
    have ha := h pre a post hts
    have hih := ih (pre ++ [a]) (by rw [hts]; simp)
    rw [List.findSome?_cons] at hx ⊢
    cases hva : v a with
    | some w =>
      rw [hva] at ha
      rw [ha] at hx
      exact .inl hx
    | none =>
      rw [hva] at ha
      simp only [Option.none_or] at ha ⊢
      rw [ha] at hx
      cases hl : post.findSome? v with
      | none =>
        rw [hl] at hx
        have := hih x hx
        rw [hl] at this
        exact this
      | some y =>
        rw [hl] at hx
        simp only [Option.bind_some] at hx
        cases hg : g y with
        | none =>
          rw [hg] at hx
          have := hih x hx
          rw [hl] at this
          exact this
        | some z =>
          rw [hg] at hx
          cases hx
          exact .inr ⟨y, rfl, hg⟩

/-- In front of a label which is carried back there is no token without a label. -/
theorem fillBefore_closed {ts : List Nat} {g : Str → Option Str} {v v' : Nat → Option Str} (h : FillBefore ts g v v')
    {pre post : List Nat} {j : Nat} (hts : ts = pre ++ j :: post) (hj : v' j = none)
    {x : Str} (hx : post.findSome? v' = some x) : g x = none := by
  have hv := h pre j post hts
  rw [hj] at hv
  have hvb : (post.findSome? v).bind g = none := by
    cases hvj : v j with
    | none => rw [hvj] at hv; exact hv.symm
    | some w => rw [hvj] at hv; cases hv
  rcases fillBefore_first h post (pre ++ [j]) (by rw [hts]; simp) x hx with h1 | ⟨y, h1, h2⟩
  · rw [h1] at hvb
    exact hvb
  · rw [h1] at hvb
    have hvb : g y = none := hvb
    rw [hvb] at h2
    cases h2

end Verif
