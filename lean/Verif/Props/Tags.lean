/-
C01 (tag prefixes), C02 (scoped tags), C03 (merging documents).
-/
import Verif.Lemmas.Tags

namespace Verif.Props

/-! ## C01 Tag prefix round trip -/

/-- Splitting a tag and adding the prefix back gives the original tag, for every tag other
than the two degenerate tags that consist of nothing but a prefix. -/
theorem C01_split_add_roundtrip (t : Option Str) :
    addTagPrefix (splitTagPrefix t).2 (splitTagPrefix t).1 = t ↔
      t ≠ some c!"b-" ∧ t ≠ some c!"i-" := by
  rcases splitTagPrefix_cases t with ⟨v, rfl, h⟩ | ⟨v, rfl, h⟩ | ⟨hb, hi, h⟩
  · rw [h]; cases v <;> simp [addTagPrefix, bPrefix]
  · rw [h]; cases v <;> simp [addTagPrefix, iPrefix]
  · rw [h]
    have h1 : addTagPrefix t none = t := by cases t <;> rfl
    simp only [h1, true_iff]
    exact ⟨by simpa [bPrefix] using hb [], by simpa [iPrefix] using hi []⟩

example : addTagPrefix (splitTagPrefix (some c!"b-author")).2 (splitTagPrefix (some c!"b-author")).1
    = some c!"b-author" := (C01_split_add_roundtrip _).2 (by decide)
example : addTagPrefix (splitTagPrefix (some c!"ab-i-")).2 (splitTagPrefix (some c!"ab-i-")).1
    = some c!"ab-i-" := (C01_split_add_roundtrip _).2 (by decide)

/-- Adding the begin or the inside prefix to a non-empty value and splitting again gives
exactly that prefix and value. -/
theorem C01_add_split_roundtrip (v p : Str) (hv : v ≠ []) (hp : p = c!"b-" ∨ p = c!"i-") :
    splitTagPrefix (addTagPrefix (some v) (some p)) = (some p, some v) := by
  rcases hp with rfl | rfl
  · rw [addTagPrefix_of_truthy hv (by decide)]; exact splitTagPrefix_b v
  · rw [addTagPrefix_of_truthy hv (by decide)]; exact splitTagPrefix_i v

example : splitTagPrefix (addTagPrefix (some c!"i-x") (some c!"b-")) = (some c!"b-", some c!"i-x") :=
  C01_add_split_roundtrip _ _ (by decide) (by decide)

/-- A tag has a prefix exactly when it starts with it; otherwise it is its own value. -/
theorem C01_split_spec (t : Str) :
    splitTagPrefix (some t) =
      if c!"b-" <+: t then (some c!"b-", some (t.drop 2))
      else if c!"i-" <+: t then (some c!"i-", some (t.drop 2))
      else (none, some t) := by
  unfold splitTagPrefix
  by_cases h : truthy (some t) = true
  · simp only [h, if_true, startsWith_iff, bPrefix, iPrefix]; rfl
  · have : t = [] := by
      cases t with
      | nil => rfl
      | cons c t => exact absurd (truthy_cons c t) h
    subst this; simp

/-! ## C02 Scoped tags -/

/-- The tag just set for a scope and level is the one read for it, and the tags of all other
scopes and levels are unchanged (`None`/`''` denote the same scope, `None`/`0` the same
level). -/
theorem C02_set_get (t : SimpleTok) (tag pre : Option Str) (s s' : Option Str)
    (l l' : Option Nat) :
    (t.setTag tag s l pre).getTag s' l' =
      if normScope s' = normScope s ∧ normLevel l' = normLevel l then addTagPrefix tag pre
      else t.getTag s' l' := by
  unfold SimpleTok.getTag SimpleTok.setTag
  by_cases h : normScope s' = normScope s ∧ normLevel l' = normLevel l
  · have : scopedAttribName tagAttribName s' l' = scopedAttribName tagAttribName s l := by
      rw [scopedAttribName_eq, scopedAttribName_eq, ← namePrefix_norm s', ← namePrefix_norm s, h.1,
        h.2]
    simp [h, this]
  · have : scopedAttribName tagAttribName s' l' ≠ scopedAttribName tagAttribName s l :=
      fun e => h (scopedAttribName_inj e)
    simp only [h, if_false]
    rw [Dict.get?_set_ne _ _ this]

example : let t : SimpleTok := ⟨c!"x", []⟩
    ((t.setTag (some c!"a") (some c!"s") none).setTag (some c!"b") (some c!"s") (some 2)).getTag
      (some c!"s") none = some c!"a" := by
  simp only [C02_set_get]; decide

/-- Setting a tag never changes the text of the token. -/
theorem C02_set_text (t : SimpleTok) (tag pre s : Option Str) (l : Option Nat) :
    (t.setTag tag s l pre).text = t.text := rfl

/-- What is recorded for a key in an association list. -/
def lookupScope (k : Option Str) : List (Option Str × Option Str) → Option Str
  | [] => none
  | (k', v) :: d => if k' = k then v else lookupScope k d

private theorem aux_C02 (d : Dict (Option Str)) (k : Option Str) (key : Str)
    (hk : ∀ kv : Str × Option Str, (if endsWith (c!"-" ++ tagAttribName) kv.1 || decide (kv.1 = tagAttribName) then
      some (if kv.1 = tagAttribName then none
        else some (kv.1.take (kv.1.length - (c!"-" ++ tagAttribName).length)))
      else none) = some k ↔ kv.1 = key) :
    lookupScope k (attribByScope d tagAttribName) = (d.get? key).join := by
  induction d with
  | nil => rfl
  | cons kv d ih =>
    have hk' := hk kv
    obtain ⟨k₀, v₀⟩ := kv
    simp only [attribByScope, List.filterMap_cons] at ih ⊢
    by_cases h : k₀ = key
    · subst h
      have h2 := hk'.2 rfl
      split at h2
      · next hc =>
        simp only [Option.some.injEq] at h2
        simp only [hc, if_true, lookupScope, h2, Dict.get?]
        rfl
      · simp at h2
    · have h2 : ¬ _ := fun e => h (hk'.1 e)
      simp only [Dict.get?, h, if_false]
      split at h2
      · next hc =>
        simp only [Option.some.injEq] at h2
        simp only [hc, if_true, lookupScope, h2, if_false]
        exact ih
      · next hc =>
        simp only [hc]
        exact ih

/-- Reading all tags by scope reports for every scope its main tag. -/
theorem C02_tag_by_scope (t : SimpleTok) (s : Option Str) (hs : s ≠ some []) :
    lookupScope s t.tagByScope = t.getTag s none := by
  unfold SimpleTok.tagByScope SimpleTok.getTag
  apply aux_C02
  rintro ⟨k, v⟩
  simp only [scopedAttribName_eq]
  rcases s with _ | _ | ⟨c, s⟩
  · by_cases h : k = tagAttribName <;> simp [h, namePrefix]
  · exact absurd rfl hs
  · by_cases h : k = tagAttribName
    · simp only [h, decide_true, Bool.or_true, if_true, namePrefix]
      constructor
      · intro h; simp at h
      · intro h
        have := congrArg List.length h
        simp [tagAttribName] at this
    · simp only [h, decide_false, Bool.or_false, if_false]
      constructor
      · intro h2
        split at h2
        · next h3 =>
          obtain ⟨u, rfl⟩ := endsWith_iff.1 h3
          simp only [Option.some.injEq, List.length_append] at h2
          have : u = c :: s := by
            have e : u.length + ((c!"-").length + tagAttribName.length) -
              ((c!"-").length + tagAttribName.length) = u.length := by omega
            rw [e, List.take_left'] at h2
            · exact h2
            · rfl
          subst this; simp [namePrefix]
        · simp at h2
      · intro h2
        subst h2
        have : endsWith (c!"-" ++ tagAttribName) (namePrefix (some (c :: s)) none ++ tagAttribName) := by
          rw [endsWith_iff]; exact ⟨c :: s, by simp [namePrefix]⟩
        rw [if_pos this]
        have e : namePrefix (some (c :: s)) none ++ tagAttribName =
          (c :: s) ++ (c!"-" ++ tagAttribName) := by simp [namePrefix]
        rw [e, List.length_append, Nat.add_sub_cancel, List.take_left]

example : lookupScope (some c!"s")
    (((⟨c!"x", []⟩ : SimpleTok).setTag (some c!"a") (some c!"s") none).setTag (some c!"b") none none).tagByScope
      = some c!"a" := by
  rw [C02_tag_by_scope _ _ (by decide), C02_set_get, C02_set_get]; decide

/-! ## C03 Merging documents -/

/-- A merge succeeds exactly when the texts agree wherever both documents have a token.  Missing: that tokens are
left over is not detected (`C03_length_mismatch_not_detected`). -/
theorem C03_merge_ok_iff_partial (f : SimpleTok → SimpleTok → SimpleTok) (ms os : List SimpleTok) :
    (∃ r, mergeWith f ms os = .ok r) ↔
      ∀ (i : Nat) (m o : SimpleTok), ms[i]? = some m → os[i]? = some o → m.text = o.text := by
  induction ms generalizing os with
  | nil => simp [mergeWith]
  | cons m ms ih =>
    cases os with
    | nil => simp [mergeWith]
    | cons o os =>
      simp only [mergeWith]
      by_cases h : m.text = o.text
      · simp only [h, if_true]
        have := ih os
        constructor
        · rintro ⟨r, hr⟩ i m' o' hm ho
          cases i with
          | zero => simp at hm ho; subst hm ho; exact h
          | succ i =>
            refine (this.1 ?_) i m' o' (by simpa using hm) (by simpa using ho)
            split at hr
            · next rest hrest => exact ⟨rest, hrest⟩
            · cases hr
        · intro hall
          obtain ⟨r, hr⟩ := this.2 (fun i m' o' hm ho =>
            hall (i + 1) m' o' (by simpa using hm) (by simpa using ho))
          exact ⟨_, by rw [hr]⟩
      · simp only [h, if_false]
        constructor
        · rintro ⟨r, hr⟩; cases hr
        · intro hall; exact absurd (hall 0 m o rfl rfl) h

/-- A failing merge fails with an assertion error. -/
theorem C03_merge_error (f : SimpleTok → SimpleTok → SimpleTok) (ms os : List SimpleTok) (e : Err)
    (h : mergeWith f ms os = .error e) : e = .assertionError := by
  induction ms generalizing os with
  | nil => simp [mergeWith] at h
  | cons m ms ih =>
    cases os with
    | nil => simp [mergeWith] at h
    | cons o os =>
      simp only [mergeWith] at h
      split at h
      · split at h
        · cases h
        · next e' he => cases h; exact ih _ he
      · cases h; rfl

/-- A successful merge has the tokens of the merged document, and each token that has a
counterpart carries the counterpart's tag under the target scope if that tag is non-empty;
all its other tags, all other tokens and all texts are unchanged. -/
theorem C03_merge_result (src tgt : Option Str) (ms os r : List SimpleTok)
    (h : mergeWith (fun m o => mergeTokenTag m o src tgt) ms os = .ok r) :
    r.length = ms.length ∧
    ∀ (i : Nat) (m : SimpleTok), ms[i]? = some m → ∃ m' : SimpleTok, r[i]? = some m' ∧
      m'.text = m.text ∧
      ∀ (s : Option Str) (l : Option Nat), m'.getTag s l =
        match os[i]? with
        | some o => if normScope s = normScope tgt ∧ normLevel l = none ∧ truthy (o.getTag src none)
            then o.getTag src none else m.getTag s l
        | none => m.getTag s l := by
  induction ms generalizing os r with
  | nil => simp [mergeWith] at h; subst h; simp
  | cons m ms ih =>
    cases os with
    | nil =>
      simp only [mergeWith] at h; cases h
      refine ⟨rfl, fun i m' hm' => ⟨m', hm', rfl, fun s l => ?_⟩⟩
      simp
    | cons o os =>
      simp only [mergeWith] at h
      split at h
      · next htext =>
        split at h
        · next rest hrest =>
          cases h
          obtain ⟨h1, h2⟩ := ih os rest hrest
          refine ⟨by simp [h1], ?_⟩
          intro i m' hm'
          cases i with
          | succ i => simpa using h2 i m' (by simpa using hm')
          | zero =>
            simp at hm'; subst hm'
            refine ⟨_, rfl, ?_, ?_⟩
            · simp only [mergeTokenTag]; split <;> rfl
            · intro s l
              simp only [mergeTokenTag, List.getElem?_cons_zero]
              by_cases ht : truthy (o.getTag src none) = true
              · simp only [ht, if_true, C02_set_get, and_true]
                have : addTagPrefix (o.getTag src none) none = o.getTag src none := by
                  cases o.getTag src none <;> rfl
                have hn : normLevel none = none := rfl
                rw [this, hn]
              · simp [ht]
        · cases h
      · cases h

example : mergeWith (fun m o => mergeTokenTag m o none (some c!"s"))
    [⟨c!"x", []⟩] [⟨c!"x", [(c!"tag", some c!"b-a")]⟩, ⟨c!"y", []⟩]
    = .ok [⟨c!"x", [(c!"s-tag", some c!"b-a")]⟩] := by rfl

/-- Disagreement: a document that has more or fewer tokens is *not* rejected; the surplus is
silently ignored (`zip`). -/
theorem C03_length_mismatch_not_detected :
    ∃ ms os r, mergeWith (fun m o => mergeTokenTag m o none none) ms os = .ok r ∧
      ms.map (·.text) ≠ os.map (·.text) :=
  ⟨[⟨c!"x", []⟩], [], _, rfl, by decide⟩

end Verif.Props
