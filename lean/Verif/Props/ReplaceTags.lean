/-
Property C24: exactly what replacing tags does, also with labels of the source file.
-/
import Verif.Spec.ReplaceTags
import Verif.Lemmas.Fulltext

namespace Verif
open Spec Props

/-- One step, with the spec's tag. -/
theorem replaceTagsStep_tagInTable (repl : Dict (Option Str)) (d : Doc) (i : Nat) :
    replaceTagsStep repl d i = match tagInTable repl d i with
      | none => d
      | some t => d.setTag i t := by
  have e : replaceTagsStep repl d i =
      if !truthy (d.getTagOrPreservedValue i) then d
      else match repl.get? ((d.getTagOrPreservedValue i).getD []) with
        | none => d
        | some new => d.setTag i (addTagPrefix new (splitTagPrefix (d.getTagOrPreserved i)).1) := rfl
  rw [e]
  unfold tagInTable
  rcases truthy_valueOf d none i with ⟨h1, h2, v, h3, h4⟩ | ⟨h1, h2⟩
  · rw [h2, h3]
    simp only [truthy_some.2 h4, Bool.not_true, Bool.false_eq_true, if_false, Option.getD_some]
    unfold replacedTag
    simp only [Option.bind_some]
    cases hr : repl.get? v with
    | none => rfl
    | some new =>
      obtain ⟨full, hf⟩ : ∃ full, d.getTagOrPreserved i = some full := by
        cases hg : d.getTagOrPreserved i with
        | some f => exact ⟨f, rfl⟩
        | none =>
          unfold Doc.getTagOrPreservedValue at h3
          rw [hg] at h3
          cases h3
      simp only [Option.map_some]
      rw [hf, addTagPrefix_split]
      rfl
  · rw [h2]
    simp [h1, replacedTag]

/-- The main label of the source file of `j` is removed once the tokens of a list were replaced. -/
def MainCleared (repl : Dict (Option Str)) (d : Doc) (done : List Nat) (j : Nat) : Prop :=
  ∃ i ∈ done, ChangesValue repl d i ∧ SamePreservedLabel d none i j

/-- The same for sub labels. -/
def SubCleared (repl : Dict (Option Str)) (d : Doc) (done : List Nat) (j : Nat) : Prop :=
  ∃ i ∈ done, ChangesValue repl d i ∧ ¬ LosesLabel repl d i ∧ SamePreservedLabel d (some 2) i j

/-- The state after the tokens of a list. -/
structure ReplacedUpTo (repl : Dict (Option Str)) (d : Doc) (done : List Nat) (x : Doc) : Prop where
  same : SameBut d x
  tagOut : ∀ j, j ∉ done → x.getTag j = d.getTag j
  tagLost : ∀ j ∈ done, LosesLabel repl d j → x.getTag j = d.getTag j
  tagIn : ∀ j ∈ done, ¬ LosesLabel repl d j → x.getTag j = (tagInTable repl d j).getD (d.getTag j)
  mainGone : ∀ j, MainCleared repl d done j → x.getPreservedTag j = none
  mainKept : ∀ j, ¬ MainCleared repl d done j → x.getPreservedTag j = d.getPreservedTag j
  subGone : ∀ j, SubCleared repl d done j → x.getPreservedTag j (some 2) = none
  subKept : ∀ j, ¬ SubCleared repl d done j → x.getPreservedTag j (some 2) = d.getPreservedTag j (some 2)
  other : ∀ j m, m ≠ c!"tag" → m ≠ scopedAttribName c!"preserved_tag" none none →
    m ≠ scopedAttribName c!"preserved_tag" none (some 2) → x.getAttr j m = d.getAttr j m

theorem SamePreservedLabel.trans {d : Doc} {l : Option Nat} {i j k : Nat} (hl : ∀ j ∈ d.lineOf i, d.lineOf j = d.lineOf i)
    (h1 : SamePreservedLabel d l i j) (h2 : SamePreservedLabel d l j k) : SamePreservedLabel d l i k :=
  ⟨hl j h1.1 ▸ h2.1, h1.2.1, h2.2.2.trans h1.2.2⟩

theorem losesLabel_iff {repl : Dict (Option Str)} {d : Doc} {pre post : List Nat} {i : Nat} (hnd : d.nonSpaceTokens.Nodup)
    (he : d.nonSpaceTokens = pre ++ i :: post) :
    LosesLabel repl d i ↔ ¬ truthy (d.getTag i) = true ∧ MainCleared repl d pre i := by
  constructor
  · rintro ⟨h, b, a, hb, k, hk, hc, hs⟩
    have : b = pre := by
      have e := hb.symm.trans he
      rw [hb] at hnd
      rw [he] at hb
      have h1 : (pre ++ i :: post).Nodup := hb ▸ hnd
      have l1 : b.length = pre.length := by
        have g1 : (pre ++ i :: post)[b.length]? = some i := by rw [hb]; simp
        have g2 : (pre ++ i :: post)[pre.length]? = some i := by simp
        have h0 : b.length < (pre ++ i :: post).length := by rw [hb]; simp
        exact (List.getElem?_inj h0 h1).1 (g1.trans g2.symm)
      exact (List.append_inj e l1).1
    subst this
    exact ⟨h, k, hk, hc, hs⟩
  · rintro ⟨h, k, hk, hc, hs⟩
    exact ⟨h, pre, post, he, k, hk, hc, hs⟩

theorem getTagOrPreserved_congr2 {d x : Doc} {i : Nat} (h1 : x.getTag i = d.getTag i)
    (h2 : truthy (d.getTag i) = true ∨ x.getPreservedTag i = d.getPreservedTag i) :
    x.getTagOrPreserved i = d.getTagOrPreserved i := by
  unfold Doc.getTagOrPreserved
  rw [h1]
  rcases h2 with h | h
  · unfold pyOr; rw [if_pos h, if_pos h]
  · rw [h]

theorem tagInTable_congr {repl : Dict (Option Str)} {d x : Doc} {i : Nat} (h : x.getTagOrPreserved i = d.getTagOrPreserved i) :
    tagInTable repl x i = tagInTable repl d i := by
  unfold tagInTable valueOf Doc.getTagOrPreservedValue
  rw [h]

theorem replacedUpTo_step {repl : Dict (Option Str)} {d x : Doc} {pre post : List Nat} {i : Nat} (hnd : d.nonSpaceTokens.Nodup)
    (he : d.nonSpaceTokens = pre ++ i :: post) (hsp : (d.tok i).isSpace = false)
    (hl : ∀ i ∈ d.nonSpaceTokens, ∀ j ∈ d.lineOf i, d.lineOf j = d.lineOf i) (h : ReplacedUpTo repl d pre x) :
    ReplacedUpTo repl d (pre ++ [i]) (replaceTagsStep repl x i) := by
  have hin : i ∈ d.nonSpaceTokens := by rw [he]; simp
  have hni : i ∉ pre := by
    intro hc
    rw [he, List.nodup_append] at hnd
    exact hnd.2.2 i hc i (by simp) rfl
  have hpre : ∀ k ∈ pre, k ∈ d.nonSpaceTokens := fun k hk => by rw [he]; simp [hk]
  have hx := h.tagOut i hni
  have hlost := losesLabel_iff (repl := repl) hnd he
  have mainMono : ∀ j, MainCleared repl d pre j → MainCleared repl d (pre ++ [i]) j :=
    fun j ⟨k, hk, h⟩ => ⟨k, by simp [hk], h⟩
  have subMono : ∀ j, SubCleared repl d pre j → SubCleared repl d (pre ++ [i]) j :=
    fun j ⟨k, hk, h⟩ => ⟨k, by simp [hk], h⟩
  have mainInv : ∀ j, MainCleared repl d (pre ++ [i]) j →
      MainCleared repl d pre j ∨ (ChangesValue repl d i ∧ SamePreservedLabel d none i j) := by
    rintro j ⟨k, hk, h⟩
    rcases List.mem_append.1 hk with hk | hk
    · exact .inl ⟨k, hk, h⟩
    · rw [List.mem_singleton] at hk; subst hk; exact .inr h
  have subInv : ∀ j, SubCleared repl d (pre ++ [i]) j →
      SubCleared repl d pre j ∨ (ChangesValue repl d i ∧ ¬ LosesLabel repl d i ∧ SamePreservedLabel d (some 2) i j) := by
    rintro j ⟨k, hk, h⟩
    rcases List.mem_append.1 hk with hk | hk
    · exact .inl ⟨k, hk, h⟩
    · rw [List.mem_singleton] at hk; subst hk; exact .inr h
  have mainTrans : ∀ j, MainCleared repl d pre i → SamePreservedLabel d none i j → MainCleared repl d pre j :=
    fun j ⟨k, hk, hc, hs⟩ h2 => ⟨k, hk, hc, SamePreservedLabel.trans (hl k (hpre k hk)) hs h2⟩
  have subTrans : ∀ j, SubCleared repl d pre i → SamePreservedLabel d (some 2) i j → SubCleared repl d pre j :=
    fun j ⟨k, hk, hc, hn, hs⟩ h2 => ⟨k, hk, hc, hn, SamePreservedLabel.trans (hl k (hpre k hk)) hs h2⟩
  -- a step which changes nothing
  have stay : (LosesLabel repl d i ∨ tagInTable repl d i = none) → ReplacedUpTo repl d (pre ++ [i]) x := by
    intro hcase
    have hm : ∀ j, MainCleared repl d (pre ++ [i]) j → MainCleared repl d pre j := by
      intro j hj
      rcases mainInv j hj with hj | ⟨⟨t, ht, _⟩, hs⟩
      · exact hj
      · rcases hcase with hc | hc
        · exact mainTrans j (hlost.1 hc).2 hs
        · rw [hc] at ht; cases ht
    have hsu : ∀ j, SubCleared repl d (pre ++ [i]) j → SubCleared repl d pre j := by
      intro j hj
      rcases subInv j hj with hj | ⟨⟨t, ht, _⟩, hn, hs⟩
      · exact hj
      · rcases hcase with hc | hc
        · exact absurd hc hn
        · rw [hc] at ht; cases ht
    refine ⟨h.same, fun j hj => h.tagOut j (fun hc => hj (by simp [hc])), ?_, ?_, fun j hj => h.mainGone j (hm j hj),
      fun j hj => h.mainKept j (fun hc => hj (mainMono j hc)), fun j hj => h.subGone j (hsu j hj),
      fun j hj => h.subKept j (fun hc => hj (subMono j hc)), h.other⟩
    · intro j hj hlj
      rcases List.mem_append.1 hj with hj | hj
      · exact h.tagLost j hj hlj
      · rw [List.mem_singleton] at hj; subst hj; exact hx
    · intro j hj hlj
      rcases List.mem_append.1 hj with hj | hj
      · exact h.tagIn j hj hlj
      · rw [List.mem_singleton] at hj; subst hj
        rcases hcase with hc | hc
        · exact absurd hc hlj
        · rw [hc, hx]; rfl
  rw [replaceTagsStep_tagInTable]
  by_cases hL : LosesLabel repl d i
  · have e : tagInTable repl x i = none := by
      obtain ⟨h1, h2⟩ := hlost.1 hL
      have e1 : ¬ truthy (x.getTagOrPreservedValue i) = true := by
        unfold Doc.getTagOrPreservedValue Doc.getTagOrPreserved pyOr
        rw [hx, if_neg h1, h.mainGone i h2]
        decide
      unfold tagInTable valueOf
      simp only [if_neg e1]
      rfl
    rw [e]
    exact stay (.inl hL)
  · have hg : x.getTagOrPreserved i = d.getTagOrPreserved i := by
      apply getTagOrPreserved_congr2 hx
      by_cases ht : truthy (d.getTag i) = true
      · exact .inl ht
      · exact .inr (h.mainKept i (fun hc => hL (hlost.2 ⟨ht, hc⟩)))
    rw [tagInTable_congr hg]
    cases hm : tagInTable repl d i with
    | none => exact stay (.inr hm)
    | some t =>
      simp only
      have hch : ChangesValue repl d i ↔ stripTagPrefix t ≠ stripTagPrefix (d.getTagOrPreserved i) := by
        constructor
        · rintro ⟨t', ht', hne⟩
          rw [hm] at ht'; cases ht'; exact hne
        · intro hne; exact ⟨t, hm, hne⟩
      obtain ⟨_, _, _, heff⟩ := C12_effect x i t none none
      rw [h.same.lineOf, h.same.isSpace, hg] at heff
      have hsame : SameBut d (x.setTag i t) := h.same.trans (sameBut_setTag x i t none none)
      have htag : ∀ j, (x.setTag i t).getTag j = if j = i then t else x.getTag j := by
        intro j
        have := heff j (scopedAttribName c!"tag" none none)
        rw [show (x.setTag i t).getTag j = (x.setTag i t).getAttr j (scopedAttribName c!"tag" none none) from rfl, this]
        by_cases hj : j = i
        · rw [if_pos ⟨hj, rfl⟩, if_pos hj]
        · rw [if_neg (fun hc => hj hc.1), if_neg hj, if_neg]
          · rfl
          · rintro ⟨_, _, _, hc | ⟨_, hc⟩, _⟩ <;> exact absurd hc (by decide)
      have hmain : ∀ j, (x.setTag i t).getPreservedTag j =
          if stripTagPrefix t ≠ stripTagPrefix (d.getTagOrPreserved i) ∧ j ∈ d.lineOf i ∧ truthy (stripTagPrefix (x.getPreservedTag i)) = true ∧
            stripTagPrefix (x.getPreservedTag j) = stripTagPrefix (x.getPreservedTag i) then none
          else x.getPreservedTag j := by
        intro j
        have := heff j (scopedAttribName c!"preserved_tag" none none)
        rw [show (x.setTag i t).getPreservedTag j = (x.setTag i t).getAttr j (scopedAttribName c!"preserved_tag" none none) from rfl,
          this, if_neg (fun hc => absurd hc.2 (by decide))]
        simp only [hsp, true_and, true_or]
        rfl
      have hsub : ∀ j, (x.setTag i t).getPreservedTag j (some 2) =
          if stripTagPrefix t ≠ stripTagPrefix (d.getTagOrPreserved i) ∧ j ∈ d.lineOf i ∧ truthy (stripTagPrefix (x.getPreservedTag i (some 2))) = true ∧
            stripTagPrefix (x.getPreservedTag j (some 2)) = stripTagPrefix (x.getPreservedTag i (some 2)) then none
          else x.getPreservedTag j (some 2) := by
        intro j
        have := heff j (scopedAttribName c!"preserved_tag" none (some 2))
        rw [show (x.setTag i t).getPreservedTag j (some 2) = (x.setTag i t).getAttr j (scopedAttribName c!"preserved_tag" none (some 2)) from rfl,
          this, if_neg (fun hc => absurd hc.2 (by decide))]
        simp only [hsp, true_and, or_true]
        rfl
      refine ⟨hsame, ?_, ?_, ?_, ?_, ?_, ?_, ?_, ?_⟩
      · intro j hj
        rw [htag, if_neg (fun hc => hj (by simp [hc]))]
        exact h.tagOut j (fun hc => hj (by simp [hc]))
      · intro j hj hlj
        rcases List.mem_append.1 hj with hj | hj
        · rw [htag, if_neg (fun hc : j = i => hni (hc ▸ hj))]
          exact h.tagLost j hj hlj
        · rw [List.mem_singleton] at hj; subst hj; exact absurd hlj hL
      · intro j hj hlj
        rcases List.mem_append.1 hj with hj | hj
        · rw [htag, if_neg (fun hc : j = i => hni (hc ▸ hj))]
          exact h.tagIn j hj hlj
        · rw [List.mem_singleton] at hj; subst hj
          rw [htag, if_pos rfl, hm]; rfl
      · intro j hj
        rw [hmain]
        by_cases hc : MainCleared repl d pre j
        · rw [h.mainGone j hc]; split <;> rfl
        · rcases mainInv j hj with hj | ⟨h1, h2⟩
          · exact absurd hj hc
          · have hci : ¬ MainCleared repl d pre i := fun hi => hc (mainTrans j hi h2)
            rw [h.mainKept j hc, h.mainKept i hci]
            rw [if_pos ⟨hch.1 h1, h2⟩]
      · intro j hj
        have hc : ¬ MainCleared repl d pre j := fun hc => hj (mainMono j hc)
        rw [hmain, h.mainKept j hc, if_neg]
        rintro ⟨h1, h2, h3, h4⟩
        by_cases hci : MainCleared repl d pre i
        · rw [h.mainGone i hci] at h3; exact absurd h3 (by decide)
        · rw [h.mainKept i hci] at h3 h4
          exact hj ⟨i, by simp, hch.2 h1, h2, h3, h4⟩
      · intro j hj
        rw [hsub]
        by_cases hc : SubCleared repl d pre j
        · rw [h.subGone j hc]; split <;> rfl
        · rcases subInv j hj with hj | ⟨h1, _, h2⟩
          · exact absurd hj hc
          · have hci : ¬ SubCleared repl d pre i := fun hi => hc (subTrans j hi h2)
            rw [h.subKept j hc, h.subKept i hci]
            rw [if_pos ⟨hch.1 h1, h2⟩]
      · intro j hj
        have hc : ¬ SubCleared repl d pre j := fun hc => hj (subMono j hc)
        rw [hsub, h.subKept j hc, if_neg]
        rintro ⟨h1, h2, h3, h4⟩
        by_cases hci : SubCleared repl d pre i
        · rw [h.subGone i hci] at h3; exact absurd h3 (by decide)
        · rw [h.subKept i hci] at h3 h4
          exact hj ⟨i, by simp, hch.2 h1, hL, h2, h3, h4⟩
      · intro j m h1 h2 h3
        rw [heff, if_neg, if_neg]
        · exact h.other j m h1 h2 h3
        · rintro ⟨_, _, _, hc | ⟨_, hc⟩, _⟩
          · exact h2 hc
          · exact h3 hc
        · rintro ⟨_, hc⟩; exact h1 hc

theorem replacedUpTo_fold {repl : Dict (Option Str)} {d : Doc} (hnd : d.nonSpaceTokens.Nodup)
    (hsp : ∀ i ∈ d.nonSpaceTokens, (d.tok i).isSpace = false)
    (hl : ∀ i ∈ d.nonSpaceTokens, ∀ j ∈ d.lineOf i, d.lineOf j = d.lineOf i) (post : List Nat) :
    ∀ (pre : List Nat) (x : Doc), d.nonSpaceTokens = pre ++ post → ReplacedUpTo repl d pre x →
      ReplacedUpTo repl d d.nonSpaceTokens (post.foldl (replaceTagsStep repl) x) := by
  induction post with
  | nil => intro pre x he h; rw [List.append_nil] at he; rw [he]; exact h
  | cons i post ih =>
    intro pre x he h
    exact ih (pre ++ [i]) _ (by rw [he]; simp) (replacedUpTo_step hnd he (hsp i (by rw [he]; simp)) hl h)

/-- Exactly what replacing tags does, for every document whose tokens are on one line each.

The text and the lines stay. The tag of a token becomes the one its value is mapped to, the prefix
kept, unless it has lost its label before it was reached (`LosesLabel`); then and for all other tokens
it stays. The label of the source file is removed exactly from tokens on the line of a token which
is given another value, if both have the same label of the source file; the sub label of the source file
likewise. All other attributes stay. -/
theorem C24_exact (repl : Dict (Option Str)) (d : Doc) (hnd : d.nonSpaceTokens.Nodup)
    (hsp : ∀ i ∈ d.nonSpaceTokens, (d.tok i).isSpace = false)
    (hl : ∀ i ∈ d.nonSpaceTokens, ∀ j ∈ d.lineOf i, d.lineOf j = d.lineOf i) :
    let d' := replaceTags repl d
    SameBut d d' ∧
    (∀ j ∈ d.nonSpaceTokens, ¬ LosesLabel repl d j → d'.getTag j = (tagInTable repl d j).getD (d.getTag j)) ∧
    (∀ j, (j ∉ d.nonSpaceTokens ∨ LosesLabel repl d j) → d'.getTag j = d.getTag j) ∧
    (∀ j, (∃ i ∈ d.nonSpaceTokens, ChangesValue repl d i ∧ SamePreservedLabel d none i j) → d'.getPreservedTag j = none) ∧
    (∀ j, ¬ (∃ i ∈ d.nonSpaceTokens, ChangesValue repl d i ∧ SamePreservedLabel d none i j) →
      d'.getPreservedTag j = d.getPreservedTag j) ∧
    (∀ j, (∃ i ∈ d.nonSpaceTokens, ChangesValue repl d i ∧ ¬ LosesLabel repl d i ∧ SamePreservedLabel d (some 2) i j) →
      d'.getPreservedTag j (some 2) = none) ∧
    (∀ j, ¬ (∃ i ∈ d.nonSpaceTokens, ChangesValue repl d i ∧ ¬ LosesLabel repl d i ∧ SamePreservedLabel d (some 2) i j) →
      d'.getPreservedTag j (some 2) = d.getPreservedTag j (some 2)) ∧
    ∀ j m, m ≠ c!"tag" → m ≠ scopedAttribName c!"preserved_tag" none none →
      m ≠ scopedAttribName c!"preserved_tag" none (some 2) → d'.getAttr j m = d.getAttr j m := by
  have h0 : ReplacedUpTo repl d [] d :=
    ⟨.refl d, fun _ _ => rfl, fun _ h => absurd h (by simp), fun _ h => absurd h (by simp),
     fun j ⟨_, h, _⟩ => absurd h (by simp), fun _ _ => rfl, fun j ⟨_, h, _⟩ => absurd h (by simp), fun _ _ => rfl,
     fun _ _ _ _ _ => rfl⟩
  have h := replacedUpTo_fold hnd hsp hl d.nonSpaceTokens [] d rfl h0
  refine ⟨h.same, h.tagIn, ?_, h.mainGone, h.mainKept, h.subGone, h.subKept, h.other⟩
  rintro j (hj | hj)
  · exact h.tagOut j hj
  · obtain ⟨_, b, a, hb, _⟩ := id hj
    exact h.tagLost j (by rw [hb]; simp) hj

theorem find_contains_of_nodup {L : List (List Nat)} (hnd : L.flatten.Nodup) {l : List Nat} (hl : l ∈ L) {j : Nat} (hj : j ∈ l) :
    L.find? (fun l => l.contains j) = some l := by
  induction L with
  | nil => cases hl
  | cons a L ih =>
    rw [List.flatten_cons, List.nodup_append] at hnd
    rw [List.find?_cons]
    rcases List.mem_cons.1 hl with rfl | hl
    · simp [hj]
    · have : a.contains j = false := by
        cases hc : a.contains j with
        | false => rfl
        | true => exact absurd rfl (hnd.2.2 j (by simpa using hc) j (List.mem_flatten.2 ⟨l, hl, hj⟩))
      rw [this]
      exact ih hnd.2.1 hl

/-- The hypotheses of `C24_exact` hold for every document loaded from a file, whatever annotators
have done to its labels. -/
theorem oneLineEach_loaded {cfg : DocCfg} {root : Elem} {d d' : Doc} (h : loadDoc cfg root = .ok d) (hs : SameBut d d') :
    d'.nonSpaceTokens.Nodup ∧ (∀ i ∈ d'.nonSpaceTokens, (d'.tok i).isSpace = false) ∧
    ∀ i ∈ d'.nonSpaceTokens, ∀ j ∈ d'.lineOf i, d'.lineOf j = d'.lineOf i := by
  obtain ⟨lines, h0⟩ := sameBut_loadDoc h
  have h' := h0.trans hs
  have hnd : (Doc.number 0 lines).flatten.Nodup := by rw [number_flatten]; exact List.nodup_range'
  refine ⟨(nodup_loadDoc h hs).2, fun i hi => (loaded_in_line h hs i hi).1, ?_⟩
  · intro i _ j hj
    rw [h'.lineOf] at hj ⊢
    have e : ∀ k, (Doc.ofLines lines).lineOf k = ((Doc.number 0 lines).find? (fun l => l.contains k)).getD [] := fun _ => rfl
    rw [e] at hj
    rw [e, e]
    cases hf : (Doc.number 0 lines).find? (fun l => l.contains i) with
    | none => rw [hf] at hj; cases hj
    | some l =>
      rw [hf] at hj
      rw [find_contains_of_nodup hnd (List.mem_of_find?_eq_some hf) hj]

/-- An example: a line with labels of the source file only, of which two words have the label to be
replaced, and a word with a new label. -/
def exReplaceExact : Doc := Doc.ofLines [
  [exWord c!"a" [(c!"preserved_tag", c!"b-x"), (c!"preserved_sub_tag", c!"b-s")], exWord c!"b" [(c!"preserved_tag", c!"i-x")],
   exWord c!"c" [(c!"tag", c!"b-x"), (c!"preserved_tag", c!"i-x")], exWord c!"d" [(c!"preserved_tag", c!"b-w"), (c!"preserved_sub_tag", c!"b-s")]],
  [exWord c!"e" [(c!"preserved_tag", c!"b-x")]]]

example : exReplaceExact.nonSpaceTokens.Nodup ∧ (∀ i ∈ exReplaceExact.nonSpaceTokens, (exReplaceExact.tok i).isSpace = false) ∧
    ∀ i ∈ exReplaceExact.nonSpaceTokens, ∀ j ∈ exReplaceExact.lineOf i, exReplaceExact.lineOf j = exReplaceExact.lineOf i := by
  decide +kernel

example : ∀ repl, repl = [(c!"x", some c!"y")] →
    LosesLabel repl exReplaceExact 1 ∧ ¬ LosesLabel repl exReplaceExact 2 ∧ ¬ LosesLabel repl exReplaceExact 4 := by
  rintro _ rfl
  refine ⟨⟨by decide +kernel, [0], [2, 3, 4], by decide +kernel, 0, by simp, ⟨some c!"b-y", by decide +kernel, by decide +kernel⟩,
    by decide +kernel, by decide +kernel, by decide +kernel⟩, fun h => absurd h.1 (by decide +kernel), ?_⟩
  rintro ⟨_, b, a, hb, i, hi, _, hs⟩
  have h1 : i ∈ exReplaceExact.nonSpaceTokens := by rw [hb]; simp [hi]
  have h2 : ∀ i ∈ exReplaceExact.nonSpaceTokens, 4 ∈ exReplaceExact.lineOf i → i = 4 := by decide +kernel
  have h3 := h2 i h1 hs.1
  subst h3
  have h4 : exReplaceExact.nonSpaceTokens.Nodup := by decide +kernel
  rw [hb, List.nodup_append] at h4
  exact h4.2.2 _ hi _ (by simp) rfl

example : let d := replaceTags [(c!"x", some c!"y")] exReplaceExact
    d.nonSpaceTokens.map (fun i => d.getTag i) = [some c!"b-y", none, some c!"b-y", none, some c!"b-y"] ∧
    d.nonSpaceTokens.map (fun i => d.getPreservedTag i) = [none, none, none, some c!"b-w", none] ∧
    d.nonSpaceTokens.map (fun i => d.getPreservedTag i (some 2)) = [none, none, none, none, none] := by
  decide +kernel

end Verif
