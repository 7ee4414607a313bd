/-
Lemmas about the post processing of references in documents.
-/
import Verif.Lemmas.RefExtend

namespace Verif

theorem mapRefTag_eq {m : Dict Str} {t : Option Str} (hm : Spec.ProperMap m) (hp : Spec.ProperTag t) :
    mapRefTag m t = Spec.mappedTag m t ∧ Spec.ProperTag (Spec.mappedTag m t) ∧
    Spec.tagValue (Spec.mappedTag m t) = (Spec.tagValue t).map (Spec.mappedName m) := by
  have hname : ∀ v, v ≠ [] → Spec.mappedName m v ≠ [] := by
    intro v hv
    unfold Spec.mappedName
    cases h : m.get? v with
    | none => exact hv
    | some w => exact (hm v w h).1
  rcases splitTagPrefix_cases t with ⟨v, rfl, h'⟩ | ⟨v, rfl, h'⟩ | ⟨h1, h2, h'⟩
  · have hv : v ≠ [] := properTag_value_ne hp (stripTagPrefix_b v)
    refine ⟨?_, ?_, rfl⟩
    · unfold mapRefTag
      rw [h']
      simp only []
      rw [if_pos (truthy_some.2 hv), Option.map_some]
      show addTagPrefix (some (Spec.mappedName m v)) (some bPrefix) = _
      rw [addTagPrefix_of_truthy (hname v hv) (by decide)]
      rfl
    · exact properTag_b (hname v hv)
  · have hv : v ≠ [] := properTag_value_ne hp (stripTagPrefix_i v)
    refine ⟨?_, ?_, rfl⟩
    · unfold mapRefTag
      rw [h']
      simp only []
      rw [if_pos (truthy_some.2 hv), Option.map_some]
      show addTagPrefix (some (Spec.mappedName m v)) (some iPrefix) = _
      rw [addTagPrefix_of_truthy (hname v hv) (by decide)]
      rfl
    · exact properTag_i (hname v hv)
  · cases t with
    | none =>
      exact ⟨rfl, properTag_none, rfl⟩
    | some s =>
      have hs := hp s rfl
      have hval : Spec.tagValue (some s) = some s := by
        unfold Spec.tagValue
        split
        · next v e => cases e; exact absurd rfl (h1 v)
        · next v e => cases e; exact absurd rfl (h2 v)
        · rfl
      have hmt : Spec.mappedTag m (some s) = some (Spec.mappedName m s) := by
        unfold Spec.mappedTag
        split
        · next v e => cases e; exact absurd rfl (h1 v)
        · next v e => cases e; exact absurd rfl (h2 v)
        · next e => cases e; rfl
        · next e => cases e
      have hmv : Spec.tagValue (some (Spec.mappedName m s)) = some (Spec.mappedName m s) := by
        unfold Spec.mappedName
        cases h : m.get? s with
        | none => exact hval
        | some w => exact (hm s w h).2
      rw [hmt]
      refine ⟨?_, ?_, ?_⟩
      · unfold mapRefTag
        rw [h']
        simp only []
        rw [if_pos (truthy_some.2 hs.1), Option.map_some]
        rfl
      · intro x hx
        cases hx
        exact ⟨hname s hs.1, by rw [hmv]; exact fun h => hname s hs.1 (Option.some.inj h)⟩
      · rw [hval, hmv]; rfl

theorem mappedTag_none_iff {m : Dict Str} {t : Option Str} : Spec.mappedTag m t = none ↔ t = none := by
  unfold Spec.mappedTag
  split <;> simp_all

/-- Only sub tags and preserved sub tags may differ. -/
structure SubOnly (d d' : Doc) : Prop where
  same : SameBut d d'
  attrs : ∀ j n, n ≠ scopedAttribName tagAttribName none (some subLevel) →
    n ≠ scopedAttribName preservedTagAttribName none (some subLevel) → d'.getAttr j n = d.getAttr j n

theorem SubOnly.refl (d : Doc) : SubOnly d d := ⟨.refl d, fun _ _ _ _ => rfl⟩

theorem SubOnly.trans {a b c : Doc} (h : SubOnly a b) (h' : SubOnly b c) : SubOnly a c :=
  ⟨h.same.trans h'.same, fun j n h1 h2 => by rw [h'.attrs j n h1 h2, h.attrs j n h1 h2]⟩

theorem SubOnly.getTag {d d' : Doc} (h : SubOnly d d') (j : Nat) : d'.getTag j = d.getTag j :=
  h.attrs j _ (by decide) (by decide)

theorem subOnly_setSubTag (d : Doc) (i : Nat) (t : Option Str) : SubOnly d (d.setSubTag i t) := by
  refine ⟨sameBut_setTag d i t _ _, ?_⟩
  intro j n h1 h2
  have := (Props.C12_effect d i t (some subLevel) none).2.2.2 j n
  rw [if_neg (fun h => h1 h.2), if_neg] at this
  · exact this
  · rintro ⟨_, _, _, h | ⟨h, _⟩, _⟩
    · exact h2 h
    · cases h

theorem subOnly_setRefTags (l : List (Nat × Option Str)) (d : Doc) : SubOnly d (setRefTags d l) := by
  unfold setRefTags
  induction l generalizing d with
  | nil => exact .refl d
  | cons x l ih =>
    rw [List.foldl_cons]
    refine SubOnly.trans ?_ (ih _)
    split
    · exact subOnly_setSubTag d _ _
    · exact .refl d

theorem setRefTags_other (l : List (Nat × Option Str)) (d : Doc) (j : Nat) (hj : j ∉ l.map Prod.fst) :
    (setRefTags d l).getSubTag j = d.getSubTag j := by
  unfold setRefTags
  induction l generalizing d with
  | nil => rfl
  | cons x l ih =>
    simp only [List.map_cons, List.mem_cons, not_or] at hj
    rw [List.foldl_cons, ih _ hj.2]
    split
    · rw [getSubTag_setSubTag, if_neg hj.1]
    · rfl

/-- The sub tags afterwards are the given ones, if there is one for each token which has one. -/
theorem setRefTags_exact (tokens : List Nat) (tags : List (Option Str)) (d : Doc) (hnd : tokens.Nodup)
    (h : Pw (fun i t => truthy t = false → t = none ∧ d.getSubTag i = none) tokens tags) :
    tokens.map (setRefTags d (tokens.zip tags)).getSubTag = tags := by
  induction tokens generalizing tags d with
  | nil => have := List.length_eq_zero_iff.1 h.1; subst this; rfl
  | cons i is ih =>
    cases tags with
    | nil => have := h.1; simp at this
    | cons t ts =>
      rw [List.nodup_cons] at hnd
      have h0 := h.2 0 i t rfl rfl
      have e : setRefTags d ((i :: is).zip (t :: ts)) = setRefTags (if truthy t then d.setSubTag i t else d) (is.zip ts) := rfl
      rw [e, List.map_cons]
      have hsub : ∀ j ∈ is, (if truthy t then d.setSubTag i t else d).getSubTag j = d.getSubTag j := by
        intro j hj
        split
        · rw [getSubTag_setSubTag, if_neg]
          intro hc; subst hc; exact hnd.1 hj
        · rfl
      congr 1
      · rw [setRefTags_other]
        · cases ht : truthy t with
          | true => simp only [if_true]; rw [getSubTag_setSubTag, if_pos rfl]
          | false =>
            have := h0 ht
            simp only [Bool.false_eq_true, if_false]
            rw [this.1, this.2]
        · intro hc; exact hnd.1 ((map_fst_zip_sublist _ _).subset hc)
      · apply ih _ _ hnd.2
        refine ⟨by have := h.1; simpa using this, ?_⟩
        intro k a b ha hb hf
        have := h.2 (k + 1) a b (by simpa using ha) (by simpa using hb) hf
        exact ⟨this.1, by rw [hsub a (List.mem_of_getElem? ha)]; exact this.2⟩

/-- Proper tags which are missing only for tokens without a sub tag. -/
theorem setRefTags_keep {tokens : List Nat} {tags : List (Option Str)} {d : Doc} (hnd : tokens.Nodup)
    (h : Pw (fun i t => d.getSubTag i ≠ none → t ≠ none) tokens tags) (hp : ∀ t ∈ tags, Spec.ProperTag t) :
    tokens.map (setRefTags d (tokens.zip tags)).getSubTag = tags ∧
    (∀ j, j ∉ tokens → (setRefTags d (tokens.zip tags)).getSubTag j = d.getSubTag j) := by
  refine ⟨setRefTags_exact tokens tags d hnd ?_, fun j hj => setRefTags_other _ _ _ ?_⟩
  · refine ⟨h.1, ?_⟩
    intro i a b ha hb hf
    have hn := (truthy_eq_false_iff (hp b (List.mem_of_getElem? hb))).1 hf
    exact ⟨hn, Classical.byContradiction fun hc => h.2 i a b ha hb hc hn⟩
  · intro hc; exact hj ((map_fst_zip_sublist _ _).subset hc)

/-- How a sub tag follows from the one before: tagged tokens stay tagged, and tags are proper. -/
def StepRel (t t' : Option Str) : Prop := (t ≠ none → t' ≠ none) ∧ Spec.ProperTag t'

/-- The value of the new tag behind "et al" mapping. -/
def EtalValRel (m : Dict Str) (etal : Str) (merge : List Str) (t t' : Option Str) : Prop :=
  StepRel t t' ∧ ∀ v, Spec.tagValue t = some v → ∃ v', Spec.tagValue t' = some v' ∧
    (v' = Spec.mappedName m v ∨ (Spec.mappedName m v = etal ∧ v' ∈ merge))

/-- The value of the new tag is mapped. -/
def MapRel (m : Dict Str) (t t' : Option Str) : Prop :=
  StepRel t t' ∧ ∀ v, Spec.tagValue t = some v → Spec.tagValue t' = some (Spec.mappedName m v)

theorem pw_map_left {α β γ : Type} {P : β → γ → Prop} {f : α → β} {l : List α} {l' : List γ} (h : Pw P (l.map f) l') :
    Pw (fun a c => P (f a) c) l l' := by
  refine ⟨by rw [h.1, List.length_map], ?_⟩
  intro i a c ha hc
  exact h.2 i (f a) c (by rw [List.getElem?_map, ha]; rfl) hc

theorem Pw.map_right {α β γ : Type} {P : α → β → Prop} {Q : α → γ → Prop} {f : β → γ} {l : List α} {l' : List β} (h : Pw P l l')
    (hq : ∀ a b, P a b → Q a (f b)) : Pw Q l (l'.map f) := by
  refine ⟨by rw [List.length_map, h.1], ?_⟩
  intro i a c ha hc
  rw [List.getElem?_map] at hc
  cases hb : l'[i]? with
  | none => rw [hb] at hc; cases hc
  | some b => rw [hb] at hc; cases hc; exact hq a b (h.2 i a b ha hb)

theorem pw_withText {cc : CharClass} {d : Doc} {m : Dict Str} {tokens : List Nat} {tags : List (Option Str)} (hl : tags.length = tokens.length) :
    Pw (fun (t : Option Str) (x : RefTok) => x.1 = Spec.mappedTag m t) tags (Spec.withText cc d m tokens tags) := by
  unfold Spec.withText
  refine ⟨by rw [List.length_map, List.length_zip, hl]; omega, ?_⟩
  intro i a x ha hx
  rw [List.getElem?_map] at hx
  cases hz : (tokens.zip tags)[i]? with
  | none => rw [hz] at hx; cases hx
  | some y =>
    rw [hz] at hx
    cases hx
    rw [List.getElem?_zip_eq_some] at hz
    rw [hz.2] at ha
    cases ha
    rfl

theorem refToks_eq {cfg : RefConfig} {d d0 : Doc} {env : RefEnv} {tokens : List Nat} {tags : List (Option Str)}
    (hs : SameBut d0 d) (ht : tokens.map d.getSubTag = tags) (hm : Spec.ProperMap cfg.subTagMap) (hp : ∀ t ∈ tags, Spec.ProperTag t) :
    refToks env cfg d tokens = Spec.withText env.cc d0 cfg.subTagMap tokens tags ∧
    refSubTags cfg d tokens = tags.map (Spec.mappedTag cfg.subTagMap) := by
  subst ht
  unfold refToks refSubTags Spec.withText
  have hz : tokens.zip (tokens.map d.getSubTag) = tokens.map (fun i => (i, d.getSubTag i)) := by
    induction tokens with
    | nil => rfl
    | cons i is ih =>
      rw [List.map_cons, List.map_cons, List.zip_cons_cons, ih]
      intro t h
      exact hp t (by rw [List.map_cons]; exact List.mem_cons_of_mem _ h)
  rw [hz, List.map_map, List.map_map]
  constructor
  · apply List.map_congr_left
    intro i hi
    have h1 := (mapRefTag_eq hm (hp (d.getSubTag i) (List.mem_map_of_mem hi))).1
    have h2 : d.getText env.cc i = d0.getText env.cc i := by
      unfold Doc.getText Tok.strippedText
      rw [hs.text]
    have h3 : d.getWhitespace i = d0.getWhitespace i := hs.whitespace i
    simp only [Function.comp]
    rw [h1, h2, h3]
  · apply List.map_congr_left
    intro i hi
    exact (mapRefTag_eq hm (hp (d.getSubTag i) (List.mem_map_of_mem hi))).1

theorem forall_proper_mapped {m : Dict Str} (hm : Spec.ProperMap m) {tags : List (Option Str)} (hp : ∀ t ∈ tags, Spec.ProperTag t) :
    ∀ t ∈ tags.map (Spec.mappedTag m), Spec.ProperTag t := by
  intro t ht
  obtain ⟨x, hx, rfl⟩ := List.mem_map.1 ht
  exact (mapRefTag_eq hm (hp x hx)).2.1

theorem proper_of_pw {α : Type} {P : α → Option Str → Prop} {l : List α} {l' : List (Option Str)} (h : Pw P l l')
    (hq : ∀ a t, P a t → Spec.ProperTag t) : ∀ t ∈ l', Spec.ProperTag t := by
  intro t ht
  obtain ⟨i, hi⟩ := List.mem_iff_getElem?.1 ht
  have hlt := (List.getElem?_eq_some_iff.1 hi).1
  rw [h.1] at hlt
  exact hq _ t (h.2 i _ t (List.getElem?_eq_getElem hlt) hi)

theorem etal_step {m : Dict Str} (hm : Spec.ProperMap m) (etal : Str) (merge : List Str) {tags : List (Option Str)}
    (hp : ∀ t ∈ tags, Spec.ProperTag t) : Pw (EtalValRel m etal merge) tags (etalMapped etal merge (tags.map (Spec.mappedTag m))) := by
  have h := pw_map_left (etalMapped_rel etal merge _ (forall_proper_mapped hm hp))
  refine h.mono ?_
  intro t ht t' _ hr
  have hmt := mapRefTag_eq hm (hp t ht)
  rcases hr with rfl | ⟨h1, w, hw, h2, h3⟩
  · refine ⟨⟨fun hn hc => hn (mappedTag_none_iff.1 hc), hmt.2.1⟩, ?_⟩
    intro v hv
    exact ⟨_, by rw [hmt.2.2, hv]; rfl, .inl rfl⟩
  · refine ⟨⟨fun _ hc => ?_, h3⟩, ?_⟩
    · rw [hc] at h2; cases h2
    · intro v hv
      refine ⟨w, h2, .inr ⟨?_, hw⟩⟩
      rw [hmt.2.2, hv] at h1
      exact Option.some.inj h1

theorem withText_proper {cc : CharClass} {d : Doc} {m : Dict Str} (hm : Spec.ProperMap m) {tokens : List Nat} {tags : List (Option Str)}
    (hp : ∀ t ∈ tags, Spec.ProperTag t) (ht : ∀ i ∈ tokens, d.getText cc i ≠ []) :
    ∀ x ∈ Spec.withText cc d m tokens tags, Spec.ProperTag x.1 ∧ x.2.1 ≠ [] := by
  intro x hx
  obtain ⟨y, hy, rfl⟩ := List.mem_map.1 hx
  have := List.of_mem_zip hy
  exact ⟨(mapRefTag_eq hm (hp _ this.2)).2.1, ht _ this.1⟩

/-- A step which keeps the values of the mapped tags. -/
theorem mapRel_of_keeps {m : Dict Str} (hm : Spec.ProperMap m) {t t' : Option Str} (hp : Spec.ProperTag t)
    (hp' : Spec.ProperTag t') (h : Spec.mappedTag m t ≠ none → Spec.tagValue t' = Spec.tagValue (Spec.mappedTag m t)) : MapRel m t t' := by
  have hmt := mapRefTag_eq hm hp
  refine ⟨⟨fun hn hc => ?_, hp'⟩, ?_⟩
  · have hn' : Spec.mappedTag m t ≠ none := fun h => hn (mappedTag_none_iff.1 h)
    have := h hn'
    rw [hc] at this
    exact hn' (tagValue_none_iff.1 this.symm)
  · intro v hv
    have hn' : Spec.mappedTag m t ≠ none := by
      intro hc
      rw [mappedTag_none_iff.1 hc] at hv
      cases hv
    rw [h hn', hmt.2.2, hv]
    rfl

theorem suffix_step {cc : CharClass} {d : Doc} {m : Dict Str} (hm : Spec.ProperMap m) {tokens : List Nat} {tags : List (Option Str)}
    (hl : tags.length = tokens.length) (hp : ∀ t ∈ tags, Spec.ProperTag t) (ht : ∀ i ∈ tokens, d.getText cc i ≠ []) (enabled : List Str) :
    Pw (MapRel m) tags (suffixExtended enabled (Spec.withText cc d m tokens tags)) := by
  have hx := withText_proper (cc := cc) (d := d) hm hp ht
  have h := suffixExtended_rel enabled _ (fun x h => (hx x h).1) (fun x h => (hx x h).2)
  have h0 := (pw_withText (cc := cc) (d := d) (m := m) hl).comp h (R := fun t t' => t' = Spec.mappedTag m t ∨
    (Spec.mappedTag m t = none ∧ Spec.ProperTag t')) (by
      intro t x t' he hr
      rcases hr with h | ⟨h1, _, _, _, h2⟩
      · left; rw [h, he]
      · right; rw [← he]; exact ⟨h1, h2⟩)
  refine h0.mono ?_
  intro t htm t' _ hr
  have hmt := mapRefTag_eq hm (hp t htm)
  rcases hr with rfl | ⟨h1, h2⟩
  · exact mapRel_of_keeps hm (hp t htm) hmt.2.1 (fun _ => rfl)
  · exact mapRel_of_keeps hm (hp t htm) h2 (fun hn => absurd h1 hn)

theorem prefixExtended_rel {env : RefEnv} {regex : Dict Str} {enabled : List Str} {toks : List RefTok} {out : List (Option Str)}
    (hp : ∀ x ∈ toks, Spec.ProperTag x.1) (h : prefixExtended env regex enabled toks = .ok out) : Pw (PreRel enabled) toks out := by
  have := prefixLoop_rel env regex enabled _ (refGroups_groupBy toks hp) false out h
  rw [groupBy_flatten] at this
  exact this

theorem prefix_step {env : RefEnv} {d : Doc} {m : Dict Str} (hm : Spec.ProperMap m) {tokens : List Nat} {tags out : List (Option Str)}
    (hl : tags.length = tokens.length) (hp : ∀ t ∈ tags, Spec.ProperTag t) (ht : ∀ i ∈ tokens, d.getText env.cc i ≠ [])
    {regex : Dict Str} {enabled : List Str} (h : prefixExtended env regex enabled (Spec.withText env.cc d m tokens tags) = .ok out) :
    Pw (MapRel m) tags out := by
  have hx := withText_proper (cc := env.cc) (d := d) hm hp ht
  have h := prefixExtended_rel (fun x h => (hx x h).1) h
  have h0 := (pw_withText (cc := env.cc) (d := d) (m := m) hl).comp h (R := fun t t' => t' = Spec.mappedTag m t ∨
    t' = Spec.insideTag (Spec.mappedTag m t) ∨ (Spec.mappedTag m t = none ∧ Spec.ProperTag t')) (by
      intro t x t' he hr
      rcases hr with h | h | ⟨h1, _, _, _, h2⟩
      · left; rw [h, he]
      · right; left; rw [h, he]
      · right; right; rw [← he]; exact ⟨h1, h2⟩)
  refine h0.mono ?_
  intro t htm t' _ hr
  have hmt := mapRefTag_eq hm (hp t htm)
  rcases hr with rfl | rfl | ⟨h1, h2⟩
  · exact mapRel_of_keeps hm (hp t htm) hmt.2.1 (fun _ => rfl)
  · have := insideTag_spec hmt.2.1
    exact mapRel_of_keeps hm (hp t htm) this.2 (fun _ => this.1)
  · exact mapRel_of_keeps hm (hp t htm) h2 (fun hn => absurd h1 hn)

theorem merge_step {m : Dict Str} (hm : Spec.ProperMap m) {tags : List (Option Str)} (hp : ∀ t ∈ tags, Spec.ProperTag t) (ecfg : ExtendCfg) :
    Pw (MapRel m) tags (extendedLineTags ecfg (tags.map (Spec.mappedTag m))) := by
  have hpm := forall_proper_mapped hm hp
  have hlen := extended_length ecfg _ hpm
  have hprop := extended_proper ecfg _ hpm
  refine ⟨by rw [hlen, List.length_map], ?_⟩
  intro i t t' ht ht'
  have htm := hp t (List.mem_of_getElem? ht)
  have hpt' := hprop t' (List.mem_of_getElem? ht')
  have hi : (tags.map (Spec.mappedTag m))[i]? = some (Spec.mappedTag m t) := by rw [List.getElem?_map, ht]; rfl
  refine mapRel_of_keeps hm htm hpt' ?_
  intro hn
  cases hv : Spec.tagValue (Spec.mappedTag m t) with
  | none => exact absurd (tagValue_none_iff.1 hv) hn
  | some v =>
    have := valLoop_keeps ecfg (runs ((tags.map (Spec.mappedTag m)).map stripTagPrefix)) none i v (by
      rw [runs_flatten, List.getElem?_map, hi, Option.map_some, stripTagPrefix_eq_tagValue, hv])
    rw [← extended_values ecfg _ hpm, List.getElem?_map, ht', Option.map_some, stripTagPrefix_eq_tagValue] at this
    exact Option.some.inj this

theorem Spec.RefSteps.rels {env : RefEnv} {cfg : RefConfig} {d : Doc} {tokens : List Nat} {t0 t1 t2 t3 t4 : List (Option Str)}
    (h : Spec.RefSteps env cfg d tokens t0 t1 t2 t3 t4) (hm : Spec.ProperMap cfg.subTagMap) (hp : ∀ i ∈ tokens, Spec.ProperTag (d.getSubTag i))
    (ht : ∀ i ∈ tokens, d.getText env.cc i ≠ []) :
    Pw (EtalValRel cfg.subTagMap cfg.etal cfg.etalMerge) t0 t1 ∧ Pw (MapRel cfg.subTagMap) t1 t2 ∧ Pw (MapRel cfg.subTagMap) t2 t3 ∧
    Pw (MapRel cfg.subTagMap) t3 t4 := by
  have p0 : ∀ t ∈ t0, Spec.ProperTag t := by
    intro t h0
    rw [h.before] at h0
    obtain ⟨i, hi, rfl⟩ := List.mem_map.1 h0
    exact hp i hi
  have l0 : t0.length = tokens.length := by rw [h.before, List.length_map]
  have r1 := etal_step hm cfg.etal cfg.etalMerge p0
  rw [← h.etal] at r1
  have p1 := proper_of_pw r1 (fun _ _ h => h.1.2)
  have r2 := suffix_step (cc := env.cc) (d := d) (tokens := tokens) hm (by rw [r1.1, l0]) p1 ht cfg.suffixTags
  rw [← h.suffixes] at r2
  have p2 := proper_of_pw r2 (fun _ _ h => h.1.2)
  have r3 := prefix_step hm (by rw [r2.1, r1.1, l0]) p2 ht h.prefixes
  have p3 := proper_of_pw r3 (fun _ _ h => h.1.2)
  have r4 := merge_step hm p3 (refExtendCfg cfg)
  rw [← h.merged] at r4
  exact ⟨r1, r2, r3, r4⟩

theorem pw_of_sub {d : Doc} {P : Option Str → Option Str → Prop} {tokens : List Nat} {tags0 tags : List (Option Str)}
    (ht : tokens.map d.getSubTag = tags0) (h : Pw P tags0 tags) (hq : ∀ t t', P t t' → t ≠ none → t' ≠ none) :
    Pw (fun i t => d.getSubTag i ≠ none → t ≠ none) tokens tags := by
  subst ht
  exact (pw_map_left h).mono (fun i _ t _ hr => hq _ _ hr)

theorem refEntity_effect {env : RefEnv} {cfg : RefConfig} {d d' : Doc} {tokens : List Nat} (h : refEntity env cfg d tokens = .ok d')
    (hnd : tokens.Nodup) (hm : Spec.ProperMap cfg.subTagMap) (hp : ∀ i ∈ tokens, Spec.ProperTag (d.getSubTag i))
    (ht : ∀ i ∈ tokens, d.getText env.cc i ≠ []) :
    SubOnly d d' ∧ (∀ j, j ∉ tokens → d'.getSubTag j = d.getSubTag j) ∧
    ∃ t1 t2 t3, Spec.RefSteps env cfg d tokens (tokens.map d.getSubTag) t1 t2 t3 (tokens.map d'.getSubTag) := by
  have p0 : ∀ t ∈ tokens.map d.getSubTag, Spec.ProperTag t := by
    intro t h0
    obtain ⟨i, hi, rfl⟩ := List.mem_map.1 h0
    exact hp i hi
  have l0 : (tokens.map d.getSubTag).length = tokens.length := by rw [List.length_map]
  -- et al
  have e1 : mapEtal cfg d tokens = setRefTags d (tokens.zip (etalMapped cfg.etal cfg.etalMerge ((tokens.map d.getSubTag).map (Spec.mappedTag cfg.subTagMap)))) := by
    unfold mapEtal
    rw [(refToks_eq (env := env) (.refl d) rfl hm p0).2]
  have r1 := etal_step hm cfg.etal cfg.etalMerge p0
  generalize ht1 : etalMapped cfg.etal cfg.etalMerge ((tokens.map d.getSubTag).map (Spec.mappedTag cfg.subTagMap)) = t1 at e1 r1
  have p1 := proper_of_pw r1 (fun _ _ h => h.1.2)
  have k1 := setRefTags_keep hnd (pw_of_sub rfl r1 (fun _ _ h => h.1.1)) p1
  have s1 := subOnly_setRefTags (tokens.zip t1) d
  rw [← e1] at k1 s1
  unfold refEntity addIdnoPrefix at h
  generalize mapEtal cfg d tokens = d1 at k1 s1 e1 h
  -- suffixes
  have e2 : addNameSuffix env cfg d1 tokens = setRefTags d1 (tokens.zip (suffixExtended cfg.suffixTags (Spec.withText env.cc d cfg.subTagMap tokens t1))) := by
    unfold addNameSuffix
    rw [(refToks_eq s1.same k1.1 hm p1).1]
  have r2 := suffix_step (cc := env.cc) (d := d) (tokens := tokens) hm (by rw [r1.1, l0]) p1 ht cfg.suffixTags
  generalize ht2 : suffixExtended cfg.suffixTags (Spec.withText env.cc d cfg.subTagMap tokens t1) = t2 at e2 r2
  have p2 := proper_of_pw r2 (fun _ _ h => h.1.2)
  have k2 := setRefTags_keep hnd (pw_of_sub k1.1 r2 (fun _ _ h => h.1.1)) p2
  have s2 := subOnly_setRefTags (tokens.zip t2) d1
  rw [← e2] at k2 s2
  -- prefixes
  generalize addNameSuffix env cfg d1 tokens = d2 at k2 s2 e2 h
  have s12 := s1.trans s2
  rw [(refToks_eq s12.same k2.1 hm p2).1] at h
  cases hpre : prefixExtended env cfg.prefixRegex cfg.prefixTags (Spec.withText env.cc d cfg.subTagMap tokens t2) with
  | error e => rw [hpre] at h; cases h
  | ok t3 =>
    rw [hpre] at h
    have r3 := prefix_step hm (by rw [r2.1, r1.1, l0]) p2 ht hpre
    have p3 := proper_of_pw r3 (fun _ _ h => h.1.2)
    have k3 := setRefTags_keep hnd (pw_of_sub k2.1 r3 (fun _ _ h => h.1.1)) p3
    have s3 := subOnly_setRefTags (tokens.zip t3) d2
    have h : Except.ok (mergeSubTags cfg (setRefTags d2 (tokens.zip t3)) tokens) = (Except.ok d' : Except Err Doc) := h
    have h := Except.ok.inj h
    generalize setRefTags d2 (tokens.zip t3) = d3 at k3 s3 h
    have r4 := merge_step hm p3 (refExtendCfg cfg)
    have e4 : d' = setRefTags d3 (tokens.zip (extendedLineTags (refExtendCfg cfg) (t3.map (Spec.mappedTag cfg.subTagMap)))) := by
      rw [← h]
      unfold mergeSubTags
      rw [(refToks_eq (env := env) (s12.trans s3).same k3.1 hm p3).2]
    generalize ht4 : extendedLineTags (refExtendCfg cfg) (t3.map (Spec.mappedTag cfg.subTagMap)) = t4 at e4 r4
    have p4 := proper_of_pw r4 (fun _ _ h => h.1.2)
    have k4 := setRefTags_keep hnd (pw_of_sub k3.1 r4 (fun _ _ h => h.1.1)) p4
    have s4 := subOnly_setRefTags (tokens.zip t4) d3
    rw [← e4] at k4 s4
    refine ⟨(s12.trans s3).trans s4, ?_, t1, t2, t3, ⟨rfl, ht1.symm, ht2.symm, hpre, ?_⟩⟩
    · intro j hj
      rw [k4.2 j hj, k3.2 j hj, k2.2 j hj, k1.2 j hj]
    · rw [k4.1, ht4]

end Verif
